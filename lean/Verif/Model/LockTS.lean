import Verif.Py.Tactics
/-!
# `SlidingLock` among concurrent processes (implements.py:153-257) as a transition system

Each step is one primitive shared-memory operation of one process (the two that open the `count` block, 161, are one).
`Verif/Lemmas/LockSim.lean` shows (`sim_step`, for schedules that disturb no doorway) that the programs of
`Verif/Model/Index.lean`, interleaved, take exactly these steps. Any number of
processes; `ι` is the type of their names. `max_spins` is `None`, so waiting has no timeout.
-/
namespace Verif.Model.LockTS

/-- where a process is -/
inductive Pc where
  /-- not using the lock -/
  | out
  /-- `__enter__` called, about to read the count block (188) -/
  | reading
  /-- about to try to create the marker `k` (191-194) -/
  | marking (floor k : Nat)
  /-- has made the marker `n`, about to create the lock block `n` (213-216) -/
  | placing (floor n : Nat)
  /-- has made the lock block `n`, about to look for the lock block `floor + d - 1` (200-208) -/
  | scanning (floor n d : Nat)
  /-- `acquired`; `own` tells whether it made its lock block, or found one (219-222) -/
  | inside (n : Nat) (own : Bool)
  /-- has written the count block, about to unlink its lock block (240-246) -/
  | unlocking (n : Nat)
  /-- about to unlink its marker (240-246) -/
  | unmarking (n : Nat)
  deriving DecidableEq

/-- what the processes share (the number in the count block, which markers and lock blocks exist), and where they are -/
structure St (ι : Type) where
  count : Nat
  marker : Nat → Bool
  lock : Nat → Bool
  pc : ι → Pc

variable {ι : Type} [DecidableEq ι]

/-- a function with one value changed -/
def put {κ α : Type} [DecidableEq κ] (f : κ → α) (k : κ) (v : α) : κ → α := fun x => if x = k then v else f x

/-- one step of process `i` -/
def next (σ : St ι) (i : ι) : St ι :=
  match σ.pc i with
  | .out => { σ with pc := put σ.pc i .reading }                                              -- 161, 172
  | .reading => { σ with pc := put σ.pc i (.marking σ.count (σ.count + 1)) }                  -- 188-189
  | .marking f k =>
    if σ.marker k then { σ with pc := put σ.pc i (.marking f (k + 1)) }                       -- 195-196
    else { σ with marker := put σ.marker k true, pc := put σ.pc i (.placing f k) }            -- 192-194
  | .placing f n =>
    if σ.lock n then { σ with pc := put σ.pc i (.inside n false) }                            -- 219-222
    else { σ with lock := put σ.lock n true, pc := put σ.pc i (.scanning f n (n - f)) }       -- 214-216
  | .scanning f n d =>
    if σ.lock (f + (d - 1)) then { σ with pc := put σ.pc i (.scanning f n (n - f)) }          -- 202-207, 223-224
    else if d ≤ 1 then { σ with pc := put σ.pc i (.inside n true) }                           -- 208-210
    else { σ with pc := put σ.pc i (.scanning f n (d - 1)) }                                  -- 201
  | .inside n own =>
    { σ with count := n, pc := put σ.pc i (if own then .unlocking n else .unmarking n) }      -- 236-239
  | .unlocking n => { σ with lock := put σ.lock n false, pc := put σ.pc i (.unmarking n) }    -- 240-246, "lock"
  | .unmarking n => { σ with marker := put σ.marker n false, pc := put σ.pc i .out }          -- 240-246, "marker"

/-- no process uses the lock, nothing but the count block exists -/
def start (c0 : Nat) : St ι := ⟨c0, fun _ => false, fun _ => false, fun _ => .out⟩

/-- the state after a schedule -/
def runs (σ : St ι) (sched : List ι) : St ι := sched.foldl next σ

end Verif.Model.LockTS
