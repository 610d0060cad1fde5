import Verif.Model.Index
import Verif.Model.LockTS
/-!
# `SlidingLock` with `max_spins` set (implements.py:158-249)

`max_spins` is an attribute users may set on a lock; `spins` counts the waits of the lock object and is never reset.
Sleeping (`delay`) is not modelled.
-/
namespace Verif.Model
open Verif

/-- implements.py:223-233: look, wait, give up with `TimeoutError`. Result: the outcome and the new `spins` -/
def spinT (name : Str) (floor number maxSpins : Nat) : Nat → Nat → Prog (Except PyErr Unit × Nat)
  | 0, _ => .stuck
  | f + 1, spins => do
    if ← scanLocks name floor (number - floor) then pure (.ok (), spins)
    else if maxSpins < spins + 1 then pure (.error .timeoutError, spins + 1)       -- 226-232
    else spinT name floor number maxSpins f (spins + 1)

/-- implements.py:172-180, 187-224 `__enter__`; on `TimeoutError` the release of 235-249 with `acquired` `False`, which
does not write the count block -/
def lockEnterT (fuel : Nat) (name : Str) (maxSpins spins : Nat) : Prog (Except PyErr Held × Nat) := do
  let count ← openBlock (countAddr name) 5                         -- 161
  let floor := fromLE (← read count)                               -- 188
  let number ← renumber name fuel (floor + 1)                      -- 189-196
  match ← (create (lockAddr name number) 1).attempt with           -- 213-216
  | .ok _ => do
    let r ← spinT name floor number maxSpins fuel spins            -- 223-224
    match r.1 with
    | .ok () => pure (.ok { count, number, own := true }, r.2)
    | .error e => do
      unlink (lockAddr name number)                                -- 175-179, 240-246
      unlink (markerAddr name number)
      pure (.error e, r.2)
  | .error .fileExists => pure (.ok { count, number, own := false }, spins)
  | .error e => do
    unlink (markerAddr name number)
    .raise e

/-- `with lock: body` on a lock object that has waited `spins` times so far: what the statement returns or raises, and the
new `spins` -/
def withLockT {α : Type} (fuel : Nat) (name : Str) (maxSpins spins : Nat) (body : Prog α) : Prog (Except PyErr α × Nat) := do
  let e ← lockEnterT fuel name maxSpins spins
  match e.1 with
  | .error x => pure (.error x, e.2)
  | .ok h => do
    let r ← body.attempt
    lockRelease name h
    pure (r, e.2)

namespace LockTS
variable {ι : Type} [DecidableEq ι]

/-- what may happen: the next operation of a process, or its giving up -/
inductive Ev (ι : Type) where
  | step (i : ι)
  | quit (i : ι)

/-- a process that has just seen an earlier lock block gives up (228-232): it goes on to unlink its own, without writing the
count block -/
def quit (σ : St ι) (i : ι) : St ι :=
  match σ.pc i with
  | .scanning f n d => if σ.lock (f + (d - 1)) then { σ with pc := put σ.pc i (.unlocking n) } else σ
  | _ => σ

def nextT (σ : St ι) : Ev ι → St ι
  | .step i => next σ i
  | .quit i => quit σ i

/-- the state after a schedule with timeouts -/
def runsT (σ : St ι) (sched : List (Ev ι)) : St ι := sched.foldl nextT σ

end LockTS
end Verif.Model
