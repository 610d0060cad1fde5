import Verif.Model.Index
/-!
# `SlidingLock` objects that are made, entered, left and closed (implements.py:153-257)

`max_spins` is `None`. `lockEnter` of `Verif/Model/Index.lean` is `lockNew` followed by `lockEnterOn`.
-/
namespace Verif.Model
open Verif

/-- implements.py:158-169 `SlidingLock(name)`: what is kept is the count block -/
def lockNew (name : Str) : Prog Nat := openBlock (countAddr name) 5

/-- implements.py:171-180, 187-224 `__enter__` of an object that has the count block `count` and is not entered. The object keeps
its count block even if the name has been unlinked or given to another block since. -/
def lockEnterOn (fuel : Nat) (name : Str) (count : Nat) : Prog Held := do
  let floor := fromLE (← read count)                               -- 188
  let number ← renumber name fuel (floor + 1)                      -- 189-196
  match ← (create (lockAddr name number) 1).attempt with           -- 213-216
  | .ok _ => do
    spin name floor number fuel                                    -- 223-224
    pure { count, number, own := true }
  | .error .fileExists => pure { count, number, own := false }     -- 219-222
  | .error e => do
    unlink (markerAddr name number)                                -- 175-179, 240-246
    .raise e

/-- implements.py:253-256, for one block that the object has: `FileNotFoundError` is ignored -/
def tryDelete (a : Str) : Prog Unit := do
  match ← (deleteBlock a).attempt with
  | .ok () => pure ()
  | .error .fileNotFound => pure ()
  | .error e => .raise e

/-- implements.py:251-256 `close`: the lock block if the object has one, the count block, the marker if it has one (`None` has no
`name`: `AttributeError`, ignored) -/
def lockClose (name : Str) : Option Held → Prog Unit
  | none => tryDelete (countAddr name)
  | some h => do
    if h.own then tryDelete (lockAddr name h.number)
    tryDelete (countAddr name)
    tryDelete (markerAddr name h.number)

/-- what may be done to the objects, which are numbered -/
inductive LifeOp where
  /-- `lock_i = SlidingLock(name)` -/
  | new (i : Nat)
  /-- `lock_i.__enter__()` -/
  | enter (i : Nat)
  /-- `lock_i.__exit__(…)` -/
  | exit (i : Nat)
  /-- `lock_i.close()` -/
  | close (i : Nat)

/-- shared memory, the count block of each object, and what each object that is entered holds -/
structure LifeSt where
  store : Store
  objs : Nat → Option Nat
  inside : Nat → Option Held

/-- no objects -/
def LifeSt.fresh (s : Store) : LifeSt := ⟨s, fun _ => none, fun _ => none⟩

/-- a function with one value changed -/
def setAt {β : Type} (f : Nat → β) (i : Nat) (v : β) : Nat → β := fun j => if j = i then v else f j

/-- one call -/
def lifeStep (E : Env) (fuel : Nat) (name : Str) (st : LifeSt) : LifeOp → Outcome Unit × LifeSt
  | .new i => match (lockNew name).run E st.store with                                  -- 158-169
    | (.ok c, s) => (.ok (), ⟨s, setAt st.objs i (some c), setAt st.inside i none⟩)
    | (.err e, s) => (.err e, { st with store := s })
    | (.stuck, s) => (.stuck, { st with store := s })
  | .enter i => match st.objs i with                                                    -- 171-180
    | none => (.err .nameError, st)
    | some c => match (lockEnterOn fuel name c).run E st.store with
      | (.ok h, s) => (.ok (), { st with store := s, inside := setAt st.inside i (some h) })
      | (.err e, s) => (.err e, { st with store := s })
      | (.stuck, s) => (.stuck, { st with store := s })
  | .exit i => match st.inside i with                                                   -- 182-185, 235-249
    | none => (.ok (), st)
    | some h => match (lockRelease name h).run E st.store with
      | (.ok (), s) => (.ok (), { st with store := s, inside := setAt st.inside i none })
      | (.err e, s) => (.err e, { st with store := s })
      | (.stuck, s) => (.stuck, { st with store := s })
  | .close i => match st.objs i with                                                    -- 251-256
    | none => (.err .nameError, st)
    | some _ => match (lockClose name (st.inside i)).run E st.store with
      | (.ok (), s) => (.ok (), { st with store := s })
      | (.err e, s) => (.err e, { st with store := s })
      | (.stuck, s) => (.stuck, { st with store := s })

/-- one call after the other, as long as they return -/
def lifeRun (E : Env) (fuel : Nat) (name : Str) : List LifeOp → LifeSt → Outcome Unit × LifeSt
  | [], st => (.ok (), st)
  | op :: t, st => match lifeStep E fuel name st op with
    | (.ok (), st') => lifeRun E fuel name t st'
    | r => r

end Verif.Model
