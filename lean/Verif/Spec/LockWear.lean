import Verif.Model.LockTimeout
import Verif.Lemmas.Shm
/-!
# A `SlidingLock` used again and again
-/
namespace Verif.Spec
open Verif Verif.Model Verif.Lemmas
variable {α : Type}

/-- what a `with` statement should give whose body returns or raises this -/
def asOutcome : Except PyErr α → Outcome α
  | .ok a => .ok a
  | .error e => .err e

/-- `with SlidingLock(name): …` once for each of these results, one after the other: what each statement gives, and the memory
in the end -/
def useAll (E : Env) (fuel : Nat) (name : Str) : List (Except PyErr α) → Store → List (Outcome α) × Store
  | [], s => ([], s)
  | r :: t, s =>
    let one := (withLock (.sliding fuel) name (Prog.ofExcept r)).run E s
    let rest := useAll E fuel name t one.2
    (one.1 :: rest.1, rest.2)

/-- the body returns or raises, and leaves the blocks of the lock alone; it may do what it likes with other blocks -/
def Leaves (E : Env) (mine : Str → Prop) (body : Prog α) : Prop :=
  ∀ s : Store, s.WF → ∃ o s', body.run E s = (o, s') ∧ o ≠ .stuck ∧ s'.WF ∧
    ∀ x, mine x → s'.names x = s.names x ∧ s'.content x = s.content x

end Verif.Spec
