import Verif.Model.PadClients
/-!
# What a process sees of its own keys

Keys by their text; `st` is what is stored, `nil` tells the value `None`. What `keys()` gives is left open, and so is when
`set` and `del` raise, as these may depend on what other processes do to the index.
-/
namespace Verif.Spec
open Verif Verif.Model

variable {V : Type}

/-- what reading a key gives: `KeyError` for a stored `None`, `FileNotFoundError` for nothing -/
def ownGet (nil : V → Bool) : Option V → Except PyErr (PadOut V)
  | none => .error .fileNotFound
  | some v => if nil v then .error .keyError else .ok (.val v)

/-- with `k` now having `x` -/
def ownPut (st : Str → Option V) (k : Str) (x : Option V) : Str → Option V := fun k' => if k' = k then x else st k'

/-- one call -/
def OwnStep (nil : V → Bool) (st : Str → Option V) : PadCall V → Except PyErr (PadOut V) → (Str → Option V) → Prop
  | .get k, out, st' => st' = st ∧ out = ownGet nil (st k.text)
  | .set k v eo, out, st' =>
    (out = .ok .done ∧ (eo = true ∨ st k.text = none) ∧ st' = ownPut st k.text (some v)) ∨ ((∃ e, out = .error e) ∧ st' = st)
  | .del k, out, st' => (st k.text = none ∧ out = .error .keyError ∧ st' = st) ∨
      (st k.text ≠ none ∧ out ≠ .error .fileNotFound ∧ st' = ownPut st k.text none)
  | .keys, _, st' => st' = st

/-- calls one after the other -/
def OwnLegal (nil : V → Bool) : (Str → Option V) → List (PadCall V × Except PyErr (PadOut V)) → (Str → Option V) → Prop
  | st, [], st' => st' = st
  | st, (o, out) :: t, st' => ∃ st1, OwnStep nil st o out st1 ∧ OwnLegal nil st1 t st'

end Verif.Spec
