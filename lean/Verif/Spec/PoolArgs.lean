import Verif.Spec.Pickle
import Verif.Model.PoolArgs
/-!
# What functions do to the objects they are given
-/
namespace Verif.Spec
open Verif Verif.Model

/-- the objects a reference leads to -/
inductive PReach (h : PHeap) (r : PRef) : Nat → Prop
  | here {a : Nat} : r = .obj a → PReach h r a
  | step {a b : Nat} {n : PNode} : PReach h r a → h[a]? = some n → .obj b ∈ PNode.refs n → PReach h r b

/-- what a reference leads to is there, and as Python has it -/
def OKFrom (h : PHeap) (r : PRef) : Prop := ∀ a, PReach h r a → ∃ n, h[a]? = some n ∧ NodeOK h n

/-- a codec that brings back the same value -/
def GraphCodec (c : Codec (PHeap × PRef)) : Prop :=
  ∀ h r b, OKFrom h r → c.encode (h, r) = .ok b → ∃ h' r', c.decode b = .ok (h', r') ∧ SameGraph h r h' r'

/-- a function of what its argument is, not of where it is: same arguments, same results -/
def ByValue (f : PyFunc) : Prop :=
  ∀ h r h' r', OKFrom h r → SameGraph h r h' r' → SameGraph (f h r).2 (f h r).1 (f h' r').2 (f h' r').1

/-- what a function returns is as Python has it, if its argument is -/
def KeepsOK (f : PyFunc) : Prop := ∀ h r, OKFrom h r → OKFrom (f h r).2 (f h r).1

/-- a function that may make objects but changes none -/
def ChangesNone (f : PyFunc) : Prop := ∀ h r, h <+: (f h r).2

/-- lists and dicts can change; strings, bytes and tuples cannot -/
def CanChange : PNode → Prop
  | .list _ | .dict _ => True
  | _ => False

/-- a function that changes nothing but lists and dicts its argument leads to, and returns nothing but what its argument leads
to or is new -/
structure ChangesOwn (f : PyFunc) : Prop where
  grows : ∀ h r, h.length ≤ (f h r).2.length
  others : ∀ h r a n, h[a]? = some n → ¬ (PReach h r a ∧ CanChange n) → (f h r).2[a]? = some n
  returns : ∀ h r a, OKFrom h r → PReach (f h r).2 (f h r).1 a → PReach h r a ∨ h.length ≤ a

/-- no list or dict is in the arguments of two records -/
def Apart (h : PHeap) (as : List PRef) : Prop :=
  as.Pairwise fun r s => ∀ a n, PReach h r a → PReach h s a → h[a]? = some n → ¬ CanChange n

/-- each record has a result: the same value as the function gives when called once, with that record's argument as the caller
has it; or the codec failed -/
def OneByOne (c : Codec (PHeap × PRef)) (f : PyFunc) (h : PHeap) (as : List PRef) (mode : PoolMode) : Prop :=
  (mapObjects c f h as mode).1.length = as.length ∧
  ∀ (i : Nat) a x, as[i]? = some a → (mapObjects c f h as mode).1[i]? = some x →
    (∃ h' r, x = .ok (h', r) ∧ SameGraph (f h a).2 (f h a).1 h' r) ∨
    (mode ≠ .serial ∧ ∃ e v, x = .error e ∧ c.encode v = .error e)

end Verif.Spec
