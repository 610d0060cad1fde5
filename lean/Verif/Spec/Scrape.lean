import Verif.Py.Str
/-! # First occurrences -/
namespace Verif.Spec
open Verif

/-- `l` begins with `before`, then `needle`, and that is the first place where `needle` is -/
def FirstAt (needle before l : Bytes) : Prop :=
  (∃ after, l = before ++ needle ++ after) ∧ ∀ b a, l = b ++ needle ++ a → before.length ≤ b.length

/-- `needle` is nowhere in `l` -/
def Nowhere (needle l : Bytes) : Prop := ∀ b a, l ≠ b ++ needle ++ a

end Verif.Spec
