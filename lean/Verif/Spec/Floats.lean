import Verif.Model.Floats
/-!
# Numbers of a format, and how far two arrays are apart
-/
namespace Verif.Spec
open Verif Verif.Model

/-- a number of the format -/
def Rep (F : Fmt) (q : ℚ) : Prop := ∃ m e : ℤ, |m| < 2 ^ F.prec ∧ F.emin ≤ e ∧ e ≤ F.emax ∧ q = m * 2 ^ e

/-- element by element, the second array is within `ae` of the first, and within `re` of it relatively, but for the rounding of
one quotient -/
def Within (ae re : ℚ) (l r : List ℚ) : Prop :=
  List.Forall₂ (fun x y => |x - y| ≤ ae ∧ |x - y| * (1 - 2 ^ (-53 : ℤ)) ≤ |x| * (re + 2 ^ (-1075 : ℤ))) l r

end Verif.Spec
