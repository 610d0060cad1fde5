import Verif.Spec.Nested
/-!
# Specification vocabulary for `random_nested_dict`
-/
namespace Verif.Spec
open Verif
variable {A : Type} [DecidableEq A]

/-- `a` is the leaf of `v` at path `p` -/
def LeafAt (v : Val A) (p : List A) (a : A) : Prop := lookupPath p v = some (.atom a)

/-- in the sequence of writes `W`, `a` was written at `p`, and nothing was written later at `p` or at a level above -/
def LastWrite (W : List (List A × A)) (p : List A) (a : A) : Prop :=
  ∃ i : Nat, W[i]? = some (p, a) ∧ ∀ (j : Nat) q b, i < j → W[j]? = some (q, b) → ¬ q <+: p

/-- every level of `v` is a plain dict, with each key once, and no level below the top is empty -/
def PlainLevels (v : Val A) : Prop :=
  ∀ p t l, lookupPath p v = some (.map t l) → t = .dict ∧ Dict.WF l ∧ (p ≠ [] → l ≠ [])

end Verif.Spec
