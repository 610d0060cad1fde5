import Verif.Py.Err
import Verif.Py.Val
import Mathlib.Data.List.Forall2
/-!
# Vocabulary: `dig_*` and `dig_and_edit` with functions that raise

Independent of the model.
-/
namespace Verif.Spec
open Verif
variable {A : Type}

mutual
/-- the levels of a nested mapping, each the list of its pairs: a level before its sublevels, sublevels in order -/
def levels (mt : Tag → Bool) : Val A → List (List (A × Val A))
  | .atom _ => []
  | .map _ l => l :: levelsBelow mt l
def levelsBelow (mt : Tag → Bool) : List (A × Val A) → List (List (A × Val A))
  | [] => []
  | (_, v) :: r => (if v.isA mt then levels mt v else []) ++ levelsBelow mt r
end

/-- the pairs of `l`, in order, for which the predicate is true -/
def hits (p : A → Val A → Except PyErr Bool) (l : List (A × Val A)) : List (A × Val A) :=
  l.filter fun kv => match p kv.1 kv.2 with
    | .ok b => b
    | .error _ => false

/-- the predicate returns for this pair -/
def Returns (p : A → Val A → Except PyErr Bool) (kv : A × Val A) : Prop := ∃ b, p kv.1 kv.2 = .ok b

/-- the predicate returns false for this pair -/
def Misses (p : A → Val A → Except PyErr Bool) (kv : A × Val A) : Prop := p kv.1 kv.2 = .ok false

/-- `v'` has the keys of `v` in the same order; each value is the one of `v`, or what the setter makes of it where the filter
holds, or such a value with parts of it edited in the same way -/
inductive PartEdit (f : A → Val A → Except PyErr Bool) (s : A → Val A → Except PyErr (Val A)) : Val A → Val A → Prop
  | same (v : Val A) : PartEdit f s v v
  | map (t : Tag) (l l' : List (A × Val A)) (w : List (Val A)) (hw : w.length = l.length) (hl : l'.length = l.length)
    (key : ∀ (i : Nat) x y, l[i]? = some x → l'[i]? = some y → y.1 = x.1)
    (set : ∀ (i : Nat) x z, l[i]? = some x → w[i]? = some z → z = x.2 ∨ (f x.1 x.2 = .ok true ∧ s x.1 x.2 = .ok z))
    (sub : ∀ (i : Nat) z y, w[i]? = some z → l'[i]? = some y → PartEdit f s z y.2) : PartEdit f s (.map t l) (.map t l')

/-- `v'` is `v` with every pair edited for which the filter holds, at all levels, also in what the setter has made -/
inductive WholeEdit (f : A → Val A → Except PyErr Bool) (s : A → Val A → Except PyErr (Val A)) (mt : Tag → Bool) :
    Val A → Val A → Prop
  | map (t : Tag) (l l' : List (A × Val A)) (w : List (Val A)) (hw : w.length = l.length) (hl : l'.length = l.length)
    (key : ∀ (i : Nat) x y, l[i]? = some x → l'[i]? = some y → y.1 = x.1)
    (set : ∀ (i : Nat) x z, l[i]? = some x → w[i]? = some z →
      (f x.1 x.2 = .ok false ∧ z = x.2) ∨ (f x.1 x.2 = .ok true ∧ s x.1 x.2 = .ok z))
    (leaf : ∀ (i : Nat) z y, w[i]? = some z → l'[i]? = some y → z.isA mt = false → y.2 = z)
    (sub : ∀ (i : Nat) z y, w[i]? = some z → l'[i]? = some y → z.isA mt = true → WholeEdit f s mt z y.2) :
    WholeEdit f s mt (.map t l) (.map t l')

end Verif.Spec
