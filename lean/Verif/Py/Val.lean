import Verif.Py.Tactics
import Verif.Py.Dict
/-!
# Nested Python values

`Val A`: either an `atom` (any Python object that is not a mapping: numbers, strings, lists, tuples, None, …, which
are also the things used as dictionary keys) or a mapping with a concrete class `Tag` and its items in insertion order.
Simplification: values form a finite tree (no sharing between branches, no cycles).
-/
namespace Verif

/-- Concrete classes of mapping that the library distinguishes. `other` is a `Mapping` that is not a `dict`. -/
inductive Tag where
  | dict | ordered | nesting | other
  deriving DecidableEq, Repr, Inhabited

/-- `isinstance(x, dict)`: `OrderedDict` and `NestingDict` (a `defaultdict`) are subclasses of `dict`. -/
def Tag.isDict : Tag → Bool
  | .other => false
  | _ => true

inductive Val (A : Type) where
  | atom (a : A)
  | map (t : Tag) (items : List (A × Val A))
  deriving Inhabited, Repr

namespace Val
variable {A : Type}

/-- `isinstance(v, Mapping)` -/
def isMapping : Val A → Bool
  | .atom _ => false
  | .map _ _ => true

/-- `isinstance(v, mtypes)`, where `mtypes` is given by the set of mapping classes it accepts. -/
def isA (mt : Tag → Bool) : Val A → Bool
  | .atom _ => false
  | .map t _ => mt t

/-- the items of a mapping, `[]` for an atom -/
def items : Val A → List (A × Val A)
  | .atom _ => []
  | .map _ l => l

@[simp] theorem items_map (t : Tag) (l : List (A × Val A)) : (Val.map t l).items = l := rfl
@[simp] theorem items_atom (a : A) : (Val.atom a).items = [] := rfl
@[simp] theorem isMapping_map (t : Tag) (l : List (A × Val A)) : (Val.map t l).isMapping = true := rfl
@[simp] theorem isMapping_atom (a : A) : (Val.atom a).isMapping = false := rfl
@[simp] theorem isA_map (mt) (t : Tag) (l : List (A × Val A)) : (Val.map t l).isA mt = mt t := rfl
@[simp] theorem isA_atom (mt) (a : A) : (Val.atom a).isA mt = false := rfl

mutual
/-- nesting depth: 0 for atoms, 1 + maximum over the values for mappings -/
def depth : Val A → Nat
  | .atom _ => 0
  | .map _ l => 1 + depthItems l
/-- maximum depth over the values of an item list -/
def depthItems : List (A × Val A) → Nat
  | [] => 0
  | (_, v) :: r => max (depth v) (depthItems r)
end

theorem depth_le_depthItems {k : A} {v : Val A} {l} (h : (k, v) ∈ l) : depth v ≤ depthItems l := by
  induction l with
  | nil => simp at h
  | cons x r ih =>
    obtain ⟨k', v'⟩ := x
    simp only [depthItems]
    rcases List.mem_cons.1 h with h | h
    · cases h; omega
    · have := ih h; omega

theorem depth_lt_of_mem {k : A} {v : Val A} {t l} (h : (k, v) ∈ l) : depth v < depth (.map t l) := by
  have := depth_le_depthItems h
  simp only [depth]; omega

theorem sizeOf_lt_of_mem [SizeOf A] {k : A} {v : Val A} {l : List (A × Val A)} (h : (k, v) ∈ l) :
    sizeOf v < sizeOf l := by
  induction l with
  | nil => simp at h
  | cons x r ih =>
    rcases List.mem_cons.1 h with h | h
    · subst h; simp; omega
    · have := ih h; simp; omega

/-- Induction principle: to prove `P` for all values, prove it for atoms, and for a mapping assuming it for all the
mapping's values. -/
theorem induct {P : Val A → Prop} (hatom : ∀ a, P (.atom a))
    (hmap : ∀ t l, (∀ k v, (k, v) ∈ l → P v) → P (.map t l)) : ∀ v, P v
  | .atom a => hatom a
  | .map t l => hmap t l fun k v h => induct hatom hmap v
termination_by v => sizeOf v
decreasing_by
  have := sizeOf_lt_of_mem h
  simp; omega

mutual
/-- every mapping inside has distinct keys, as all Python mappings do -/
def WF [DecidableEq A] : Val A → Prop
  | .atom _ => True
  | .map _ l => Dict.WF l ∧ WFItems l
/-- all values of an item list are well formed -/
def WFItems [DecidableEq A] : List (A × Val A) → Prop
  | [] => True
  | (_, v) :: r => WF v ∧ WFItems r
end

theorem wfItems_iff [DecidableEq A] {l : List (A × Val A)} : WFItems l ↔ ∀ k v, (k, v) ∈ l → WF v := by
  induction l with
  | nil => simp [WFItems]
  | cons x r ih =>
    obtain ⟨k, v⟩ := x
    simp only [WFItems, ih, List.mem_cons, Prod.mk.injEq]
    constructor
    · rintro ⟨h1, h2⟩ k' v' (⟨rfl, rfl⟩ | h)
      · exact h1
      · exact h2 _ _ h
    · intro h
      exact ⟨h k v (Or.inl ⟨rfl, rfl⟩), fun k' v' h' => h k' v' (Or.inr h')⟩

theorem wf_map [DecidableEq A] {t : Tag} {l : List (A × Val A)} :
    WF (.map t l) ↔ Dict.WF l ∧ ∀ k v, (k, v) ∈ l → WF v := by
  simp [WF, wfItems_iff]

end Val
end Verif
