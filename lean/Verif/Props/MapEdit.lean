import Verif.Lemmas.MapEdit
import Verif.Props.Edit
/-! # C140: `dig_and_edit` on mappings that are shared or hold themselves -/
set_option linter.unusedSectionVars false
namespace Verif.Props
open Verif Verif.Model Verif.Spec Verif.Lemmas
variable {A : Type} [DecidableEq A]

/-- C140, in full: every mapping `dig_and_edit` comes upon has its matching entries set once, every other is left as it
is -/
def C140_full : Prop :=
  ∀ (A : Type) [DecidableEq A] (f : A → A → Bool) (s : A → A → A) (filter : MHeap A → A → HVal A → Bool)
    (setter : MHeap A → A → HVal A → HVal A × MHeap A) (mt : Tag → Bool) (fuel : Nat) (h h' : MHeap A) (n : Nat)
    (vs : List Nat), PlainEdit f s filter setter → MapsOK h → Visits h mt n vs →
    digEditH filter setter mt fuel h n = some h' → EditedTimes f s (fun b => if b ∈ vs then 1 else 0) h h'

/-- C140: whenever `dig_and_edit` returns, every mapping has had its entries edited as many times as there are paths from
the mapping given to it. Nothing else changes: no mapping is made, no key, order or class changes, and what nests where
stays. -/
theorem C140_once_per_path {f : A → A → Bool} {s : A → A → A} {filter : MHeap A → A → HVal A → Bool}
    {setter : MHeap A → A → HVal A → HVal A × MHeap A} (hpe : PlainEdit f s filter setter) (mt : Tag → Bool) (fuel : Nat)
    (h h' : MHeap A) (n : Nat) (hk : MapsOK h) (hr : digEditH filter setter mt fuel h n = some h') :
    ∃ vs, Visits h mt n vs ∧ EditedTimes f s (fun b => vs.count b) h h' := by
  obtain ⟨vs, hv, e⟩ := digEditH_conv hpe mt fuel h n h' hk hr
  exact ⟨vs, hv, e ▸ foldl_editAt f s vs h⟩

/-- C140: and it does return, when the mappings it comes upon can be listed and the recursion limit is not below their
number -/
theorem C140_returns {f : A → A → Bool} {s : A → A → A} {filter : MHeap A → A → HVal A → Bool}
    {setter : MHeap A → A → HVal A → HVal A × MHeap A} (hpe : PlainEdit f s filter setter) (mt : Tag → Bool) (h : MHeap A)
    (n : Nat) (vs : List Nat) (hk : MapsOK h) (hv : Visits h mt n vs) :
    ∃ h', EditedTimes f s (fun b => vs.count b) h h' ∧
      ∀ fuel, vs.length ≤ fuel → digEditH filter setter mt fuel h n = some h' :=
  ⟨_, foldl_editAt f s vs h, fun fuel hf => digEditH_visits hpe mt fuel h n vs hk hv hf⟩

/-- a mapping below or at the given one that holds itself, at any depth, cannot be listed -/
theorem no_visits_of_cycle {h : MHeap A} {mt : Tag → Bool} {n c : Nat} (hn : Relation.ReflTransGen (Holds h mt) n c)
    (hc : Relation.TransGen (Holds h mt) c c) (vs : List Nat) : ¬ Visits h mt n vs := by
  intro hv
  obtain ⟨ws, h1, _, _⟩ := reach_visits hn hv
  obtain ⟨d, hcd, hdc⟩ := Relation.TransGen.head'_iff.1 hc
  obtain ⟨us, g1, _, g2⟩ := holds_visits hcd h1
  obtain ⟨xs, k1, _, k2⟩ := reach_visits hdc g1
  have := visits_fun h1 k1
  subst this
  omega

/-- C140: when the mapping, or one below it, holds itself, there is no recursion limit under which `dig_and_edit` returns -/
theorem C140_cycle {f : A → A → Bool} {s : A → A → A} {filter : MHeap A → A → HVal A → Bool}
    {setter : MHeap A → A → HVal A → HVal A × MHeap A} (hpe : PlainEdit f s filter setter) (mt : Tag → Bool) (h : MHeap A)
    (n c : Nat) (hk : MapsOK h) (hn : Relation.ReflTransGen (Holds h mt) n c) (hc : Relation.TransGen (Holds h mt) c c)
    (fuel : Nat) : digEditH filter setter mt fuel h n = none := by
  cases hr : digEditH filter setter mt fuel h n with
  | none => rfl
  | some h' =>
    obtain ⟨vs, hv, _⟩ := digEditH_conv hpe mt fuel h n h' hk hr
    exact absurd hv (no_visits_of_cycle hn hc vs)

omit [DecidableEq A] in
theorem iterate_settled {f : A → A → Bool} {s : A → A → A} (hs : Settled f s) (c : Nat) (kv : A × HVal A) :
    (editEntry f s)^[c + 1] kv = editEntry f s kv := by
  have h2 : ∀ kv, editEntry f s (editEntry f s kv) = editEntry f s kv := by
    intro kv
    obtain ⟨k, v⟩ := kv
    cases v with
    | obj n => rfl
    | atom a =>
      by_cases h1 : f k a = true
      · by_cases h2 : f k (s k a) = true
        · simp [editEntry, h1, h2, hs k a h1 h2]
        · simp [editEntry, h1, h2]
      · simp [editEntry, h1]
  induction c with
  | zero => rfl
  | succ c ih => rw [Function.iterate_succ_apply', ih, h2]

/-- C140: each matching entry is set once when no mapping can be reached in two ways, and also when setting again what
was set changes nothing -/
theorem C140_once_partial {f : A → A → Bool} {s : A → A → A} {filter : MHeap A → A → HVal A → Bool}
    {setter : MHeap A → A → HVal A → HVal A × MHeap A} (hpe : PlainEdit f s filter setter) (mt : Tag → Bool) (fuel : Nat)
    (h h' : MHeap A) (n : Nat) (vs : List Nat) (hk : MapsOK h) (hv : Visits h mt n vs) (hd : vs.Nodup ∨ Settled f s)
    (hr : digEditH filter setter mt fuel h n = some h') : EditedTimes f s (fun b => if b ∈ vs then 1 else 0) h h' := by
  obtain ⟨ws, hw, he⟩ := C140_once_per_path hpe mt fuel h h' n hk hr
  rw [← visits_fun hv hw] at he
  intro b
  rw [he b]
  congr 1
  funext m
  congr 2
  by_cases hb : b ∈ vs
  · simp only [hb, if_true]
    rcases hd with hd | hd
    · rw [hd.count, if_pos hb]
    · obtain ⟨c, hc⟩ : ∃ c, vs.count b = c + 1 := ⟨vs.count b - 1, by have := List.count_pos_iff.2 hb; omega⟩
      rw [hc]
      funext kv
      exact iterate_settled hd c kv
  · simp only [hb, if_false, List.count_eq_zero_of_not_mem hb]

/-- the filter and the setter as they act on trees -/
def treeFilter (f : A → A → Bool) (k : A) : Val A → Bool
  | .atom a => f k a
  | .map _ _ => false

def treeSetter (s : A → A → A) (k : A) : Val A → Val A
  | .atom a => .atom (s k a)
  | .map t l => .map t l

mutual
theorem unf_edited {f : A → A → Bool} {s : A → A → A} {mt : Tag → Bool} {h h' : MHeap A} (vs : List Nat)
    (he : EditedTimes f s (fun b => if b ∈ vs then 1 else 0) h h') (hmt : ∀ m ∈ h, mt m.tag = true)
    {r : HVal A} {v : Val A} : Unf h r v → (∀ n, r = .obj n → ∃ ws, Visits h mt n ws ∧ ws ⊆ vs) →
    ∃ v', Unf h' r v' ∧ Edited (treeFilter f) (treeSetter s) mt v v' ∧ v'.isA mt = v.isA mt
  | .atom a, _ => ⟨.atom a, .atom a, .atom a, rfl⟩
  | .obj (m := m) (n := n) hn hi, hr => by
    obtain ⟨ws, hw, hsub⟩ := hr n rfl
    cases hw with
    | mk hn' hvi =>
      rw [hn] at hn'; cases hn'
      obtain ⟨l', h1, h2⟩ := unf_editedItems vs he hmt hi hvi (List.Subset.trans (List.subset_cons_self _ _) hsub)
      have hin : n ∈ vs := hsub (by simp)
      have hb := he n
      simp only [hn, hin, if_true, Option.map_some, Function.iterate_one] at hb
      exact ⟨.map m.tag l', .obj (m := ⟨m.tag, m.items.map (editEntry f s)⟩) hb h1, .map h2, rfl⟩
theorem unf_editedItems {f : A → A → Bool} {s : A → A → A} {mt : Tag → Bool} {h h' : MHeap A} (vs : List Nat)
    (he : EditedTimes f s (fun b => if b ∈ vs then 1 else 0) h h') (hmt : ∀ m ∈ h, mt m.tag = true)
    {i : List (A × HVal A)} {l : List (A × Val A)} : UnfItems h i l → ∀ {us}, VisitsItems h mt i us → us ⊆ vs →
    ∃ l', UnfItems h' (i.map (editEntry f s)) l' ∧ EditedItems (treeFilter f) (treeSetter s) mt l l'
  | .nil, _, _, _ => ⟨[], .nil, .nil⟩
  | .cons (k := k) (v := v) (w := w) hv hl, us, hvi, hsub => by
    cases hvi with
    | skip ha hr =>
      obtain ⟨l', h1, h2⟩ := unf_editedItems vs he hmt hl hr hsub
      cases v with
      | obj n =>
        cases hv with
        | obj hn _ => simp [HVal.isA, hn, hmt _ (List.mem_of_getElem? hn)] at ha
      | atom a =>
        cases hv
        by_cases hf : f k a = true
        · exact ⟨(k, .atom (s k a)) :: l', by simpa [editEntry, hf] using .cons (.atom _) h1,
            .set hf rfl rfl h2⟩
        · exact ⟨(k, .atom a) :: l', by simpa [editEntry, hf] using .cons (.atom _) h1,
            .keep (by simpa [treeFilter] using hf) rfl rfl h2⟩
    | @nest _ n _ vs' ws ha hn hr =>
      obtain ⟨l', h1, h2⟩ := unf_editedItems vs he hmt hl hr (List.Subset.trans (List.subset_append_right _ _) hsub)
      obtain ⟨v', g1, g2, g3⟩ := unf_edited vs he hmt hv (fun n' e => by
        cases e; exact ⟨vs', hn, List.Subset.trans (List.subset_append_left _ _) hsub⟩)
      refine ⟨(k, v') :: l', .cons g1 h1, ?_⟩
      cases hv with
      | obj hm _ => exact .keepIn rfl (hmt _ (List.mem_of_getElem? hm)) g2 h2
end

/-- C140: in those cases the result shows the tree that `dig_and_edit` makes of the tree the mapping shows (C09), though
parts of it may be shared; all mappings being of the classes searched -/
theorem C140_as_tree_partial {f : A → A → Bool} {s : A → A → A} {filter : MHeap A → A → HVal A → Bool}
    {setter : MHeap A → A → HVal A → HVal A × MHeap A} (hpe : PlainEdit f s filter setter) (mt : Tag → Bool) (h : MHeap A)
    (hmt : ∀ m ∈ h, mt m.tag = true) (n : Nat) (vs : List Nat) (hk : MapsOK h) (hv : Visits h mt n vs)
    (hd : vs.Nodup ∨ Settled f s) (v : Val A) (hu : Unf h (.obj n) v) (fuel fuel' : Nat) (hf : vs.length ≤ fuel)
    (hf' : v.depth < fuel') :
    ∃ h' v', digEditH filter setter mt fuel h n = some h' ∧ Unf h' (.obj n) v' ∧
      digAndEdit (treeFilter f) (treeSetter s) mt fuel' v = some v' := by
  obtain ⟨h', _, hr⟩ := C140_returns hpe mt h n vs hk hv
  have he := C140_once_partial hpe mt fuel h h' n vs hk hv hd (hr fuel hf)
  obtain ⟨v', h1, h2, _⟩ := unf_edited vs he hmt hu (fun n' e => by cases e; exact ⟨vs, hv, fun _ h => h⟩)
  obtain ⟨r, g1, g2⟩ := C09_terminates (treeFilter f) (treeSetter s) mt (fun k v hfv => by
    cases v with
    | atom a => exact Nat.le_refl _
    | map t l => cases hfv) v
  exact ⟨h', v', hr fuel hf, h1, by rw [g2 fuel' hf', edited_functional h2 g1]⟩

/-! ## witnesses -/

/-- `x = {'n': 1}; m = {'a': x, 'b': x, 'c': 7}` (keys as numbers) -/
def sharedMap : MHeap Nat := [⟨.dict, [(0, .obj 1), (1, .obj 1), (2, .atom 7)]⟩, ⟨.dict, [(3, .atom 1)]⟩]

/-- `lambda k, v: isinstance(v, int) and v < 5` -/
def smallFilter (_ : MHeap Nat) (_ : Nat) : HVal Nat → Bool
  | .atom a => decide (a < 5)
  | .obj _ => false

/-- `lambda k, v: v + 1` -/
def addOne (h : MHeap Nat) (_ : Nat) : HVal Nat → HVal Nat × MHeap Nat
  | .atom a => (.atom (a + 1), h)
  | .obj n => (.obj n, h)

theorem smallEdit : PlainEdit (fun _ a => decide (a < 5)) (fun _ a => a + 1) smallFilter addOne :=
  ⟨fun _ _ _ => rfl, fun _ _ _ => rfl, fun _ _ _ => rfl⟩

theorem sharedMap_ok : MapsOK sharedMap := by
  intro m hm
  simp only [sharedMap, List.mem_cons, List.not_mem_nil, or_false] at hm
  rcases hm with rfl | rfl <;> simp [Dict.WF, Dict.keys]

theorem sharedMap_visits : Visits sharedMap Tag.isDict 0 [0, 1, 1] :=
  .mk rfl (.nest rfl (vs := [1]) (.mk rfl (.skip rfl .nil))
    (.nest rfl (vs := [1]) (ws := []) (.mk rfl (.skip rfl .nil)) (.skip rfl .nil)))

/-- C140 in full is false: the one entry of a mapping that is in two places is set twice, 1 becoming 3 -/
theorem C140_full_false : ¬ C140_full := by
  intro hc
  have := hc Nat _ _ _ _ Tag.isDict 3 sharedMap _ 0 [0, 1, 1] smallEdit sharedMap_ok sharedMap_visits rfl 1
  revert this
  decide

example : digEditH smallFilter addOne Tag.isDict 3 sharedMap 0 =
    some [⟨.dict, [(0, .obj 1), (1, .obj 1), (2, .atom 7)]⟩, ⟨.dict, [(3, .atom 3)]⟩] := rfl

example : ∃ h', EditedTimes (fun _ a => decide (a < 5)) (fun _ a => a + 1) (fun b => [0, 1, 1].count b) sharedMap h' ∧
    ∀ fuel, 3 ≤ fuel → digEditH smallFilter addOne Tag.isDict fuel sharedMap 0 = some h' :=
  C140_returns smallEdit Tag.isDict sharedMap 0 _ sharedMap_ok sharedMap_visits

/-- setting everything below 5 to 0 instead: done once or twice is the same -/
def toZero (h : MHeap Nat) (_ : Nat) (_ : HVal Nat) : HVal Nat × MHeap Nat := (.atom 0, h)

example : ∃ h' v', digEditH smallFilter toZero Tag.isDict 3 sharedMap 0 = some h' ∧ Unf h' (.obj 0) v' ∧
    digAndEdit (treeFilter fun _ a => decide (a < 5)) (treeSetter fun _ _ => 0) Tag.isDict 3
      (.map .dict [(0, .map .dict [(3, .atom 1)]), (1, .map .dict [(3, .atom 1)]), (2, .atom 7)]) = some v' :=
  C140_as_tree_partial (f := fun _ a => decide (a < 5)) (s := fun _ _ => 0)
    ⟨fun _ _ _ => rfl, fun _ _ _ => rfl, fun _ _ _ => rfl⟩ Tag.isDict sharedMap (by decide) 0 _ sharedMap_ok sharedMap_visits
    (.inr fun _ _ _ _ => rfl) _
    (.obj rfl (.cons (.obj rfl (.cons (.atom 1) .nil)) (.cons (.obj rfl (.cons (.atom 1) .nil)) (.cons (.atom 7) .nil)))) 3 3
    (by decide) (by decide)

/-- `m = {'a': 1}; m['b'] = {'c': m}` -/
def loopMap : MHeap Nat := [⟨.dict, [(0, .atom 1), (1, .obj 1)]⟩, ⟨.nesting, [(2, .obj 0)]⟩]

theorem loopMap_ok : MapsOK loopMap := by
  intro m hm
  simp only [loopMap, List.mem_cons, List.not_mem_nil, or_false] at hm
  rcases hm with rfl | rfl <;> simp [Dict.WF, Dict.keys]

example (fuel : Nat) : digEditH smallFilter addOne Tag.isDict fuel loopMap 0 = none :=
  C140_cycle smallEdit Tag.isDict loopMap 0 0 loopMap_ok .refl
    (.tail (b := 1) (.single ⟨_, 1, _, rfl, by simp, rfl, rfl⟩) ⟨_, 2, _, rfl, by simp, rfl, rfl⟩) fuel

end Verif.Props
