import Verif.Model.Nested
import Verif.Spec.Nested
/-! Helper lemmas for `rmerge`. -/
set_option linter.unusedSectionVars false
namespace Verif.Lemmas
open Verif Verif.Model Verif.Spec
variable {A : Type} [DecidableEq A]

theorem rmergeValue_congr (mt : Tag → Bool) (s s' : List (A × Val A) → List (A × Val A) → List (A × Val A))
    (m1 m2 : List (A × Val A)) (k : A) (v : Val A)
    (h : ∀ t1 l1 l2, Dict.get? m1 k = some (.map t1 l1) → s l1 l2 = s' l1 l2) :
    rmergeValue mt s m1 m2 k v = rmergeValue mt s' m1 m2 k v := by
  unfold rmergeValue
  split <;> try rfl
  rename_i h1 _
  rw [h _ _ _ h1]

theorem rmergeItems_fuel (fuel : Nat) : ∀ (fuel' : Nat) (mt : Tag → Bool) (m1 m2 : List (A × Val A)),
    Val.depthItems m1 < fuel → Val.depthItems m1 < fuel' →
    rmergeItems fuel mt m1 m2 = rmergeItems fuel' mt m1 m2 := by
  induction fuel with
  | zero => intro _ _ _ _ h; omega
  | succ fuel ih =>
    intro fuel' mt m1 m2 h h'
    cases fuel' with
    | zero => omega
    | succ fuel' =>
      simp only [rmergeItems]
      congr 1
      funext out kv
      congr 1
      apply rmergeValue_congr
      intro t1 l1 l2 hg
      have hm := Dict.mem_of_get? hg
      have := Val.depth_le_depthItems hm
      simp only [Val.depth] at this
      exact ih fuel' rmergeDefault l1 l2 (by omega) (by omega)

/-- the recursion equation of `rmerge` -/
theorem rmerge_eq (mt : Tag → Bool) (m1 m2 : List (A × Val A)) :
    rmerge mt m1 m2 = (m1 ++ m2).foldl
      (fun out kv => Dict.set out kv.1 (rmergeValue mt (rmerge rmergeDefault) m1 m2 kv.1 kv.2)) [] := by
  unfold rmerge
  simp only [rmergeItems]
  congr 1
  funext out kv
  congr 1
  apply rmergeValue_congr
  intro t1 l1 l2 hg
  have hm := Dict.mem_of_get? hg
  have := Val.depth_le_depthItems hm
  simp only [Val.depth] at this
  exact rmergeItems_fuel (Val.depthItems m1) (Val.depthItems l1 + 1) _ l1 l2 (by omega) (by omega)

theorem get?_foldl_set {κ α β : Type} [DecidableEq κ] (F : κ → β → α) (g : κ → α) (l : List (κ × β))
    (hF : ∀ k v, (k, v) ∈ l → F k v = g k) (d : Dict κ α) (k : κ) :
    Dict.get? (l.foldl (fun out kv => Dict.set out kv.1 (F kv.1 kv.2)) d) k =
      if k ∈ l.map Prod.fst then some (g k) else Dict.get? d k := by
  induction l generalizing d with
  | nil => simp
  | cons x r ih =>
    obtain ⟨k', v⟩ := x
    simp only [List.foldl_cons, List.map_cons, List.mem_cons]
    rw [ih (fun k v h => hF k v (List.mem_cons_of_mem _ h)), hF k' v (by simp)]
    by_cases h1 : k ∈ r.map Prod.fst
    · simp [h1]
    · simp only [h1, if_false, or_false]
      by_cases h2 : k = k'
      · subst h2; simp [Dict.get?_set]
      · rw [if_neg h2, Dict.get?_set_ne _ _ h2]

theorem keys_foldl_set {κ α β : Type} [DecidableEq κ] (F : κ → β → α) (l : List (κ × β)) (d : Dict κ α)
    (hl : (l.map Prod.fst).Nodup) :
    Dict.keys (l.foldl (fun out kv => Dict.set out kv.1 (F kv.1 kv.2)) d) =
      Dict.keys d ++ (l.map Prod.fst).filter (fun k => decide (k ∉ Dict.keys d)) := by
  induction l generalizing d with
  | nil => simp
  | cons x r ih =>
    obtain ⟨k', v⟩ := x
    simp only [List.foldl_cons, List.map_cons, List.nodup_cons] at hl ⊢
    rw [ih _ hl.2, Dict.keys_set]
    by_cases hk : k' ∈ Dict.keys d
    · simp [hk]
    · simp only [hk, if_false, not_false_eq_true, decide_true, List.filter_cons_of_pos, List.append_assoc,
        List.cons_append, List.nil_append]
      congr 2
      apply List.filter_congr
      intro a ha
      have : a ≠ k' := by rintro rfl; exact hl.1 ha
      simp [this]

theorem rmerge_keys (mt : Tag → Bool) (m1 m2 : List (A × Val A)) (h1 : Dict.WF m1) (h2 : Dict.WF m2) :
    Dict.keys (rmerge mt m1 m2) = Dict.keys m1 ++ (Dict.keys m2).filter (fun k => decide (k ∉ Dict.keys m1)) := by
  rw [rmerge_eq, List.foldl_append, keys_foldl_set _ m2 _ h2, keys_foldl_set _ m1 _ h1]
  have : (m1.map Prod.fst).filter (fun k => decide (k ∉ Dict.keys ([] : Dict A (Val A)))) = m1.map Prod.fst := by
    simp
  rw [this]
  rfl

/-- the value of key `k` in the merge, from the two values -/
def mergeVal (mt : Tag → Bool) : Option (Val A) → Option (Val A) → Option (Val A)
  | none, y => y
  | some x, none => some x
  | some (.map t1 l1), some (.map t2 l2) =>
    if mt t1 && mt t2 then some (.map .dict (rmerge rmergeDefault l1 l2)) else some (.map t2 l2)
  | some (.atom _), some y => some y
  | some (.map _ _), some (.atom a) => some (.atom a)

theorem rmerge_get? (mt : Tag → Bool) (m1 m2 : List (A × Val A)) (h1 : Dict.WF m1) (h2 : Dict.WF m2) (k : A) :
    Dict.get? (rmerge mt m1 m2) k = mergeVal mt (Dict.get? m1 k) (Dict.get? m2 k) := by
  rw [rmerge_eq]
  rw [get?_foldl_set (rmergeValue mt (rmerge rmergeDefault) m1 m2)
    (fun k => (mergeVal mt (Dict.get? m1 k) (Dict.get? m2 k)).getD (.map .dict []))]
  · by_cases hk : k ∈ (m1 ++ m2).map Prod.fst
    · rw [if_pos hk]
      cases hg1 : Dict.get? m1 k with
      | none =>
        cases hg2 : Dict.get? m2 k with
        | none =>
          rw [Dict.get?_eq_none] at hg1 hg2
          simp [Dict.keys] at hk hg1 hg2
          rcases hk with ⟨x, hx⟩ | ⟨x, hx⟩
          · exact absurd hx (hg1 x)
          · exact absurd hx (hg2 x)
        | some y => simp [mergeVal]
      | some x =>
        cases hg2 : Dict.get? m2 k with
        | none => cases x <;> simp [mergeVal]
        | some y =>
          cases x <;> cases y <;> simp [mergeVal]
          split <;> rfl
    · rw [if_neg hk]
      have hn1 : Dict.get? m1 k = none := by
        rw [Dict.get?_eq_none]; intro h; exact hk (by rw [List.map_append]; exact List.mem_append_left _ h)
      have hn2 : Dict.get? m2 k = none := by
        rw [Dict.get?_eq_none]; intro h; exact hk (by rw [List.map_append]; exact List.mem_append_right _ h)
      simp [hn1, hn2, mergeVal]
  · intro k v hmem
    unfold rmergeValue
    rcases List.mem_append.1 hmem with hm | hm
    · have hg := Dict.get?_of_mem h1 hm
      rw [hg]
      cases hg2 : Dict.get? m2 k with
      | none => cases v <;> simp [mergeVal]
      | some y =>
        cases v <;> cases y <;> simp [mergeVal]
        split <;> rfl
    · have hg := Dict.get?_of_mem h2 hm
      rw [hg]
      cases hg2 : Dict.get? m1 k with
      | none => cases v <;> simp [mergeVal]
      | some y =>
        cases v <;> cases y <;> simp [mergeVal]
        split <;> rfl

theorem rmerge_wf (mt : Tag → Bool) (m1 m2 : List (A × Val A)) (h1 : Dict.WF m1) (h2 : Dict.WF m2) :
    Dict.WF (rmerge mt m1 m2) := by
  unfold Dict.WF
  rw [rmerge_keys mt m1 m2 h1 h2, List.nodup_append]
  refine ⟨h1, h2.filter _, ?_⟩
  intro a ha b hb hab
  subst hab
  simp at hb
  exact hb.2 ha

end Verif.Lemmas
