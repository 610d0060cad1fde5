import Verif.Lemmas.Dig
/-! Helper lemmas for `dig_and_edit` and `todict`. -/
set_option linter.unusedSectionVars false
namespace Verif.Lemmas
open Verif Verif.Model Verif.Spec
variable {A : Type}

/-- the edit of one item followed by the recursion into it -/
def editStep (filter : A → Val A → Bool) (setter : A → Val A → Val A) (mt : Tag → Bool) (fuel : Nat)
    (kv : A × Val A) : Option (A × Val A) :=
  let kv' := editItem filter setter kv
  if kv'.2.isA mt then (digAndEdit filter setter mt fuel kv'.2).map (fun w => (kv'.1, w)) else some kv'

theorem digAndEdit_map (filter : A → Val A → Bool) (setter : A → Val A → Val A) (mt : Tag → Bool) (fuel : Nat)
    (t : Tag) (l : List (A × Val A)) :
    digAndEdit filter setter mt (fuel + 1) (.map t l) =
      (l.mapM (editStep filter setter mt fuel)).map (Val.map t) := by
  simp only [digAndEdit, bind, pure]
  rw [List.mapM_map]
  show Option.bind (l.mapM (editStep filter setter mt fuel)) _ = _
  cases l.mapM (editStep filter setter mt fuel) <;> rfl

theorem mapM_some_iff {α β : Type} (f : α → Option β) (l : List α) (r : List β) :
    l.mapM f = some r ↔ l.map f = r.map some := by
  induction l generalizing r with
  | nil => cases r <;> simp
  | cons x l ih =>
    simp only [List.mapM_cons, bind, pure, List.map_cons]
    cases hx : f x with
    | none => cases r <;> simp
    | some y =>
      cases hl : l.mapM f with
      | none =>
        simp only [Option.bind]
        cases r with
        | nil => simp
        | cons z r =>
          have := ih r
          simp [hl] at this
          simp [this]
      | some ys =>
        have := (ih ys).1 hl
        simp only [Option.bind]
        cases r with
        | nil => simp
        | cons z r =>
          have h2 := ih r
          simp only [hl, Option.some.injEq] at h2
          simp [h2]

theorem mapM_exists {α β : Type} (f : α → Option β) (l : List α) (h : ∀ x ∈ l, (f x).isSome) :
    ∃ r, l.mapM f = some r := by
  induction l with
  | nil => exact ⟨[], rfl⟩
  | cons x l ih =>
    obtain ⟨y, hy⟩ := Option.isSome_iff_exists.1 (h x (by simp))
    obtain ⟨r, hr⟩ := ih fun z hz => h z (List.mem_cons_of_mem _ hz)
    exact ⟨y :: r, by simp [List.mapM_cons, hy, hr, bind, pure]⟩

theorem digAndEdit_edited (filter : A → Val A → Bool) (setter : A → Val A → Val A) (mt : Tag → Bool) (fuel : Nat) :
    ∀ v r, digAndEdit filter setter mt fuel v = some r → Edited filter setter mt v r := by
  induction fuel with
  | zero => intro v r h; simp [digAndEdit] at h
  | succ fuel ih =>
    intro v r h
    cases v with
    | atom a =>
      simp only [digAndEdit, Option.some.injEq] at h
      subst h
      exact .atom a
    | map t l =>
      rw [digAndEdit_map] at h
      cases hm : l.mapM (editStep filter setter mt fuel) with
      | none => simp [hm] at h
      | some r' =>
        simp only [hm, Option.map_some, Option.some.injEq] at h
        subst h
        refine .map ?_
        rw [mapM_some_iff] at hm
        induction l generalizing r' with
        | nil => cases r' with
          | nil => exact .nil
          | cons => simp at hm
        | cons x l ihl =>
          obtain ⟨k, v⟩ := x
          cases r' with
          | nil => simp at hm
          | cons y r' =>
            simp only [List.map_cons, List.cons.injEq] at hm
            have hrest := ihl r' hm.2
            have h1 := hm.1
            simp only [editStep, editItem] at h1
            by_cases hf : filter k v = true
            · simp only [hf, if_true] at h1
              by_cases hs : (setter k v).isA mt = true
              · simp only [hs, if_true] at h1
                cases hd : digAndEdit filter setter mt fuel (setter k v) with
                | none => simp [hd] at h1
                | some w =>
                  simp only [hd, Option.map_some, Option.some.injEq] at h1
                  subst h1
                  exact .setIn hf hs (ih _ _ hd) hrest
              · simp only [hs] at h1
                cases h1
                exact .set hf (by simpa using hs) rfl hrest
            · simp only [hf, Bool.false_eq_true, if_false] at h1
              by_cases hs : v.isA mt = true
              · simp only [hs, if_true] at h1
                cases hd : digAndEdit filter setter mt fuel v with
                | none => simp [hd] at h1
                | some w =>
                  simp only [hd, Option.map_some, Option.some.injEq] at h1
                  subst h1
                  exact .keepIn (by simpa using hf) hs (ih _ _ hd) hrest
              · simp only [hs] at h1
                cases h1
                exact .keep (by simpa using hf) (by simpa using hs) rfl hrest

theorem digAndEdit_terminates (filter : A → Val A → Bool) (setter : A → Val A → Val A) (mt : Tag → Bool)
    (hd : ∀ k v, filter k v = true → (setter k v).depth ≤ v.depth) :
    ∀ fuel v, v.depth < fuel → ∃ r, digAndEdit filter setter mt fuel v = some r := by
  intro fuel
  induction fuel with
  | zero => intro v h; omega
  | succ fuel ih =>
    intro v hv
    cases v with
    | atom a => exact ⟨_, rfl⟩
    | map t l =>
      rw [digAndEdit_map]
      obtain ⟨r, hr⟩ := mapM_exists (editStep filter setter mt fuel) l (by
        rintro ⟨k, v⟩ hmem
        have hlt := Val.depth_lt_of_mem (t := t) hmem
        simp only [editStep, editItem]
        by_cases hf : filter k v = true
        · have := hd k v hf
          simp only [hf, if_true]
          split
          · obtain ⟨w, hw⟩ := ih (setter k v) (by omega)
            simp [hw]
          · rfl
        · simp only [hf, Bool.false_eq_true, if_false]
          split
          · obtain ⟨w, hw⟩ := ih v (by omega)
            simp_all
          · rfl)
      exact ⟨.map t r, by rw [hr]; rfl⟩

mutual
/-- `Edited` determines the result -/
theorem edited_functional {filter : A → Val A → Bool} {setter : A → Val A → Val A} {mt : Tag → Bool} :
    ∀ {v r r' : Val A}, Edited filter setter mt v r → Edited filter setter mt v r' → r = r'
  | _, _, _, .atom _, .atom _ => rfl
  | _, _, _, .map h, .map h' => by rw [editedItems_functional h h']
theorem editedItems_functional {filter : A → Val A → Bool} {setter : A → Val A → Val A} {mt : Tag → Bool} :
    ∀ {l r r' : List (A × Val A)}, EditedItems filter setter mt l r → EditedItems filter setter mt l r' → r = r'
  | _, _, _, .nil, .nil => rfl
  | _, _, _, .keep a b c d, h' => by
    cases h' with
    | keep a' b' c' d' => rw [c, c', editedItems_functional d d']
    | keepIn a' b' c' d' => simp_all
    | set a' b' c' d' => simp_all
    | setIn a' b' c' d' => simp_all
  | _, _, _, .keepIn a b c d, h' => by
    cases h' with
    | keep a' b' c' d' => simp_all
    | keepIn a' b' c' d' => rw [edited_functional c c', editedItems_functional d d']
    | set a' b' c' d' => simp_all
    | setIn a' b' c' d' => simp_all
  | _, _, _, .set a b c d, h' => by
    cases h' with
    | keep a' b' c' d' => simp_all
    | keepIn a' b' c' d' => simp_all
    | set a' b' c' d' => rw [c, c', editedItems_functional d d']
    | setIn a' b' c' d' => simp_all
  | _, _, _, .setIn a b c d, h' => by
    cases h' with
    | keep a' b' c' d' => simp_all
    | keepIn a' b' c' d' => simp_all
    | set a' b' c' d' => simp_all
    | setIn a' b' c' d' => rw [edited_functional c c', editedItems_functional d d']
end

theorem editedItems_keys {filter : A → Val A → Bool} {setter : A → Val A → Val A} {mt : Tag → Bool}
    {l r : List (A × Val A)} (h : EditedItems filter setter mt l r) : r.map Prod.fst = l.map Prod.fst := by
  induction l generalizing r with
  | nil => cases h; rfl
  | cons x l ih => cases h <;> simp_all

end Verif.Lemmas
