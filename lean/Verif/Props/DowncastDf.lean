import Verif.Spec.Tables
/-!
# C92: what `downcast_df` does to the rows
-/
namespace Verif.Props
open Verif Verif.Model Verif.Spec

section
variable {N C : Type} [DecidableEq N]
variable {numeric : N × List C → Bool} {cast : N × List C → Except PyErr (Option (List C))} {ofNat : Nat → N} {null : C}

/-- what becomes of one column -/
def CastSeries (numeric : N × List C → Bool) (cast : N × List C → Except PyErr (Option (List C))) (ofNat : Nat → N)
    (index : List N) (c : N × List C) (s : Series N C) : Prop :=
  s.name = c.1 ∧ (numeric c = false → s.index = index ∧ s.cells = c.2) ∧
    (numeric c = true → s.index = (List.range s.cells.length).map ofNat ∧ cast c = .ok (some s.cells))

omit [DecidableEq N] in
theorem castColumn_ok {index : List N} {c : N × List C} {s : Series N C}
    (h : castColumn numeric cast ofNat index c = .ok s) : CastSeries numeric cast ofNat index c s := by
  unfold castColumn at h
  by_cases hn : numeric c = false
  · rw [if_pos hn] at h; cases h
    exact ⟨rfl, fun _ => ⟨rfl, rfl⟩, fun h => by rw [hn] at h; cases h⟩
  · rw [if_neg hn] at h
    rcases hc : cast c with e | _ | l <;> rw [hc] at h <;> cases h
    exact ⟨rfl, fun h => absurd h hn, fun _ => ⟨rfl, hc⟩⟩

omit [DecidableEq N] in
theorem downcastSeries_ok {index : List N} (cols : List (N × List C)) {ss : List (Series N C)}
    (h : cols.mapM (castColumn numeric cast ofNat index) = .ok ss) :
    List.Forall₂ (CastSeries numeric cast ofNat index) cols ss := by
  induction cols generalizing ss with
  | nil => cases h; exact .nil
  | cons c t ih =>
    rw [List.mapM_cons] at h
    rcases hc : castColumn numeric cast ofNat index c with e | s
    · rw [hc] at h; cases h
    rcases ht : t.mapM (castColumn numeric cast ofNat index) with e | r
    · rw [hc, ht] at h; cases h
    rw [hc, ht] at h; cases h
    exact .cons (castColumn_ok hc) (ih ht)

omit [DecidableEq N] in
theorem downcastSeries_total {f : Frame N C} (h : Castable numeric cast f) :
    ∃ ss, downcastSeries numeric cast ofNat f = .ok ss := by
  unfold downcastSeries
  have key : ∀ cols : List (N × List C), (∀ c ∈ cols, numeric c = true → ∃ l, cast c = .ok (some l) ∧ l.length = c.2.length) →
      ∃ ss, cols.mapM (castColumn numeric cast ofNat f.index) = .ok ss := by
    intro cols
    induction cols with
    | nil => exact fun _ => ⟨[], rfl⟩
    | cons c t ih =>
      intro h
      obtain ⟨r, hr⟩ := ih fun d hd => h d (List.mem_cons_of_mem _ hd)
      have : ∃ s, castColumn numeric cast ofNat f.index c = .ok s := by
        unfold castColumn
        by_cases hn : numeric c = false
        · exact ⟨_, if_pos hn⟩
        · obtain ⟨l, hl, _⟩ := h c (List.mem_cons_self ..) (by simpa using hn)
          rw [if_neg hn, hl]; exact ⟨_, rfl⟩
      obtain ⟨s, hs⟩ := this
      exact ⟨s :: r, by rw [List.mapM_cons, hs, hr]; rfl⟩
  exact key f.columns h

omit [DecidableEq N] in
/-- the labels of the Series, when casts keep the number of cells -/
theorem castSeries_index {f : Frame N C} (hc : Castable numeric cast f) (hr : Frame.Rect f) {c : N × List C}
    (hm : c ∈ f.columns) {s : Series N C} (h : CastSeries numeric cast ofNat f.index c s) :
    s.cells.length = f.index.length ∧
      s.index = if numeric c then (List.range f.index.length).map ofNat else f.index := by
  cases hn : numeric c with
  | false => obtain ⟨h1, h2⟩ := h.2.1 hn; exact ⟨by rw [h2, hr c hm], by simp [h1]⟩
  | true =>
    obtain ⟨h1, h2⟩ := h.2.2 hn
    obtain ⟨l, hl, hlen⟩ := hc c hm hn
    rw [hl] at h2
    have : l = s.cells := by injection h2 with h2; injection h2
    subst this
    have : s.cells.length = f.index.length := by rw [hlen, hr c hm]
    exact ⟨this, by rw [h1, this]; simp⟩

theorem forall₂_mem_left {α β : Type} {R : α → β → Prop} {l : List α} {r : List β} (h : List.Forall₂ R l r) :
    List.Forall₂ (fun a b => a ∈ l ∧ R a b) l r := by
  induction h with
  | nil => exact .nil
  | cons h t ih => exact .cons ⟨List.mem_cons_self .., h⟩ (ih.imp fun a b hab => ⟨List.mem_cons_of_mem _ hab.1, hab.2⟩)

theorem forall₂_right {α β : Type} {R : α → β → Prop} {l : List α} {r : List β} (h : List.Forall₂ R l r) {b : β} (hb : b ∈ r) :
    ∃ a ∈ l, R a b := by
  induction h with
  | nil => cases hb
  | cons h t ih =>
    rcases List.mem_cons.1 hb with rfl | hb
    · exact ⟨_, List.mem_cons_self .., h⟩
    · obtain ⟨a, ha, hr⟩ := ih hb; exact ⟨a, List.mem_cons_of_mem _ ha, hr⟩

theorem forall₂_left {α β : Type} {R : α → β → Prop} {l : List α} {r : List β} (h : List.Forall₂ R l r) {a : α} (ha : a ∈ l) :
    ∃ b ∈ r, R a b := by
  induction h with
  | nil => cases ha
  | cons h t ih =>
    rcases List.mem_cons.1 ha with rfl | ha
    · exact ⟨_, List.mem_cons_self .., h⟩
    · obtain ⟨b, hb, hr⟩ := ih ha; exact ⟨b, List.mem_cons_of_mem _ hb, hr⟩

/-- Series that are labelled alike are put side by side. -/
theorem concat_same {null : C} {i : List N} {ss : List (Series N C)} (hne : ss ≠ []) (h : ∀ s ∈ ss, s.index = i) :
    concatColumns null ss = .ok ⟨i, ss.map fun x => (x.name, x.cells)⟩ := by
  cases ss with
  | nil => exact absurd rfl hne
  | cons s t =>
    have hs := h s (List.mem_cons_self ..)
    unfold concatColumns
    simp only
    rw [if_pos (by intro x hx; rw [h x (List.mem_cons_of_mem _ hx), hs]), hs]

theorem unionLabels_mem (ii : List (List N)) (l : N) : l ∈ unionLabels ii ↔ ∃ i ∈ ii, l ∈ i := by
  induction ii with
  | nil => simp [unionLabels]
  | cons i t ih =>
    simp only [unionLabels, List.mem_append, List.mem_filter, ih, decide_eq_true_eq, List.mem_cons, exists_eq_or_imp]
    constructor
    · rintro (h | h)
      · exact .inl h
      · exact .inr h.1
    · rintro (h | h)
      · exact .inl h
      · by_cases hi : l ∈ i
        · exact .inl hi
        · exact .inr ⟨h, hi⟩

theorem unionLabels_nodup (ii : List (List N)) (h : ∀ i ∈ ii, i.Nodup) : (unionLabels ii).Nodup := by
  induction ii with
  | nil => exact List.nodup_nil
  | cons i t ih =>
    rw [unionLabels, List.nodup_append]
    refine ⟨h i (List.mem_cons_self ..), (ih fun j hj => h j (List.mem_cons_of_mem _ hj)).filter _, ?_⟩
    rintro a ha b hb rfl
    simp only [List.mem_filter, decide_eq_true_eq] at hb
    exact hb.2 ha

theorem at_index {s : Series N C} (hnd : s.index.Nodup) (hlen : s.cells.length = s.index.length) {i : Nat} {l : N}
    (h : s.index[i]? = some l) : s.at l = s.cells[i]? := by
  obtain ⟨n, ix, cs⟩ := s
  simp only [Series.at] at *
  induction ix generalizing cs i with
  | nil => simp at h
  | cons a t ih =>
    cases cs with
    | nil => simp at hlen
    | cons x r =>
      cases i with
      | zero =>
        simp only [List.getElem?_cons_zero, Option.some.injEq] at h
        subst h
        simp [Dict.get?]
      | succ i =>
        simp only [List.getElem?_cons_succ] at h ⊢
        have hne : a ≠ l := by
          rintro rfl
          exact (List.nodup_cons.1 hnd).1 (List.mem_of_getElem? h)
        rw [List.zip_cons_cons, Dict.get?, if_neg hne]
        exact ih r (List.nodup_cons.1 hnd).2 (by simpa using hlen) h

theorem at_missing {s : Series N C} {l : N} (h : l ∉ s.index) : s.at l = none := by
  rw [Series.at, Dict.get?_eq_none]
  intro hk
  obtain ⟨p, hp, rfl⟩ := List.mem_map.1 hk
  exact h (List.of_mem_zip (a := p.1) (b := p.2) hp).1

/-- The full claim: a table comes back with the same row labels and columns, numeric columns cast, every cell in its row. -/
def C92_full : Prop :=
  ∀ (numeric : Nat × List Nat → Bool) (cast : Nat × List Nat → Except PyErr (Option (List Nat))) (null : Nat) (f : Frame Nat Nat),
    f.columns ≠ [] → Frame.Rect f → f.index.Nodup → Castable numeric cast f →
    ∃ g, downcastDf numeric cast id null f = .ok g ∧ CastOf numeric cast f g

/-- rows labelled `1, 0` (as in a table that has been sorted): a column `5` of text, a column `6` of numbers -/
def sortedTable : Frame Nat Nat := ⟨[1, 0], [(5, [70, 71]), (6, [10, 20])]⟩

/-- `downcast` of the numbers; their values do not change -/
def keepValues : Nat × List Nat → Except PyErr (Option (List Nat)) := fun c => .ok (some c.2)

/-- **The full claim is false**: in a table whose rows have been reordered, the numbers are given to other rows, silently. -/
theorem C92_rows_mixed_up :
    downcastDf (fun c => c.1 == 6) keepValues id 99 sortedTable = .ok ⟨[1, 0], [(5, [70, 71]), (6, [20, 10])]⟩ := by
  rfl

theorem C92_full_false : ¬ C92_full := by
  intro h
  obtain ⟨g, hg, hc⟩ := h (fun c => c.1 == 6) keepValues 99 sortedTable (by simp [sortedTable])
    (by intro c hc; simp [sortedTable] at hc; rcases hc with rfl | rfl <;> rfl) (by simp [sortedTable])
    (by intro c _ _; exact ⟨c.2, rfl, rfl⟩)
  rw [C92_rows_mixed_up] at hg
  cases hg
  have h := hc.columns
  cases h with
  | cons _ h => cases h with
    | cons h _ => exact absurd (h.2.2 rfl) (by unfold keepValues; simp)

/-- C92, the part that holds: where rows are labelled `0, 1, …`, or no column is numeric, the table comes back with the same
labels and columns, numeric columns cast, every cell in its row. -/
theorem C92_downcast_df_partial (f : Frame N C) (hne : f.columns ≠ []) (hr : Frame.Rect f) (hc : Castable numeric cast f)
    (h : Frame.Default ofNat f ∨ ∀ c ∈ f.columns, numeric c = false) :
    ∃ g, downcastDf numeric cast ofNat null f = .ok g ∧ CastOf numeric cast f g := by
  obtain ⟨ss, hss⟩ := downcastSeries_total (ofNat := ofNat) hc
  have hf := forall₂_mem_left (downcastSeries_ok f.columns hss)
  have hi : ∀ s ∈ ss, s.index = f.index := by
    intro s hs
    obtain ⟨c, _, hm, hcs⟩ := forall₂_right hf hs
    rw [(castSeries_index hc hr hm hcs).2]
    rcases h with h | h
    · have h : (List.range f.index.length).map ofNat = f.index := h.symm
      rw [h]; simp
    · rw [h c hm]; simp
  have hne' : ss ≠ [] := by
    rintro rfl
    cases hf' : f.columns with
    | nil => exact hne hf'
    | cons a t => rw [hf'] at hf; cases hf
  have heq := concat_same (null := null) hne' hi
  have hgo : downcastDf numeric cast ofNat null f = concatColumns null ss := by rw [downcastDf, hss]
  refine ⟨_, hgo.trans heq, ⟨rfl, ?_⟩⟩
  show List.Forall₂ _ f.columns (ss.map fun x => (x.name, x.cells))
  rw [List.forall₂_map_right_iff]
  exact hf.imp fun c s h => ⟨h.2.1, fun hn => (h.2.2.1 hn).2, fun hn => (h.2.2.2 hn).2⟩

example : ∃ g, downcastDf (fun c => c.1 == 6) keepValues id 99 ⟨[0, 1], [(5, [70, 71]), (6, [10, 20])]⟩ = .ok g ∧
    CastOf (fun c => c.1 == 6) keepValues ⟨[0, 1], [(5, [70, 71]), (6, [10, 20])]⟩ g :=
  C92_downcast_df_partial _ (by simp) (by intro c hc; simp at hc; rcases hc with rfl | rfl <;> rfl)
    (by intro c _ _; exact ⟨c.2, rfl, rfl⟩) (.inl rfl)

/-- If every column is numeric the row labels are lost: rows are labelled `0, 1, …`, each cell in its place. -/
theorem C92_labels_lost (f : Frame N C) (hne : f.columns ≠ []) (hr : Frame.Rect f) (hc : Castable numeric cast f)
    (h : ∀ c ∈ f.columns, numeric c = true) :
    ∃ g, downcastDf numeric cast ofNat null f = .ok g ∧
      CastOf numeric cast { f with index := (List.range f.index.length).map ofNat } g := by
  obtain ⟨ss, hss⟩ := downcastSeries_total (ofNat := ofNat) hc
  have hf := forall₂_mem_left (downcastSeries_ok f.columns hss)
  have hi : ∀ s ∈ ss, s.index = (List.range f.index.length).map ofNat := by
    intro s hs
    obtain ⟨c, _, hm, hcs⟩ := forall₂_right hf hs
    rw [(castSeries_index hc hr hm hcs).2, if_pos (h c hm)]
  have hne' : ss ≠ [] := by
    rintro rfl
    cases hf' : f.columns with
    | nil => exact hne hf'
    | cons a t => rw [hf'] at hf; cases hf
  have heq := concat_same (null := null) hne' hi
  have hgo : downcastDf numeric cast ofNat null f = concatColumns null ss := by rw [downcastDf, hss]
  refine ⟨_, hgo.trans heq, ⟨rfl, ?_⟩⟩
  show List.Forall₂ _ f.columns (ss.map fun x => (x.name, x.cells))
  rw [List.forall₂_map_right_iff]
  exact hf.imp fun c s h => ⟨h.2.1, fun hn => (h.2.2.1 hn).2, fun hn => (h.2.2.2 hn).2⟩

example : ∃ g, downcastDf (fun _ => true) keepValues id 99 ⟨[7, 3], [(5, [70, 71]), (6, [10, 20])]⟩ = .ok g ∧
    CastOf (fun _ => true) keepValues ⟨[0, 1], [(5, [70, 71]), (6, [10, 20])]⟩ g :=
  C92_labels_lost ⟨[7, 3], [(5, [70, 71]), (6, [10, 20])]⟩ (by simp)
    (by intro c hc; simp at hc; rcases hc with rfl | rfl <;> rfl)
    (by intro c _ _; exact ⟨c.2, rfl, rfl⟩) (by simp)

/-- If only some columns are numeric and rows are labelled otherwise, with no label twice: numeric columns are put where rows
are labelled `0, 1, …`, the others where their labels are, and cells that neither gives are null. -/
theorem C92_by_label (f : Frame N C) (hinj : ∀ i j, ofNat i = ofNat j → i = j) (hr : Frame.Rect f)
    (hc : Castable numeric cast f) (hnd : f.index.Nodup) (hd : ¬ Frame.Default ofNat f)
    (hnum : ∃ c ∈ f.columns, numeric c = true) (hoth : ∃ c ∈ f.columns, numeric c = false) :
    ∃ g, downcastDf numeric cast ofNat null f = .ok g ∧ ByLabel numeric cast ofNat null f g := by
  obtain ⟨ss, hss⟩ := downcastSeries_total (ofNat := ofNat) hc
  have hf := forall₂_mem_left (downcastSeries_ok f.columns hss)
  have hR : ((List.range f.index.length).map ofNat).Nodup :=
    List.Pairwise.map ofNat (fun a b h he => h (hinj a b he)) List.nodup_range
  have hix : ∀ s ∈ ss, s.index.Nodup := by
    intro s hs
    obtain ⟨c, _, hm, hcs⟩ := forall₂_right hf hs
    rw [(castSeries_index hc hr hm hcs).2]
    split
    · exact hR
    · exact hnd
  obtain ⟨cn, hcn, hnumc⟩ := hnum
  obtain ⟨co, hco, hothc⟩ := hoth
  obtain ⟨sn, hsn, _, hsnc⟩ := forall₂_left hf hcn
  obtain ⟨so, hso, _, hsoc⟩ := forall₂_left hf hco
  have hin : sn.index = (List.range f.index.length).map ofNat := by
    rw [(castSeries_index hc hr hcn hsnc).2, if_pos hnumc]
  have hio : so.index = f.index := by rw [(castSeries_index hc hr hco hsoc).2, hothc]; simp
  have hconc : concatColumns null ss = .ok ⟨unionLabels (ss.map (·.index)),
      ss.map fun x => (x.name, (unionLabels (ss.map (·.index))).map fun l => (x.at l).getD null)⟩ := by
    cases hs : ss with
    | nil => rw [hs] at hsn; cases hsn
    | cons s t =>
      unfold concatColumns
      simp only
      rw [if_neg, if_pos (by rw [← hs]; exact hix)]
      intro hall
      have key : ∀ x ∈ ss, x.index = s.index := by
        rw [hs]; intro x hx
        rcases List.mem_cons.1 hx with rfl | hx
        · rfl
        · exact hall x hx
      exact hd (by rw [Frame.Default, ← hin, key sn hsn, ← key so hso, hio])
  have hmem : ∀ l, l ∈ unionLabels (ss.map (·.index)) ↔ l ∈ f.index ∨ ∃ i < f.index.length, l = ofNat i := by
    intro l
    rw [unionLabels_mem]
    constructor
    · rintro ⟨i, hi, hl⟩
      obtain ⟨s, hs, rfl⟩ := List.mem_map.1 hi
      obtain ⟨c, _, hm, hcs⟩ := forall₂_right hf hs
      rw [(castSeries_index hc hr hm hcs).2] at hl
      split at hl
      · obtain ⟨i, hi, rfl⟩ := List.mem_map.1 hl
        exact .inr ⟨i, List.mem_range.1 hi, rfl⟩
      · exact .inl hl
    · rintro (h | ⟨i, hi, rfl⟩)
      · exact ⟨_, List.mem_map.2 ⟨so, hso, rfl⟩, by rw [hio]; exact h⟩
      · exact ⟨_, List.mem_map.2 ⟨sn, hsn, rfl⟩, by rw [hin]; exact List.mem_map.2 ⟨i, List.mem_range.2 hi, rfl⟩⟩
  refine ⟨_, by rw [downcastDf, hss]; exact hconc, ?_, hmem, ?_⟩
  · apply unionLabels_nodup
    intro i hi
    obtain ⟨s, hs, rfl⟩ := List.mem_map.1 hi
    exact hix s hs
  rw [List.forall₂_map_right_iff]
  refine hf.imp fun c s h => ⟨h.2.1, fun k l hk => ?_⟩
  obtain ⟨hm, hcs⟩ := h
  obtain ⟨hlen, hsi⟩ := castSeries_index hc hr hm hcs
  have hnds : s.index.Nodup := by
    rw [hsi]; split
    · exact hR
    · exact hnd
  have hcell : ((unionLabels (ss.map (·.index))).map fun l => (s.at l).getD null)[k]? = some ((s.at l).getD null) := by
    rw [List.getElem?_map, hk]; rfl
  refine ⟨fun hn => ?_, fun hn => ?_⟩
  · have hsi : s.index = f.index := by rw [hsi, hn]; simp
    refine ⟨fun i hi => ?_, fun hl => ?_⟩
    · simp only [hcell]
      have hlt : i < s.cells.length := by
        rw [hlen]
        exact (List.getElem?_eq_some_iff.1 hi).1
      rw [at_index hnds (by rw [hlen, hsi]) (by rw [hsi]; exact hi), ← (hcs.2.1 hn).2, List.getElem?_eq_getElem hlt]
      rfl
    · simp only [hcell]
      rw [at_missing (by rw [hsi]; exact hl)]; rfl
  · have hsi : s.index = (List.range f.index.length).map ofNat := by rw [hsi, if_pos hn]
    refine ⟨s.cells, (hcs.2.2 hn).2, fun i hi hl => ?_, fun hl => ?_⟩
    · simp only [hcell]
      have hlt : i < s.cells.length := by rw [hlen]; exact hi
      rw [at_index hnds (by rw [hlen, hsi]; simp) (i := i) (by rw [hsi, hl]; simp [hi]), List.getElem?_eq_getElem hlt]
      rfl
    · simp only [hcell]
      rw [at_missing]
      · rfl
      · rw [hsi]
        intro hm
        obtain ⟨i, hi, rfl⟩ := List.mem_map.1 hm
        exact hl i (List.mem_range.1 hi) rfl

example : ∃ g, downcastDf (fun c => c.1 == 6) keepValues id 99 ⟨[1, 2], [(5, [70, 71]), (6, [10, 20])]⟩ = .ok g ∧
    ByLabel (fun c => c.1 == 6) keepValues id 99 ⟨[1, 2], [(5, [70, 71]), (6, [10, 20])]⟩ g :=
  C92_by_label _ (fun _ _ h => h) (by intro c hc; simp at hc; rcases hc with rfl | rfl <;> rfl)
    (by intro c _ _; exact ⟨c.2, rfl, rfl⟩) (by simp) (by simp [Frame.Default]; decide) ⟨(6, [10, 20]), by simp, rfl⟩
    ⟨(5, [70, 71]), by simp, rfl⟩

/-- rows labelled `1, 2`: three rows come back, with nulls -/
example : downcastDf (fun c => c.1 == 6) keepValues id 99 ⟨[1, 2], [(5, [70, 71]), (6, [10, 20])]⟩ =
    .ok ⟨[1, 2, 0], [(5, [70, 71, 99]), (6, [20, 99, 10])]⟩ := rfl

/-- If a label occurs twice and only some columns are numeric, `downcast_df` raises. -/
theorem C92_repeated_label (f : Frame N C) (hinj : ∀ i j, ofNat i = ofNat j → i = j) (hr : Frame.Rect f)
    (hc : Castable numeric cast f) (hnd : ¬ f.index.Nodup)
    (hnum : ∃ c ∈ f.columns, numeric c = true) (hoth : ∃ c ∈ f.columns, numeric c = false) :
    downcastDf numeric cast ofNat null f = .error .valueError := by
  obtain ⟨ss, hss⟩ := downcastSeries_total (ofNat := ofNat) hc
  have hf := forall₂_mem_left (downcastSeries_ok f.columns hss)
  have hR : ((List.range f.index.length).map ofNat).Nodup :=
    List.Pairwise.map ofNat (fun a b h he => h (hinj a b he)) List.nodup_range
  obtain ⟨cn, hcn, hnumc⟩ := hnum
  obtain ⟨co, hco, hothc⟩ := hoth
  obtain ⟨sn, hsn, _, hsnc⟩ := forall₂_left hf hcn
  obtain ⟨so, hso, _, hsoc⟩ := forall₂_left hf hco
  have hin : sn.index = (List.range f.index.length).map ofNat := by
    rw [(castSeries_index hc hr hcn hsnc).2, if_pos hnumc]
  have hio : so.index = f.index := by rw [(castSeries_index hc hr hco hsoc).2, hothc]; simp
  rw [downcastDf, hss]
  cases hs : ss with
  | nil => rw [hs] at hsn; cases hsn
  | cons s t =>
    show concatColumns null (s :: t) = _
    unfold concatColumns
    simp only
    rw [if_neg, if_neg]
    · intro hall
      rw [← hs] at hall
      exact hnd (hio ▸ hall so hso)
    · intro hall
      have key : ∀ x ∈ ss, x.index = s.index := by
        rw [hs]; intro x hx
        rcases List.mem_cons.1 hx with rfl | hx
        · rfl
        · exact hall x hx
      have : f.index = (List.range f.index.length).map ofNat := by rw [← hin, key sn hsn, ← key so hso, hio]
      exact hnd (this ▸ hR)

example : downcastDf (fun c => c.1 == 6) keepValues id 99 ⟨[4, 4], [(5, [70, 71]), (6, [10, 20])]⟩ = .error .valueError :=
  C92_repeated_label _ (fun _ _ h => h) (by intro c hc; simp at hc; rcases hc with rfl | rfl <;> rfl)
    (by intro c _ _; exact ⟨c.2, rfl, rfl⟩) (by simp) ⟨(6, [10, 20]), by simp, rfl⟩
    ⟨(5, [70, 71]), by simp, rfl⟩

omit [DecidableEq N] in
theorem mapM_error {α β : Type} {g : α → Except PyErr β} {e : PyErr} (pre : List α) (a : α) (post : List α)
    (hpre : ∀ x ∈ pre, ∃ y, g x = .ok y) (ha : g a = .error e) : (pre ++ a :: post).mapM g = .error e := by
  induction pre with
  | nil => rw [List.nil_append, List.mapM_cons, ha]; rfl
  | cons x t ih =>
    obtain ⟨y, hy⟩ := hpre x (List.mem_cons_self ..)
    rw [List.cons_append, List.mapM_cons, hy, ih fun z hz => hpre z (List.mem_cons_of_mem _ hz)]
    rfl

/-- Defect: a column of which `downcast` makes a bare array (zeros and NaN, `C67_zero_with_nonfinite`) makes `downcast_df` raise. -/
theorem C92_bare_array (f : Frame N C) (pre post : List (N × List C)) (c : N × List C) (hf : f.columns = pre ++ c :: post)
    (hpre : ∀ d ∈ pre, numeric d = true → ∃ l, cast d = .ok (some l)) (hn : numeric c = true) (hb : cast c = .ok none) :
    downcastDf numeric cast ofNat null f = .error .indexError := by
  have : downcastSeries numeric cast ofNat f = .error .indexError := by
    rw [downcastSeries, hf]
    refine mapM_error pre c post (fun d hd => ?_) (by simp [castColumn, hn, hb])
    unfold castColumn
    by_cases hn : numeric d = false
    · exact ⟨_, if_pos hn⟩
    · obtain ⟨l, hl⟩ := hpre d hd (by simpa using hn)
      rw [if_neg hn, hl]; exact ⟨_, rfl⟩
  rw [downcastDf, this]

example : downcastDf (fun _ => true) (fun c => if c.1 = 6 then .ok none else .ok (some c.2)) id 99
    (⟨[0, 1], [(5, [70, 71]), (6, [0, 99])]⟩ : Frame Nat Nat) = .error .indexError :=
  C92_bare_array _ [(5, [70, 71])] [] (6, [0, 99]) rfl (by intro d hd _; simp at hd; subst hd; exact ⟨_, rfl⟩) rfl rfl

end
end Verif.Props
