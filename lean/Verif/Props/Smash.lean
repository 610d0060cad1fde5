import Mathlib.Data.List.Nodup
import Verif.Lemmas.Smash
/-!
# C114–C116: smash, unpack, unpack_column
-/
namespace Verif.Props
open Verif Verif.Model Verif.Spec Verif.Lemmas

variable {C : Type}

section smash

theorem smash_ok {text : C → Str} {f : Frame Str C} {by_ : List Str} {isin : Option (C → Bool)} {l : List (Str × C)}
    (h : smash text f by_ isin = .ok l) : ∃ ids, List.Forall₂ (fun n c => (n, c) ∈ f.columns) by_ ids ∧
      l = (f.columns.filter fun c => decide (c.1 ∉ by_)).flatMap fun v =>
        ((List.range f.index.length).filter (rowKept isin ids)).filterMap fun i => (v.2[i]?).map fun x =>
          (underscored ((rowCells ids i).map text ++ [v.1]), x) := by
  unfold smash at h
  split at h
  · cases h
  · rename_i ids hids
    cases h
    refine ⟨ids, mapM_get? hids, ?_⟩
    simp only [reduceNames_eq, rowCells, List.map_filterMap]

/-- C114, entries: one for each column that is not in `by` and each row asked for, column after column, rows in order; its value
is the cell, its label the texts of the row's cells in the columns `by` and the name of the column, with underscores between. -/
theorem C114_entries (text : C → Str) (f : Frame Str C) (by_ : List Str) (isin : Option (C → Bool)) (l : List (Str × C))
    (hr : Frame.Rect f) (hn : (f.columns.map Prod.fst).Nodup) (h : smash text f by_ isin = .ok l) :
    ∃ rows : List Nat, rows.Pairwise (· < ·) ∧ (∀ i, i ∈ rows ↔ i < f.index.length ∧ AskedFor f by_ isin i) ∧
      l.length = (f.columns.filter fun c => decide (c.1 ∉ by_)).length * rows.length ∧
      ∀ (j k i : Nat) v, (f.columns.filter fun c => decide (c.1 ∉ by_))[j]? = some v → rows[k]? = some i →
        ∃ ids x, CellsAt f by_ i ids ∧ v.2[i]? = some x ∧
          l[j * rows.length + k]? = some (underscored (ids.map text ++ [v.1]), x) := by
  obtain ⟨ids, hids, rfl⟩ := smash_ok h
  have hlt : ∀ i ∈ (List.range f.index.length).filter (rowKept isin ids), i < f.index.length := by
    intro i hi; simpa using (List.mem_filter.1 hi).1
  have hcell : ∀ v ∈ f.columns.filter fun c => decide (c.1 ∉ by_), ∀ i ∈ (List.range f.index.length).filter (rowKept isin ids),
      ((v.2[i]?).map fun x => (underscored ((rowCells ids i).map text ++ [v.1]), x)).isSome := by
    intro v hv i hi
    have : i < v.2.length := by rw [hr v (List.mem_filter.1 hv).1]; exact hlt i hi
    simp [List.getElem?_eq_getElem this]
  refine ⟨(List.range f.index.length).filter (rowKept isin ids), List.pairwise_lt_range.filter _, ?_, ?_, ?_⟩
  · intro i
    rw [List.mem_filter, List.mem_range]
    exact ⟨fun ⟨h1, h2⟩ => ⟨h1, (rowKept_iff hr hn hids isin h1).1 h2⟩, fun ⟨h1, h2⟩ => ⟨h1, (rowKept_iff hr hn hids isin h1).2 h2⟩⟩
  · exact length_flatMap_eq _ _ _ fun v hv => (filterMap_total _ _ (hcell v hv) 0).2
  · intro j k i v hj hk
    have hv := List.mem_of_getElem? hj
    have hi := hlt i (List.mem_of_getElem? hk)
    have hx : i < v.2.length := by rw [hr v (List.mem_filter.1 hv).1]; exact hi
    refine ⟨_, v.2[i], rowCells_spec hr hids hi, List.getElem?_eq_getElem hx, ?_⟩
    rw [getElem?_flatMap _ _ _ (fun v hv => (filterMap_total _ _ (hcell v hv) 0).2) j k v hj (List.getElem?_eq_some_iff.1 hk).1,
      (filterMap_total _ _ (hcell v hv) k).1, hk]
    simp [List.getElem?_eq_getElem hx]

/-- C114, errors: `KeyError` just if the frame lacks a column that `by` names. -/
theorem C114_error (text : C → Str) (f : Frame Str C) (by_ : List Str) (isin : Option (C → Bool)) :
    (∃ l, smash text f by_ isin = .ok l) ∧ (∀ n ∈ by_, n ∈ f.columns.map Prod.fst) ∨
    smash text f by_ isin = .error .keyError ∧ ∃ n ∈ by_, n ∉ f.columns.map Prod.fst := by
  unfold smash
  cases h : by_.mapM (Dict.get? f.columns) with
  | none => exact .inr ⟨rfl, mapM_get?_none.1 h⟩
  | some ids =>
    refine .inl ⟨⟨_, rfl⟩, fun n hn => Classical.byContradiction fun hc => ?_⟩
    rw [mapM_get?_none.2 ⟨n, hn, hc⟩] at h
    cases h

/-- the table of the examples: two columns to smash by, two others -/
def smashDemo : Frame Str Nat :=
  ⟨["r".toList, "s".toList], [("p".toList, [1, 2]), ("x".toList, [10, 20]), ("q".toList, [3, 4]), ("y".toList, [30, 40])]⟩

example : smash natStr smashDemo ["p".toList, "q".toList] none =
    .ok [("1_3_x".toList, 10), ("2_4_x".toList, 20), ("1_3_y".toList, 30), ("2_4_y".toList, 40)] := rfl
example : smash natStr smashDemo ["p".toList, "q".toList] (some fun n => decide (n ∈ [2, 4, 1])) =
    .ok [("2_4_x".toList, 20), ("2_4_y".toList, 40)] := rfl

/-- C114 in full: if no two rows have the same texts in the columns `by`, no two entries have the same label, so that a
label finds the cell it describes -/
def C114_full : Prop := ∀ (text : Str → Str) (f : Frame Str Str) (by_ : List Str) (l : List (Str × Str)), Frame.Rect f →
  (f.columns.map Prod.fst).Nodup →
  (∀ i i' ids ids', CellsAt f by_ i ids → CellsAt f by_ i' ids' → ids.map text = ids'.map text → i = i') →
  smash text f by_ none = .ok l → (l.map Prod.fst).Nodup

/-- C114: labels are distinct, and every cell is found by its label, if the texts in the columns `by` have no underscore. -/
theorem C114_lookup_partial (text : C → Str) (f : Frame Str C) (by_ : List Str) (isin : Option (C → Bool)) (l : List (Str × C))
    (hr : Frame.Rect f) (hn : (f.columns.map Prod.fst).Nodup)
    (hd : ∀ i i' ids ids', CellsAt f by_ i ids → CellsAt f by_ i' ids' → ids.map text = ids'.map text → i = i')
    (hu : ∀ i ids, CellsAt f by_ i ids → ∀ x ∈ ids, '_' ∉ text x)
    (h : smash text f by_ isin = .ok l) : (l.map Prod.fst).Nodup ∧
      ∀ i ids name cells x, i < f.index.length → AskedFor f by_ isin i → CellsAt f by_ i ids → (name, cells) ∈ f.columns →
        name ∉ by_ → cells[i]? = some x → Dict.get? l (underscored (ids.map text ++ [name])) = some x := by
  obtain ⟨ids, hids, rfl⟩ := smash_ok h
  have hlen : by_.length = ids.length := hids.length_eq
  have hrl : ∀ i, i < f.index.length → (rowCells ids i).length = by_.length := fun i hi => (rowCells_spec hr hids hi).length_eq.symm
  have hinj : ∀ i i' n n', i < f.index.length → i' < f.index.length →
      underscored ((rowCells ids i).map text ++ [n]) = underscored ((rowCells ids i').map text ++ [n']) → i = i' ∧ n = n' := by
    intro i i' n n' hi hi' e
    have hs := rowCells_spec hr hids hi
    have hs' := rowCells_spec hr hids hi'
    obtain ⟨e1, e2⟩ := underscored_inj _ _ n n' (by simp [hrl i hi, hrl i' hi'])
      (by intro s hm; obtain ⟨x, hx, rfl⟩ := List.mem_map.1 hm; exact hu _ _ hs x hx)
      (by intro s hm; obtain ⟨x, hx, rfl⟩ := List.mem_map.1 hm; exact hu _ _ hs' x hx) e
    exact ⟨hd _ _ _ _ hs hs' e1, e2⟩
  have hmem : ∀ v i, v ∈ f.columns → i ∈ (List.range f.index.length).filter (rowKept isin ids) → i < f.index.length :=
    fun _ i _ hi => by simpa using (List.mem_filter.1 hi).1
  have hnd : (List.map Prod.fst ((f.columns.filter fun c => decide (c.1 ∉ by_)).flatMap fun v =>
        ((List.range f.index.length).filter (rowKept isin ids)).filterMap fun i => (v.2[i]?).map fun x =>
          (underscored ((rowCells ids i).map text ++ [v.1]), x))).Nodup := by
    rw [List.map_flatMap, List.nodup_flatMap]
    constructor
    · intro v hv
      have hrows : ((List.range f.index.length).filter (rowKept isin ids)).Nodup := List.nodup_range.filter _
      rw [List.map_filterMap]
      refine List.Nodup.filterMap ?_ hrows
      intro i i' b hb hb'
      simp only [Option.map_map, Option.mem_def, Option.map_eq_some_iff, Function.comp_apply] at hb hb'
      obtain ⟨x, hx, e⟩ := hb
      obtain ⟨x', hx', e'⟩ := hb'
      have h1 : i < f.index.length := by rw [← hr v (List.mem_filter.1 hv).1]; exact (List.getElem?_eq_some_iff.1 hx).1
      have h2 : i' < f.index.length := by rw [← hr v (List.mem_filter.1 hv).1]; exact (List.getElem?_eq_some_iff.1 hx').1
      exact (hinj i i' v.1 v.1 h1 h2 (e.trans e'.symm)).1
    · have hvals : (f.columns.filter fun c => decide (c.1 ∉ by_)).Pairwise fun a b => a.1 ≠ b.1 :=
        (List.pairwise_map.1 hn).filter _
      refine (List.Pairwise.and_mem.1 hvals).imp ?_
      rintro a b ⟨ha, hb, hab⟩ s hs hs'
      simp only [List.map_filterMap, List.mem_filterMap, Option.map_map, Option.map_eq_some_iff, Function.comp_apply] at hs hs'
      obtain ⟨i, hi, x, hx, e⟩ := hs
      obtain ⟨i', hi', x', hx', e'⟩ := hs'
      exact hab (hinj i i' a.1 b.1 (hmem a i (List.mem_filter.1 ha).1 hi) (hmem b i' (List.mem_filter.1 hb).1 hi') (e.trans e'.symm)).2
  refine ⟨hnd, ?_⟩
  intro i ids' name cells x hi ha hc hm hnot hx
  refine Dict.get?_of_mem (d := List.flatMap _ _) hnd ?_
  rw [cellsAt_unique hn hc (rowCells_spec hr hids hi)]
  refine List.mem_flatMap.2 ⟨(name, cells), List.mem_filter.2 ⟨hm, by simpa using hnot⟩, List.mem_filterMap.2 ⟨i, ?_, ?_⟩⟩
  · exact List.mem_filter.2 ⟨by simpa using hi, (rowKept_iff hr hn hids isin hi).2 ha⟩
  · simp [hx]

theorem cellsAt_two (f : Frame Str C) (n : Str) (t : List Str) (cols : List (List C)) (hr : Frame.Rect f)
    (hn : (f.columns.map Prod.fst).Nodup) (hl : f.index.length = 2) (hids : (n :: t).mapM (Dict.get? f.columns) = some cols)
    (i : Nat) (ids : List C) (hc : CellsAt f (n :: t) i ids) :
    (i = 0 ∧ ids = rowCells cols 0) ∨ (i = 1 ∧ ids = rowCells cols 1) := by
  have hi : i < f.index.length := by
    unfold CellsAt at hc
    cases hc with
    | cons h1 h2 =>
      obtain ⟨c, hc, hx⟩ := h1
      rw [← hr _ hc]
      exact (List.getElem?_eq_some_iff.1 hx).1
  have := cellsAt_unique hn hc (rowCells_spec hr (mapM_get? hids) hi)
  rcases Nat.lt_or_ge i 1 with h1 | h1
  · obtain rfl : i = 0 := by omega
    exact .inl ⟨rfl, this⟩
  · obtain rfl : i = 1 := by omega
    exact .inr ⟨rfl, this⟩

-- hypotheses of `C114_lookup_partial` are met by the table of the examples
example : (∀ i i' ids ids', CellsAt smashDemo ["p".toList, "q".toList] i ids → CellsAt smashDemo ["p".toList, "q".toList] i' ids' →
    ids.map natStr = ids'.map natStr → i = i') ∧
    ∀ i ids, CellsAt smashDemo ["p".toList, "q".toList] i ids → ∀ x ∈ ids, '_' ∉ natStr x := by
  have hrow := cellsAt_two smashDemo "p".toList ["q".toList] _ (by intro c hc; revert c; decide) (by decide) rfl rfl
  have hrow : ∀ i ids, CellsAt smashDemo ["p".toList, "q".toList] i ids → (i = 0 ∧ ids = [1, 3]) ∨ (i = 1 ∧ ids = [2, 4]) := hrow
  constructor
  · intro i i' ids ids' hc hc' e
    rcases hrow i ids hc with ⟨rfl, rfl⟩ | ⟨rfl, rfl⟩ <;> rcases hrow i' ids' hc' with ⟨rfl, rfl⟩ | ⟨rfl, rfl⟩
    · rfl
    · exact absurd e (by decide)
    · exact absurd e (by decide)
    · rfl
  · intro i ids hc
    rcases hrow i ids hc with ⟨rfl, rfl⟩ | ⟨rfl, rfl⟩ <;> decide

/-- two rows, `a_b, c` and `a, b_c` -/
def smashClash : Frame Str Str :=
  ⟨["r".toList, "s".toList], [("p".toList, ["a_b".toList, "a".toList]), ("q".toList, ["c".toList, "b_c".toList]),
    ("x".toList, ["1".toList, "2".toList])]⟩

/-- C114 in full is false: rows `a_b, c` and `a, b_c` get the same label. -/
theorem C114_full_false : ¬ C114_full := by
  intro h
  have h1 := h id smashClash ["p".toList, "q".toList] _ (by intro c hc; revert c; decide) (by decide) ?_ rfl
  · exact absurd h1 (by decide)
  · have hrow := cellsAt_two smashClash "p".toList ["q".toList] _ (by intro c hc; revert c; decide) (by decide) rfl rfl
    have hrow : ∀ i ids, CellsAt smashClash ["p".toList, "q".toList] i ids →
        (i = 0 ∧ ids = ["a_b".toList, "c".toList]) ∨ (i = 1 ∧ ids = ["a".toList, "b_c".toList]) := hrow
    intro i i' ids ids' hc hc' e
    rcases hrow i ids hc with ⟨rfl, rfl⟩ | ⟨rfl, rfl⟩ <;> rcases hrow i' ids' hc' with ⟨rfl, rfl⟩ | ⟨rfl, rfl⟩
    · rfl
    · exact absurd e (by decide)
    · exact absurd e (by decide)
    · rfl

example : smash id smashClash ["p".toList, "q".toList] none = .ok [("a_b_c_x".toList, "1".toList), ("a_b_c_x".toList, "2".toList)] :=
  rfl

end smash

section unpack

theorem isWidth_widest (ls : List (List C)) : IsWidth (widest ls) ls := by
  have key : ∀ (ls : List (List C)) (a : Nat), a ≤ ls.foldl (fun a l => max a l.length) a ∧
      (∀ l ∈ ls, l.length ≤ ls.foldl (fun a l => max a l.length) a) ∧
      ∀ v, a ≤ v → (∀ l ∈ ls, l.length ≤ v) → ls.foldl (fun a l => max a l.length) a ≤ v := by
    intro ls
    induction ls with
    | nil => intro a; exact ⟨Nat.le_refl _, by simp, fun v h _ => h⟩
    | cons x t ih =>
      intro a
      obtain ⟨h1, h2, h3⟩ := ih (max a x.length)
      rw [List.foldl_cons]
      refine ⟨by omega, ?_, ?_⟩
      · intro l hl
        rcases List.mem_cons.1 hl with rfl | hl
        · omega
        · exact h2 l hl
      · intro v hv hl
        have := hl x (by simp)
        exact h3 v (by omega) fun l hm => hl l (by simp [hm])
  obtain ⟨_, h2, h3⟩ := key ls 0
  exact ⟨h2, fun v hv => h3 v (by omega) hv⟩

/-- C115: `unpack` keeps the rows whose cell is not null, in order, under their labels; it has the columns `name_0`, `name_1`, …,
as many as the longest list is long; in each row stand the elements of its list, then nulls. -/
theorem C115_unpack (isNull : C → Bool) (null : C) (elems : C → List C) (name : Str) (s : List (Str × C)) :
    (unpack isNull null elems name s).index = (s.filter fun r => !isNull r.2).map Prod.fst ∧
    IsWidth (unpack isNull null elems name s).columns.length ((s.filter fun r => !isNull r.2).map fun r => elems r.2) ∧
    ∀ (j : Nat) c, (unpack isNull null elems name s).columns[j]? = some c → c.1 = name ++ '_' :: natStr j ∧
      c.2 = (s.filter fun r => !isNull r.2).map fun r => padded null (elems r.2) j := by
  refine ⟨rfl, by simpa [unpack] using isWidth_widest _, ?_⟩
  intro j c hj
  simp only [unpack, List.getElem?_map, List.getElem?_range', List.getElem?_eq_some_iff, Option.map_eq_some_iff] at hj
  obtain ⟨a, ⟨h1, h2⟩, rfl⟩ := hj
  rw [List.getElem_range] at h2
  subst h2
  exact ⟨by simp [partName], by simp [padded, Function.comp_def]⟩

/-- C115: no two columns have the same name. -/
theorem C115_names (isNull : C → Bool) (null : C) (elems : C → List C) (name : Str) (s : List (Str × C)) :
    ((unpack isNull null elems name s).columns.map Prod.fst).Nodup := by
  simp only [unpack, List.map_map]
  refine List.Nodup.map ?_ List.nodup_range
  intro i j h
  have h : partName name i = partName name j := h
  exact natStr_injective (List.append_cancel_left h)

/-- cells of the examples: null, a list, something else -/
inductive DemoCell where
  | null
  | list (l : List DemoCell)
  | num (n : Nat)

def DemoCell.isNull : DemoCell → Bool
  | .null => true
  | _ => false

def DemoCell.elems : DemoCell → List DemoCell
  | .list l => l
  | _ => []

example : unpack DemoCell.isNull .null DemoCell.elems "a".toList
    [("r".toList, .list [.num 1]), ("s".toList, .null), ("t".toList, .list [.num 2, .num 3])] =
    ⟨["r".toList, "t".toList], [("a_0".toList, [.num 1, .num 2]), ("a_1".toList, [.null, .num 3])]⟩ := rfl

end unpack

section column

theorem zip_map_pair {α β γ : Type} (l : List (α × β)) (g : β → γ) :
    (l.map Prod.fst).zip (l.map fun r => g r.2) = l.map fun r => (r.1, g r.2) := by
  induction l with
  | nil => rfl
  | cons a t ih => simp [ih]

theorem set_new (null : C) (rows index : List Str) (news cols : List (Str × List C)) (hn : (news.map Prod.fst).Nodup)
    (hd : ∀ c ∈ news, c.1 ∉ cols.map Prod.fst) :
    news.foldl (fun cols c => Dict.set cols c.1 (setCells rows ((Dict.get? cols c.1).getD (rows.map fun _ => null)) index c.2)) cols =
      cols ++ news.map fun c => (c.1, setCells rows (rows.map fun _ => null) index c.2) := by
  induction news generalizing cols with
  | nil => simp
  | cons c t ih =>
    have hc : c.1 ∉ Dict.keys cols := hd c (by simp)
    rw [List.map_cons, List.nodup_cons] at hn
    rw [List.foldl_cons, Dict.get?_eq_none.2 hc, Dict.set_of_not_mem _ _ hc, ih _ hn.2]
    · simp
    · intro d hdm hm
      rw [List.map_append, List.mem_append] at hm
      rcases hm with hm | hm
      · exact hd d (by simp [hdm]) hm
      · simp only [List.map_cons, List.map_nil, List.mem_singleton] at hm
        exact hn.1 (hm ▸ List.mem_map.2 ⟨d, hdm, rfl⟩)

/-- C116 in full: `unpack_column` returns the frame without the column, with the columns its lists are unpacked to at the end,
and leaves the frame it is given as it is -/
def C116_full : Prop := ∀ (f : Frame Str DemoCell) (name : Str) (cells : List DemoCell), Frame.Rect f →
  (f.columns.map Prod.fst).Nodup → (name, cells) ∈ f.columns → ∃ news,
    PartsOf DemoCell.isNull .null DemoCell.elems name cells news ∧
    unpackColumn DemoCell.isNull .null DemoCell.elems f name =
      .ok (f, { f with columns := (f.columns.filter fun c => decide (c.1 ≠ name)) ++ news })

/-- C116: what is returned is as claimed if no two rows have the same label and no column is called like one of the new ones.
The frame passed in has the new columns too afterwards. -/
theorem C116_column_partial (isNull : C → Bool) (null : C) (elems : C → List C) (f : Frame Str C) (name : Str) (cells : List C)
    (hr : Frame.Rect f) (hn : (f.columns.map Prod.fst).Nodup) (hi : f.index.Nodup) (hc : (name, cells) ∈ f.columns)
    (hnew : ∀ j, name ++ '_' :: natStr j ∉ f.columns.map Prod.fst) :
    ∃ news, PartsOf isNull null elems name cells news ∧ unpackColumn isNull null elems f name =
      .ok ({ f with columns := f.columns ++ news },
        { f with columns := (f.columns.filter fun c => decide (c.1 ≠ name)) ++ news }) := by
  have hlen : cells.length = f.index.length := hr _ hc
  obtain ⟨h1, h2, h3⟩ := C115_unpack isNull null elems name (f.index.zip cells)
  have hnames := C115_names isNull null elems name (f.index.zip cells)
  generalize hg : unpack isNull null elems name (f.index.zip cells) = g at h1 h2 h3 hnames
  have hfst : (f.index.zip cells).map Prod.fst = f.index := by rw [List.map_fst_zip (by omega)]
  have hsnd : (f.index.zip cells).map Prod.snd = cells := by rw [List.map_snd_zip (by omega)]
  have hgi : g.index.Nodup := by
    rw [h1]
    exact (List.filter_sublist.map Prod.fst).nodup (by rw [hfst]; exact hi)
  have hpart : ∀ c ∈ g.columns, ∃ j, c.1 = name ++ '_' :: natStr j := by
    intro c hm
    obtain ⟨j, hj⟩ := List.mem_iff_getElem?.1 hm
    exact ⟨j, (h3 j c hj).1⟩
  have hout : ∀ c ∈ g.columns, c.1 ∉ f.columns.map Prod.fst := by
    intro c hm
    obtain ⟨j, hj⟩ := hpart c hm
    rw [hj]
    exact hnew j
  have hset := set_new null f.index g.index g.columns f.columns hnames hout
  refine ⟨g.columns.map fun c => (c.1, setCells f.index (f.index.map fun _ => null) g.index c.2), ⟨?_, ?_⟩, ?_⟩
  · rw [List.length_map]
    have : (cells.filter fun x => !isNull x).map elems =
        ((f.index.zip cells).filter fun r => !isNull r.2).map fun r => elems r.2 := by
      conv => lhs; rw [← hsnd, List.filter_map, List.map_map]
      rfl
    rw [this]
    exact h2
  · intro j c hj
    rw [List.getElem?_map, Option.map_eq_some_iff] at hj
    obtain ⟨d, hd, rfl⟩ := hj
    obtain ⟨e1, e2⟩ := h3 j d hd
    refine ⟨e1, by simp [setCells, hlen], ?_⟩
    intro k x hx
    have hk := (List.getElem?_eq_some_iff.1 hx).1
    have hki : k < f.index.length := by omega
    have hpair : (f.index[k], x) ∈ f.index.zip cells := by
      refine List.mem_iff_getElem?.2 ⟨k, ?_⟩
      rw [List.getElem?_zip_eq_some]
      exact ⟨List.getElem?_eq_getElem hki, hx⟩
    have hwf : Dict.WF (f.index.zip cells) := by unfold Dict.WF Dict.keys; rw [hfst]; exact hi
    have hcell : cellAt g.index d.2 f.index[k] = if isNull x then none else some (padded null (elems x) j) := by
      unfold cellAt
      rw [h1, e2, zip_map_pair _ fun x => padded null (elems x) j]
      split
      · rename_i hnull
        rw [Dict.get?_eq_none]
        intro hm
        simp only [Dict.keys, List.map_map, List.mem_map, Function.comp_apply, List.mem_filter] at hm
        obtain ⟨r, ⟨hr1, hr2⟩, hr3⟩ := hm
        have a1 := Dict.get?_of_mem hwf hpair
        have a2 := Dict.get?_of_mem hwf (show (r.1, r.2) ∈ _ from hr1)
        rw [hr3, a1] at a2
        cases a2
        simp [hnull] at hr2
      · rename_i hnull
        refine Dict.get?_of_mem ?_ (List.mem_map.2 ⟨(f.index[k], x), List.mem_filter.2 ⟨hpair, by simpa using hnull⟩, rfl⟩)
        unfold Dict.WF Dict.keys
        rw [List.map_map]
        exact h1 ▸ hgi
    unfold setCells
    have hz : (f.index.zip (f.index.map fun _ => null))[k]? = some (f.index[k], null) :=
      List.getElem?_zip_eq_some.2 ⟨List.getElem?_eq_getElem hki, by simp [hki]⟩
    rw [List.getElem?_map, hz]
    simp only [Option.map_some, hcell]
    split <;> rfl
  · unfold unpackColumn setFrame
    rw [Dict.get?_of_mem (d := f.columns) hn hc]
    simp only [hg, hgi, if_true, hset, List.filter_append]
    congr 4
    rw [List.filter_eq_self]
    intro c hm
    obtain ⟨d, hd, rfl⟩ := List.mem_map.1 hm
    obtain ⟨j, hj⟩ := hpart d hd
    simp only [decide_eq_true_eq]
    rw [hj]
    intro he
    simpa using congrArg List.length he

/-- a frame with a column of lists -/
def unpackDemo : Frame Str DemoCell :=
  ⟨["r".toList, "s".toList], [("a".toList, [.list [.num 1, .num 2], .null]), ("b".toList, [.num 8, .num 9])]⟩

example : unpackColumn DemoCell.isNull .null DemoCell.elems unpackDemo "a".toList =
    .ok (⟨["r".toList, "s".toList], [("a".toList, [.list [.num 1, .num 2], .null]), ("b".toList, [.num 8, .num 9]),
        ("a_0".toList, [.num 1, .null]), ("a_1".toList, [.num 2, .null])]⟩,
      ⟨["r".toList, "s".toList], [("b".toList, [.num 8, .num 9]), ("a_0".toList, [.num 1, .null]), ("a_1".toList, [.num 2, .null])]⟩) :=
  rfl

-- hypotheses of `C116_column_partial` are met by it
example : Frame.Rect unpackDemo ∧ (unpackDemo.columns.map Prod.fst).Nodup ∧ unpackDemo.index.Nodup ∧
    ∀ j, "a".toList ++ '_' :: natStr j ∉ unpackDemo.columns.map Prod.fst := by
  refine ⟨?_, by decide, by decide, ?_⟩
  · intro c hc
    simp only [unpackDemo, List.mem_cons, List.not_mem_nil, or_false] at hc
    rcases hc with rfl | rfl <;> rfl
  · intro j hm
    have h : ∀ s ∈ unpackDemo.columns.map Prod.fst, s.length = 1 := by decide
    simpa using h _ hm

/-- C116 in full is false: the frame passed in has new columns afterwards. -/
theorem C116_full_false : ¬ C116_full := by
  intro h
  obtain ⟨news, _, h2⟩ := h unpackDemo "a".toList [.list [.num 1, .num 2], .null] (by
    intro c hc
    simp only [unpackDemo, List.mem_cons, List.not_mem_nil, or_false] at hc
    rcases hc with rfl | rfl <;> rfl) (by decide) (by simp [unpackDemo])
  have h3 := congrArg (fun r => match r with | .ok p => p.1.columns.length | .error _ => 0) h2
  have h3 : 4 = 2 := h3
  exact absurd h3 (by decide)

/-- C116: a column that is called like a new one loses its cells in the rows that are unpacked. -/
theorem C116_overwrites : unpackColumn DemoCell.isNull .null DemoCell.elems
      ⟨["r".toList, "s".toList], [("a".toList, [.list [.num 1], .null]), ("a_0".toList, [.num 8, .num 9])]⟩ "a".toList =
    .ok (⟨["r".toList, "s".toList], [("a".toList, [.list [.num 1], .null]), ("a_0".toList, [.num 1, .num 9])]⟩,
      ⟨["r".toList, "s".toList], [("a_0".toList, [.num 1, .num 9])]⟩) := rfl

/-- C116: where a row with a null has the label of another row, it gets the elements of the other row's list. -/
theorem C116_repeated_label : unpackColumn DemoCell.isNull .null DemoCell.elems
      ⟨["r".toList, "r".toList], [("a".toList, [.list [.num 1], .null]), ("b".toList, [.num 8, .num 9])]⟩ "a".toList =
    .ok (⟨["r".toList, "r".toList], [("a".toList, [.list [.num 1], .null]), ("b".toList, [.num 8, .num 9]),
        ("a_0".toList, [.num 1, .num 1])]⟩,
      ⟨["r".toList, "r".toList], [("b".toList, [.num 8, .num 9]), ("a_0".toList, [.num 1, .num 1])]⟩) := rfl

/-- C116: two rows with lists and the same label: `ValueError`. -/
theorem C116_repeated_error (isNull : C → Bool) (null : C) (elems : C → List C) (f : Frame Str C) (name : Str) (cells : List C)
    (hn : (f.columns.map Prod.fst).Nodup) (hc : (name, cells) ∈ f.columns) (i j : Nat) (l : Str) (x y : C)
    (hij : i < j) (hi : f.index[i]? = some l) (hj : f.index[j]? = some l) (hx : cells[i]? = some x) (hy : cells[j]? = some y)
    (nx : isNull x = false) (ny : isNull y = false) : unpackColumn isNull null elems f name = .error .valueError := by
  have hnd : ¬ (unpack isNull null elems name (f.index.zip cells)).index.Nodup := by
    rw [(C115_unpack isNull null elems name (f.index.zip cells)).1]
    have h1 : [(l, x), (l, y)].Sublist (f.index.zip cells) := by
      have ex : (f.index.zip cells)[i]? = some (l, x) := List.getElem?_zip_eq_some.2 ⟨hi, hx⟩
      have ey : (f.index.zip cells)[j]? = some (l, y) := List.getElem?_zip_eq_some.2 ⟨hj, hy⟩
      generalize f.index.zip cells = z at ex ey
      have : z = z.take j ++ z.drop j := (List.take_append_drop j z).symm
      rw [this]
      refine List.Sublist.append (l₁ := [(l, x)]) (r₁ := [(l, y)]) ?_ ?_
      · rw [List.singleton_sublist]
        exact List.mem_iff_getElem?.2 ⟨i, by rw [List.getElem?_take_of_lt hij, ex]⟩
      · rw [List.singleton_sublist]
        exact List.mem_iff_getElem?.2 ⟨0, by rw [List.getElem?_drop, Nat.add_zero, ey]⟩
    have h2 := (h1.filter fun r => !isNull r.2).map Prod.fst
    intro hnd
    have h3 := h2.nodup hnd
    simp [nx, ny] at h3
  unfold unpackColumn setFrame
  rw [Dict.get?_of_mem (d := f.columns) hn hc]
  simp only [hnd, if_false]

end column

end Verif.Props
