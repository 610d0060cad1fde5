import Verif.Lemmas.PqMeta
/-!
# C117–C119: metadata of parquet files
-/
namespace Verif.Props
open Verif Verif.Model Verif.Spec Verif.Lemmas

section
variable {V : Type} {num : Nat → V} {columns groups : Nat} {chunk : Nat → Nat → Chunk V} {path : Nat → V}

/-- names that only the table has -/
abbrev tableNames : List Str := ["column".toList, "type".toList, "dict_page".toList, "comp_size".toList, "uncomp_size".toList]

theorem recNames_plain (ok : FileOK columns groups chunk path) : ∀ k ∈ recNames num columns groups chunk, k ∉ tableNames := by
  intro k hk hm
  rcases (mem_recNames ok k).1 hk with rfl | rfl | ⟨c, hc, g, hg, ht⟩
  · exact absurd hm (by decide)
  · exact absurd hm (by decide)
  · have h := ok.plain c hc g hg
    simp only [tableNames, List.mem_cons, List.not_mem_nil, or_false] at hm
    rcases hm with rfl | rfl | rfl | rfl | rfl
    · exact h "column" (by simp) ht
    · exact h "type" (by simp) ht
    · exact h "dict_page" (by simp) ht
    · exact h "comp_size" (by simp) ht
    · exact h "uncomp_size" (by simp) ht

theorem fieldCells_told (ok : FileOK columns groups chunk path) {c : Nat} (hc : c < columns) {k : Str}
    (h1 : k ≠ "col_ix".toList) (h2 : k ≠ "row_group".toList) :
    fieldCells num groups chunk c k = (List.range groups).map fun g => told (chunk c g) k := by
  refine List.map_congr_left fun g hg => ?_
  exact cell_told ok (mem_places.2 ⟨hc, by simpa using hg⟩) h1 h2

theorem fieldCells_ix (ok : FileOK columns groups chunk path) {c : Nat} (hc : c < columns) :
    ∀ y ∈ fieldCells num groups chunk c "col_ix".toList, y = some (num c) := by
  intro y hy
  obtain ⟨g, hg, rfl⟩ := List.mem_map.1 hy
  rw [recCell, recOf_get ok (mem_places.2 ⟨hc, by simpa using hg⟩), if_pos rfl]

theorem fieldCells_ne (ok : FileOK columns groups chunk path) (c : Nat) (k : Str) : fieldCells num groups chunk c k ≠ [] := by
  intro h
  have := congrArg List.length h
  have := ok.groups_pos
  simp [fieldCells] at *
  omega

variable [DecidableEq V]

theorem recordDf_rows {sum : List V → V} (hsum1 : ∀ x, sum [x] = x) (ok : FileOK columns groups chunk path) (extended : Bool)
    (hx : groups ≠ 1 → extended = true → ∀ c < columns, ∀ k ∈ summedFields, ¬ Constant (fieldCells num groups chunk c k)) :
    ∃ rows : List (Dict Str (Option V)), metaRecordDf sum ((places columns groups).map (recOf num chunk)) extended =
        .ok (if extended then rows.map fun r => r.map fun kv => (metaName kv.1, kv.2) else
          (rows.map fun r => r.map fun kv => (metaName kv.1, kv.2)).map fun r => briefColumns.map fun n => (n, (Dict.get? r n).join)) ∧
      List.Forall₂ (fun c row => (∀ k ∈ Dict.keys row, k ∈ recNames num columns groups chunk) ∧
        RawRow num sum groups chunk extended c fun k => (Dict.get? row k).join) (List.range columns) rows := by
  obtain ⟨rows, h1, h2⟩ := rows_ok sum hsum1 ok extended hx
  refine ⟨rows, ?_, h2⟩
  have hpath : Dict.get? (recordFrame ((places columns groups).map (recOf num chunk))).columns "path_in_schema".toList =
      some ((places columns groups).map fun p => some (path p.1)) := by
    rw [frame_eq]
    rw [get?_map_same fun k => (places columns groups).map (recCell num chunk k), if_pos, paths_eq ok]
    refine (mem_recNames ok _).2 (.inr (.inr ⟨0, ok.columns_pos, 0, ok.groups_pos, ?_⟩))
    exact told_tells (ok.paths 0 ok.columns_pos 0 ok.groups_pos)
  unfold metaRecordDf
  simp only [hpath, h1]
  cases extended <;> rfl

/-- a cell of a renamed row -/
theorem renamed_cell (ok : FileOK columns groups chunk path) {row : Dict Str (Option V)}
    (hrow : ∀ k ∈ Dict.keys row, k ∈ recNames num columns groups chunk) {k : Str} (hk : k ∉ tableNames) :
    Dict.get? (row.map fun kv => (metaName kv.1, kv.2)) (metaName k) = Dict.get? row k :=
  get?_renamed row k (fun n hn => recNames_plain ok n (hrow n hn)) hk

theorem rawRow_path {sum : List V → V} {extended : Bool} {c : Nat} {get : Str → Option V} (ok : FileOK columns groups chunk path)
    (hc : c < columns) (h : RawRow num sum groups chunk extended c get) : get "path_in_schema".toList = some (path c) := by
  refine (h.2 _ (by decide) (.inr (by decide))).1 _ (fieldCells_ne ok c _) ?_
  rw [fieldCells_told ok hc (by decide) (by decide)]
  intro y hy
  obtain ⟨g, hg, rfl⟩ := List.mem_map.1 hy
  exact ok.paths c hc g (by simpa using hg)

theorem rawRow_ix {sum : List V → V} {extended : Bool} {c : Nat} {get : Str → Option V} (ok : FileOK columns groups chunk path)
    (hc : c < columns) (h : RawRow num sum groups chunk extended c get) : get "col_ix".toList = some (num c) :=
  (h.2 _ (by decide) (.inr (by decide))).1 _ (fieldCells_ne ok c _) (fieldCells_ix ok hc)

theorem rawRow_sum {sum : List V → V} {extended : Bool} {c : Nat} {get : Str → Option V} (ok : FileOK columns groups chunk path)
    (hc : c < columns) (h : RawRow num sum groups chunk extended c get) {k : Str} (hk : k ∈ summedFields) :
    get k = some (sum ((List.range groups).filterMap fun g => told (chunk c g) k)) := by
  rw [h.1 k hk, fieldCells_told ok hc (by revert k; decide) (by revert k; decide), List.filterMap_map]
  rfl

theorem briefRow_of {sum : List V → V} (ok : FileOK columns groups chunk path) {c : Nat} (hc : c < columns)
    {row : Dict Str (Option V)} (hrow : ∀ k ∈ Dict.keys row, k ∈ recNames num columns groups chunk)
    (h : RawRow num sum groups chunk false c fun k => (Dict.get? row k).join) :
    BriefRow num sum groups chunk path c
      (briefColumns.map fun n => (n, (Dict.get? (row.map fun kv => (metaName kv.1, kv.2)) n).join)) := by
  have hget : ∀ k, k ∉ tableNames → metaName k ∈ briefColumns →
      Dict.get? (briefColumns.map fun n => (n, (Dict.get? (row.map fun kv => (metaName kv.1, kv.2)) n).join)) (metaName k) =
        some (Dict.get? row k).join := by
    intro k hk hb
    rw [get?_map_same fun n => (Dict.get? (row.map fun kv => (metaName kv.1, kv.2)) n).join, if_pos hb, renamed_cell ok hrow hk]
  constructor
  · rw [Dict.keys, List.map_map]; exact (List.map_id _)
  · rw [← rawRow_path ok hc h]
    exact hget "path_in_schema".toList (by decide) (by decide)
  · rw [← rawRow_ix ok hc h]
    exact hget "col_ix".toList (by decide) (by decide)
  · intro n hn
    simp only [List.mem_cons, List.not_mem_nil, or_false] at hn
    rcases hn with rfl | rfl | rfl
    · rw [← rawRow_sum ok hc h (by decide)]; exact hget "total_compressed_size".toList (by decide) (by decide)
    · rw [← rawRow_sum ok hc h (by decide)]; exact hget "total_uncompressed_size".toList (by decide) (by decide)
    · rw [← rawRow_sum ok hc h (by decide)]; exact hget "num_values".toList (by decide) (by decide)
  · intro n hn
    simp only [List.mem_cons, List.not_mem_nil, or_false] at hn
    rcases hn with rfl | rfl | rfl | rfl
    · refine ⟨_, hget "physical_type".toList (by decide) (by decide), ?_⟩
      rw [← fieldCells_told ok hc (num := num) (by decide) (by decide)]
      exact h.2 _ (by decide) (.inr (by decide))
    · refine ⟨_, hget "has_dictionary_page".toList (by decide) (by decide), ?_⟩
      rw [← fieldCells_told ok hc (num := num) (by decide) (by decide)]
      exact h.2 _ (by decide) (.inr (by decide))
    · refine ⟨_, hget "encodings".toList (by decide) (by decide), ?_⟩
      rw [← fieldCells_told ok hc (num := num) (by decide) (by decide)]
      exact h.2 _ (by decide) (.inr (by decide))
    · refine ⟨_, hget "compression".toList (by decide) (by decide), ?_⟩
      rw [← fieldCells_told ok hc (num := num) (by decide) (by decide)]
      exact h.2 _ (by decide) (.inr (by decide))

theorem extendedRow_of {sum : List V → V} (ok : FileOK columns groups chunk path) {c : Nat} (hc : c < columns)
    {row : Dict Str (Option V)} (hrow : ∀ k ∈ Dict.keys row, k ∈ recNames num columns groups chunk)
    (h : RawRow num sum groups chunk true c fun k => (Dict.get? row k).join) :
    ExtendedRow num sum groups chunk path c (row.map fun kv => (metaName kv.1, kv.2)) := by
  have hsome : ∀ {o : Option (Option V)} {x : V}, o.join = some x → o = some (some x) := by
    intro o x; rcases o with _ | _ | _ <;> simp
  constructor
  · rw [← hsome (rawRow_path ok hc h)]
    exact renamed_cell ok hrow (k := "path_in_schema".toList) (by decide)
  · rw [← hsome (rawRow_ix ok hc h)]
    exact renamed_cell ok hrow (k := "col_ix".toList) (by decide)
  · intro n hn
    simp only [List.mem_cons, List.not_mem_nil, or_false] at hn
    rcases hn with rfl | rfl | rfl
    · rw [← hsome (rawRow_sum ok hc h (by decide))]; exact renamed_cell ok hrow (k := "total_compressed_size".toList) (by decide)
    · rw [← hsome (rawRow_sum ok hc h (by decide))]; exact renamed_cell ok hrow (k := "total_uncompressed_size".toList) (by decide)
    · rw [← hsome (rawRow_sum ok hc h (by decide))]; exact renamed_cell ok hrow (k := "num_values".toList) (by decide)
  · intro n hn
    simp only [List.mem_cons, List.not_mem_nil, or_false] at hn
    rcases hn with rfl | rfl
    · rw [← fieldCells_told ok hc (num := num) (by decide) (by decide)]
      have := renamed_cell ok hrow (k := "physical_type".toList) (by decide)
      rw [show metaName "physical_type".toList = "type".toList from rfl] at this
      rw [this]
      exact h.2 _ (by decide) (.inl rfl)
    · rw [← fieldCells_told ok hc (num := num) (by decide) (by decide)]
      have := renamed_cell ok hrow (k := "has_dictionary_page".toList) (by decide)
      rw [show metaName "has_dictionary_page".toList = "dict_page".toList from rfl] at this
      rw [this]
      exact h.2 _ (by decide) (.inl rfl)
  · intro k hk
    rw [← fieldCells_told ok hc (num := num) (hk "col_ix" (by simp)) (hk "row_group" (by simp))]
    have hname : metaName k = k := by
      unfold metaName
      rw [Dict.get?_eq_none.2]
      · rfl
      · intro hm
        have : ∀ n ∈ Dict.keys metaNames, ∃ s ∈ ["column", "type", "dict_page", "comp_size", "uncomp_size", "row_group", "col_ix",
          "num_values", "physical_type", "path_in_schema", "has_dictionary_page", "total_compressed_size",
          "total_uncompressed_size"], n = s.toList := by decide
        obtain ⟨s, hs, e⟩ := this k hm
        exact hk s hs e
    have := renamed_cell ok hrow (k := k) (by
      intro hm
      simp only [tableNames, List.mem_cons, List.not_mem_nil, or_false] at hm
      rcases hm with e | e | e | e | e
      · exact hk "column" (by simp) e
      · exact hk "type" (by simp) e
      · exact hk "dict_page" (by simp) e
      · exact hk "comp_size" (by simp) e
      · exact hk "uncomp_size" (by simp) e)
    rw [hname] at this
    rw [this]
    refine h.2 _ ?_ (.inl rfl)
    intro hm
    simp only [summedFields, List.mem_cons, List.not_mem_nil, or_false] at hm
    rcases hm with e | e | e
    · exact hk "num_values" (by simp) e
    · exact hk "total_compressed_size" (by simp) e
    · exact hk "total_uncompressed_size" (by simp) e

/-- rows and their paths -/
theorem table_of {R : Nat → Dict Str (Option V) → Prop} (ok : FileOK columns groups chunk path) {rows : List (Dict Str (Option V))}
    (h : List.Forall₂ (fun c row => R c row ∧ Dict.get? row "column".toList = some (some (path c))) (List.range columns) rows) :
    (rows.map fun r => ((Dict.get? r "column".toList).join, r)).map Prod.fst = (List.range columns).map (fun c => some (path c)) ∧
    ∀ c < columns, ∃ row, Dict.get? (rows.map fun r => ((Dict.get? r "column".toList).join, r)) (some (path c)) = some row ∧ R c row := by
  have hfst : (rows.map fun r => ((Dict.get? r "column".toList).join, r)).map Prod.fst =
      (List.range columns).map (fun c => some (path c)) := by
    rw [List.map_map]
    generalize List.range columns = l at h
    induction h with
    | nil => rfl
    | cons h1 _ ih => rw [List.map_cons, List.map_cons, ih, Function.comp_apply, h1.2]; rfl
  refine ⟨hfst, ?_⟩
  intro c hc
  rw [List.forall₂_iff_get] at h
  have hi : c < rows.length := by rw [← h.1]; simpa using hc
  have h2 := h.2 c (by simpa using hc) hi
  simp only [List.get_eq_getElem, List.getElem_range] at h2
  refine ⟨rows[c], Dict.get?_of_mem ?_ (List.mem_map.2 ⟨rows[c], List.getElem_mem hi, ?_⟩), h2.1⟩
  · unfold Dict.WF Dict.keys
    rw [hfst]
    refine List.Nodup.map_on ?_ List.nodup_range
    intro a ha b hb e
    exact ok.inj a (by simpa using ha) b (by simpa using hb) (Option.some.inj e)
  · rw [h2.2]; rfl

omit [DecidableEq V] in
theorem forall₂_imp_range {R S : Nat → Dict Str (Option V) → Prop} {rows : List (Dict Str (Option V))}
    (h : List.Forall₂ R (List.range columns) rows) (F : Dict Str (Option V) → Dict Str (Option V))
    (hRS : ∀ c < columns, ∀ row, R c row → S c (F row)) : List.Forall₂ S (List.range columns) (rows.map F) := by
  rw [List.forall₂_map_right_iff]
  rw [List.forall₂_iff_get] at h ⊢
  refine ⟨h.1, fun i h1 h2 => ?_⟩
  have := h.2 i h1 h2
  simp only [List.get_eq_getElem, List.getElem_range] at this ⊢
  exact hRS i (by simpa using h1) _ this

/-- C117 in full: `meta_column_df` describes every column of every file, with statistics or without -/
def C117_full : Prop := ∀ (num : Nat → Nat) (columns groups : Nat) (chunk : Nat → Nat → Chunk Nat), 0 < columns → 0 < groups →
  ∃ t, metaColumnDf num List.sum columns groups chunk false = .ok t

/-- C117: for a file with statistics, the brief table has a column for each column of the file, in order, under its path, that
gives sizes added up over all row groups, and the other fields where row groups agree. -/
theorem C117_brief_partial (sum : List V → V) (hsum1 : ∀ x, sum [x] = x) (ok : FileOK columns groups chunk path) :
    ∃ t, metaColumnDf num sum columns groups chunk false = .ok t ∧
      t.map Prod.fst = (List.range columns).map (fun c => some (path c)) ∧
      ∀ c < columns, ∃ row, Dict.get? t (some (path c)) = some row ∧ BriefRow num sum groups chunk path c row := by
  obtain ⟨rows, h1, h2⟩ := recordDf_rows (num := num) hsum1 ok false (by simp)
  have h3 := forall₂_imp_range (S := fun c row => BriefRow num sum groups chunk path c row ∧
      Dict.get? row "column".toList = some (some (path c))) h2
    (fun r => briefColumns.map fun n => (n, (Dict.get? (r.map fun kv => (metaName kv.1, kv.2)) n).join))
    fun c hc row h => ⟨briefRow_of ok hc h.1 h.2, (briefRow_of ok hc h.1 h.2).column⟩
  obtain ⟨h4, h5⟩ := table_of ok h3
  refine ⟨_, ?_, h4, h5⟩
  unfold metaColumnDf
  rw [records_ok fun c hc g hg => by obtain ⟨s, hs, _⟩ := ok.stats c hc g hg; exact ⟨s, hs⟩]
  simp only [h1]
  simp

/-- C117: for a file with a column chunk that has no statistics, `TypeError`. -/
theorem C117_no_statistics (sum : List V → V) (c g : Nat) (hc : c < columns) (hg : g < groups)
    (hs : (chunk c g).statistics = none) (extended : Bool) :
    metaColumnDf num sum columns groups chunk extended = .error .typeError := by
  have : metadataRecords num columns groups chunk = .error .typeError := by
    unfold metadataRecords
    refine Lemmas.mapM_error _ _ _ ?_ ⟨(c, g), mem_places.2 ⟨hc, hg⟩, ?_⟩
    · intro p _
      unfold metaRecord
      cases (chunk p.1 p.2).statistics with
      | none => exact .inr rfl
      | some s => exact .inl ⟨_, rfl⟩
    · simp [metaRecord, hs]
  unfold metaColumnDf
  rw [this]

theorem C117_full_false : ¬ C117_full := by
  intro h
  obtain ⟨t, ht⟩ := h id 1 1 (fun _ _ => ⟨[], none⟩) (by omega) (by omega)
  rw [C117_no_statistics List.sum 0 0 (by omega) (by omega) rfl false] at ht
  cases ht

/-- C118 in full: `num_values` is the number of values, added up over row groups, that the chunks themselves state -/
def C118_full : Prop := ∀ (num : Nat → Nat) (columns groups : Nat) (chunk : Nat → Nat → Chunk Nat) (path : Nat → Nat),
  FileOK columns groups chunk path → ∀ t, metaColumnDf num List.sum columns groups chunk false = .ok t →
  ∀ c < columns, ∀ row, Dict.get? t (some (path c)) = some row → Dict.get? row "num_values".toList =
    some (some (((List.range groups).filterMap fun g => (Dict.get? (chunk c g).fields "num_values".toList).join).sum))

/-- C118: that is so if the statistics of each chunk state the same number. They count values that are not null. -/
theorem C118_num_values_partial (sum : List V → V) (hsum1 : ∀ x, sum [x] = x) (ok : FileOK columns groups chunk path)
    (hsame : ∀ c < columns, ∀ g < groups, ∀ s x, (chunk c g).statistics = some s → Dict.get? s "num_values".toList = some x →
      (Dict.get? (chunk c g).fields "num_values".toList).join = x) :
    ∃ t, metaColumnDf num sum columns groups chunk false = .ok t ∧ ∀ c < columns, ∃ row, Dict.get? t (some (path c)) = some row ∧
      Dict.get? row "num_values".toList = some (some (sum ((List.range groups).filterMap fun g =>
        (Dict.get? (chunk c g).fields "num_values".toList).join))) := by
  obtain ⟨t, h1, _, h3⟩ := C117_brief_partial (num := num) sum hsum1 ok
  refine ⟨t, h1, fun c hc => ?_⟩
  obtain ⟨row, h4, h5⟩ := h3 c hc
  refine ⟨row, h4, ?_⟩
  rw [h5.sums ("num_values", "num_values") (by simp)]
  congr 3
  refine List.filterMap_congr fun g hg => ?_
  have hg : g < groups := by simpa using hg
  obtain ⟨s, hs, _⟩ := ok.stats c hc g hg
  unfold told
  rw [hs, Option.bind_some]
  cases e : Dict.get? s "num_values".toList with
  | none => rfl
  | some x => exact (hsame c hc g hg s x hs e).symm

/-- C119 in full: `extended=True` gives a table for every file that `extended=False` gives one for -/
def C119_full : Prop := ∀ (num : Nat → Nat) (columns groups : Nat) (chunk : Nat → Nat → Chunk Nat) (path : Nat → Nat),
  FileOK columns groups chunk path → ∃ t, metaColumnDf num List.sum columns groups chunk true = .ok t

/-- C119: it does for files with one row group, and for files where in no column a size is the same in all row groups. -/
theorem C119_extended_partial (sum : List V → V) (hsum1 : ∀ x, sum [x] = x) (ok : FileOK columns groups chunk path)
    (hvary : groups ≠ 1 → ∀ c < columns, ∀ n ∈ ["num_values", "total_compressed_size", "total_uncompressed_size"],
      ∃ g < groups, ∃ g' < groups, told (chunk c g) n.toList ≠ told (chunk c g') n.toList) :
    ∃ t, metaColumnDf num sum columns groups chunk true = .ok t ∧
      t.map Prod.fst = (List.range columns).map (fun c => some (path c)) ∧
      ∀ c < columns, ∃ row, Dict.get? t (some (path c)) = some row ∧ ExtendedRow num sum groups chunk path c row := by
  have hx : groups ≠ 1 → true = true → ∀ c < columns, ∀ k ∈ summedFields, ¬ Constant (fieldCells num groups chunk c k) := by
    intro h1 _ c hc k hk hcon
    have hn : ∃ n ∈ ["num_values", "total_compressed_size", "total_uncompressed_size"], k = n.toList := by clear hcon; revert k; decide
    obtain ⟨n, hn, rfl⟩ := hn
    obtain ⟨g, hg, g', hg', hne⟩ := hvary h1 c hc n hn
    obtain ⟨x, ex⟩ := ok.sizes c hc g hg n hn
    obtain ⟨y, ey⟩ := ok.sizes c hc g' hg' n hn
    rw [fieldCells_told ok hc (by simp only [List.mem_cons, List.not_mem_nil, or_false] at hn; rcases hn with rfl | rfl | rfl <;> decide)
      (by simp only [List.mem_cons, List.not_mem_nil, or_false] at hn; rcases hn with rfl | rfl | rfl <;> decide)] at hcon
    refine hne ?_
    rw [ex, ey, hcon x y (List.mem_map.2 ⟨g, by simpa using hg, ex⟩) (List.mem_map.2 ⟨g', by simpa using hg', ey⟩)]
  obtain ⟨rows, h1, h2⟩ := recordDf_rows (num := num) hsum1 ok true hx
  have h3 := forall₂_imp_range (S := fun c row => ExtendedRow num sum groups chunk path c row ∧
      Dict.get? row "column".toList = some (some (path c))) h2
    (fun r => r.map fun kv => (metaName kv.1, kv.2))
    fun c hc row h => ⟨extendedRow_of ok hc h.1 h.2, (extendedRow_of ok hc h.1 h.2).column⟩
  obtain ⟨h4, h5⟩ := table_of ok h3
  refine ⟨_, ?_, h4, h5⟩
  unfold metaColumnDf
  rw [records_ok fun c hc g hg => by obtain ⟨s, hs, _⟩ := ok.stats c hc g hg; exact ⟨s, hs⟩]
  simp only [h1]
  simp

end

section examples

/-- a chunk of the examples: path, number of values (also in the statistics), compressed and uncompressed size, encodings -/
def demoChunk (path values nonNull comp uncomp enc : Nat) : Chunk Nat :=
  ⟨[("path_in_schema".toList, some path), ("physical_type".toList, some 7), ("num_values".toList, some values),
    ("encodings".toList, some enc), ("total_compressed_size".toList, some comp), ("total_uncompressed_size".toList, some uncomp)],
    some [("min".toList, some 1), ("num_values".toList, some nonNull)]⟩

theorem demoChunk_ok (columns groups : Nat) (hc : 0 < columns) (hg : 0 < groups) (values nonNull comp uncomp enc : Nat → Nat → Nat) :
    FileOK columns groups (fun c g => demoChunk (100 + c) (values c g) (nonNull c g) (comp c g) (uncomp c g) (enc c g)) (fun c => 100 + c) := by
  refine ⟨hc, hg, ?_, ?_, ?_, ?_, ?_, ?_⟩
  · intro c _ g _; exact ⟨_, rfl, by simp [Dict.keys]⟩
  · intro c _ g _; simp [demoChunk, Dict.keys]
  · intro c _ g _ n hn ht
    have : ∀ k, Tells (demoChunk (100 + c) (values c g) (nonNull c g) (comp c g) (uncomp c g) (enc c g)) k →
        k ∈ ["path_in_schema".toList, "physical_type".toList, "num_values".toList, "encodings".toList, "total_compressed_size".toList,
          "total_uncompressed_size".toList] ++ ["min".toList, "num_values".toList] := by
      rintro k (h | ⟨s, e, h⟩)
      · exact List.mem_append_left _ h
      · cases e
        exact List.mem_append_right _ h
    have h2 := this _ ht
    clear ht this
    revert n
    decide
  · intro c _ g _; rfl
  · intro c _ c' _ e; simpa using e
  · intro c _ g _ n hn
    simp only [List.mem_cons, List.not_mem_nil, or_false] at hn
    rcases hn with rfl | rfl | rfl
    · exact ⟨nonNull c g, rfl⟩
    · exact ⟨comp c g, rfl⟩
    · exact ⟨uncomp c g, rfl⟩

-- a file with two columns and two row groups; in the second column, the encodings differ
example : metaColumnDf id List.sum 2 2 (fun c g => demoChunk (100 + c) 5 5 (10 + g) 20 (3 + c * g)) false =
    .ok [(some 100, [("column".toList, some 100), ("type".toList, some 7), ("comp_size".toList, some 21), ("uncomp_size".toList, some 40),
        ("num_values".toList, some 10), ("dict_page".toList, none), ("encodings".toList, some 3), ("compression".toList, none),
        ("col_ix".toList, some 0)]),
      (some 101, [("column".toList, some 101), ("type".toList, some 7), ("comp_size".toList, some 21), ("uncomp_size".toList, some 40),
        ("num_values".toList, some 10), ("dict_page".toList, none), ("encodings".toList, none), ("compression".toList, none),
        ("col_ix".toList, some 1)])] := rfl

/-- C118 in full is false: a chunk of three values of which one is null. -/
theorem C118_full_false : ¬ C118_full := by
  intro h
  have ok := demoChunk_ok 1 1 (by omega) (by omega) (fun _ _ => 3) (fun _ _ => 2) (fun _ _ => 10) (fun _ _ => 20) (fun _ _ => 3)
  have h2 := h id 1 1 _ _ ok _ rfl 0 (by omega) _ rfl
  exact absurd h2 (by decide)

/-- C119 in full is false: two columns, the same number of values in every row group, in the second column the same compressed
size too. -/
theorem C119_full_false : ¬ C119_full := by
  intro h
  have ok := demoChunk_ok 2 2 (by omega) (by omega) (fun _ _ => 5) (fun _ _ => 5) (fun c g => 10 + (1 - c) * g) (fun _ g => 20 + g)
    (fun _ _ => 3)
  obtain ⟨t, ht⟩ := h id 2 2 _ _ ok
  have h2 : metaColumnDf id List.sum 2 2 (fun c g => demoChunk (100 + c) 5 5 (10 + (1 - c) * g) (20 + g) 3) true = .error .valueError :=
    rfl
  rw [h2] at ht
  cases ht

/-- C119: where a size is the same in all row groups of all columns, the table has two columns of that name. -/
theorem C119_twice : ∃ t, metaColumnDf id List.sum 1 2 (fun _ g => demoChunk 100 5 5 (10 + g) (20 + g) 3) true = .ok t ∧
    ∀ p ∈ t, (Dict.keys p.2).count "num_values".toList = 2 := by
  refine ⟨_, rfl, ?_⟩
  decide

-- hypotheses of `C119_extended_partial` are met: sizes differ
example : ∃ t, metaColumnDf id List.sum 2 2 (fun c g => demoChunk (100 + c) (5 + g) (5 + g) (10 + g) (20 + g) 3) true = .ok t ∧
    t.map Prod.fst = [some 100, some 101] := by
  obtain ⟨t, h1, h2, _⟩ := C119_extended_partial (num := id) List.sum (by simp)
    (demoChunk_ok 2 2 (by omega) (by omega) (fun _ g => 5 + g) (fun _ g => 5 + g) (fun _ g => 10 + g) (fun _ g => 20 + g) (fun _ _ => 3))
    (by
      intro _ c _ n hn
      refine ⟨0, by omega, 1, by omega, ?_⟩
      simp only [List.mem_cons, List.not_mem_nil, or_false] at hn
      rcases hn with rfl | rfl | rfl
      · exact (by simp : some 5 ≠ some (5 + 1))
      · exact (by simp : some 10 ≠ some (10 + 1))
      · exact (by simp : some 20 ≠ some (20 + 1)))
  exact ⟨t, h1, h2⟩

end examples
end Verif.Props
