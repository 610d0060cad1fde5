import Verif.Spec.Tables
import Verif.Props.Frames
/-!
# C93–C96: squeeze, typed_columns, unique_to_records and junction, dupe_df_block
-/
namespace Verif.Props
open Verif Verif.Model Verif.Spec

section squeeze
variable {N C : Type} [DecidableEq N]

theorem get?_find (d : Dict N C) (n : N) : Dict.get? d n = (d.find? fun c => decide (c.1 = n)).map Prod.snd := by
  induction d with
  | nil => rfl
  | cons c t ih =>
    obtain ⟨k, v⟩ := c
    by_cases h : k = n
    · simp [Dict.get?, h]
    · simp [Dict.get?, h, ih]

/-- C93 for Series that are not boolean: labels are distinct, each with the first value it had, in the order of their first
occurrence, and no label is lost. -/
theorem C93_first (s : List (N × C)) :
    ((squeezeFirst s).map Prod.fst).Nodup ∧ (squeezeFirst s).Sublist s ∧
      ∀ l, Dict.get? (squeezeFirst s) l = Dict.get? s l := by
  obtain ⟨h1, _, h3⟩ := select_not_dup s []
  exact ⟨h1, select_sublist _ _, fun l => by rw [get?_find, get?_find]; exact congrArg _ (h3 l (by simp))⟩

example : squeezeFirst [(1, "a"), (2, "b"), (1, "c")] = [(1, "a"), (2, "b")] := by decide

/-- the labels that occur, once each -/
theorem mem_distinct (l : List N) (n : N) : n ∈ select l ((duplicated [] l).map not) ↔ n ∈ l := by
  have h := select_not_dup (l.map fun x => (x, ())) []
  have hmap : (l.map fun x => (x, ())).map Prod.fst = l := by simp [Function.comp_def]
  rw [hmap] at h
  obtain ⟨_, _, h3⟩ := h
  have hs : select l ((duplicated [] l).map not) =
      (select (l.map fun x => (x, ())) ((duplicated [] l).map not)).map Prod.fst := by
    rw [← select_map, hmap]
  have h3 := h3 n (by simp)
  rw [hs]
  constructor
  · intro hm
    obtain ⟨p, hp, rfl⟩ := List.mem_map.1 hm
    have := (select_sublist _ _).subset hp
    obtain ⟨x, hx, rfl⟩ := List.mem_map.1 this
    exact hx
  · intro hm
    have : ((l.map fun x => (x, ())).find? fun c => decide (c.1 = n)).isSome := by
      rw [List.find?_isSome]; exact ⟨(n, ()), by simpa using hm, by simp⟩
    rw [← h3] at this
    obtain ⟨p, hp⟩ := Option.isSome_iff_exists.1 this
    exact List.mem_map.2 ⟨p, List.mem_of_find?_eq_some hp, by simpa using List.find?_some hp⟩

theorem distinct_nodup (l : List N) : (select l ((duplicated [] l).map not)).Nodup := by
  have h := (select_not_dup (l.map fun x => (x, ())) []).1
  have hmap : (l.map fun x => (x, ())).map Prod.fst = l := by simp [Function.comp_def]
  rw [hmap, ← select_map, hmap] at h
  exact h

/-- The full claim for boolean Series: labels are distinct, no label is lost, and a label has true iff it had true somewhere. -/
def C93_full : Prop :=
  ∀ (isNull : Nat → Bool) (s : List (Nat × Bool)),
    ((squeezeBool isNull Nat.ble s).map Prod.fst).Nodup ∧
      (∀ l, l ∈ (squeezeBool isNull Nat.ble s).map Prod.fst ↔ l ∈ s.map Prod.fst) ∧
      ∀ l b, (l, b) ∈ squeezeBool isNull Nat.ble s → (b = true ↔ (l, true) ∈ s)

/-- **The full claim is false**: a null label is dropped with its values (Series that are not boolean keep it). -/
theorem C93_full_false : ¬ C93_full := by
  intro h
  have := ((h (fun n => n == 9) [(9, true)]).2.1 9).2 (by simp)
  rw [show squeezeBool (fun n => n == 9) Nat.ble [(9, true)] = [] from by simp [squeezeBool, groupAny, duplicated, select]] at this
  cases this

/-- C93 for boolean Series, the part that holds: labels are distinct and sorted, those that are not null are all kept, and a
label has true iff it had true somewhere. -/
theorem C93_any_partial (isNull : N → Bool) (le : N → N → Bool) (trans : ∀ a b c, le a b → le b c → le a c)
    (total : ∀ a b, (le a b || le b a) = true) (s : List (N × Bool)) :
    ((squeezeBool isNull le s).map Prod.fst).Nodup ∧
      ((squeezeBool isNull le s).map Prod.fst).Pairwise (fun a b => le a b) ∧
      (∀ l, l ∈ (squeezeBool isNull le s).map Prod.fst ↔ l ∈ s.map Prod.fst ∧ isNull l = false) ∧
      ∀ l b, (l, b) ∈ squeezeBool isNull le s → (b = true ↔ (l, true) ∈ s) := by
  have hfst : (squeezeBool isNull le s).map Prod.fst =
      ((select (s.map Prod.fst) ((duplicated [] (s.map Prod.fst)).map not)).filter (!isNull ·)).mergeSort le := by
    simp [squeezeBool, groupAny, Function.comp_def]
  refine ⟨?_, ?_, fun l => ?_, fun l b h => ?_⟩
  · rw [hfst, (List.mergeSort_perm _ _).nodup_iff]
    exact (distinct_nodup _).filter _
  · rw [hfst]; exact List.pairwise_mergeSort trans total _
  · rw [hfst, List.mem_mergeSort, List.mem_filter, mem_distinct]; simp
  · unfold squeezeBool groupAny at h
    simp only [List.mem_map, Prod.mk.injEq] at h
    obtain ⟨l', _, rfl, rfl⟩ := h
    simp only [List.any_eq_true, Bool.and_eq_true, decide_eq_true_eq]
    constructor
    · rintro ⟨⟨a, b⟩, hm, rfl, hb⟩
      simp only at hb; subst hb; exact hm
    · exact fun h => ⟨_, h, rfl, rfl⟩

example : ∃ r, squeezeBool (fun n => n == 9) Nat.ble [(2, false), (1, false), (9, true), (2, true)] = r ∧
    (r.map Prod.fst).Nodup ∧ ∀ l, l ∈ r.map Prod.fst ↔ l ∈ [2, 1, 9, 2] ∧ (l == 9) = false :=
  have h := C93_any_partial (fun n => n == 9) Nat.ble (by simp; omega) (by simp; omega)
    [(2, false), (1, false), (9, true), (2, true)]
  ⟨_, rfl, h.1, h.2.2.1⟩

end squeeze

section typed
variable {N C : Type} [DecidableEq N]

/-- Spec: a dtype's name begins with one of the names given, or with one after a `u` -/
def OfType (typenames : List Str) (dtype : Str) : Prop :=
  ∃ t ∈ typenames, ∃ rest, dtype = t ++ rest ∨ dtype = 'u' :: t ++ rest

theorem typeMatch_iff (typenames : List Str) (dtype : Str) : typeMatch typenames dtype = true ↔ OfType typenames dtype := by
  simp only [typeMatch, List.any_eq_true, Bool.or_eq_true, List.isPrefixOf_iff_prefix, OfType]
  constructor
  · rintro ⟨t, ht, ⟨r, h⟩ | ⟨r, h⟩⟩
    · exact ⟨t, ht, r, .inl h.symm⟩
    · exact ⟨t, ht, r, .inr h.symm⟩
  · rintro ⟨t, ht, r, h | h⟩
    · exact ⟨t, ht, .inl ⟨r, h.symm⟩⟩
    · exact ⟨t, ht, .inr ⟨r, h.symm⟩⟩

theorem pick_select (cols : List (N × List C)) (m : List Bool) (hnd : (cols.map Prod.fst).Nodup) :
    ((select (cols.map Prod.fst) m).flatMap fun n => cols.filter fun c => decide (c.1 = n)) = select cols m := by
  rw [select_map, List.flatMap_map]
  have hsub := select_sublist cols m
  have key : ∀ l : List (N × List C), (∀ c ∈ l, c ∈ cols) →
      (l.flatMap fun c => cols.filter fun d => decide (d.1 = c.1)) = l := by
    intro l
    induction l with
    | nil => exact fun _ => rfl
    | cons c t ih =>
      intro h
      rw [List.flatMap_cons, ih fun d hd => h d (List.mem_cons_of_mem _ hd)]
      have hc := h c (List.mem_cons_self ..)
      have : (cols.filter fun d => decide (d.1 = c.1)) = [c] := by
        clear h ih hsub
        induction cols with
        | nil => cases hc
        | cons a r ih =>
          rw [List.map_cons, List.nodup_cons] at hnd
          rcases List.mem_cons.1 hc with rfl | hc
          · rw [List.filter_cons_of_pos (by simp), List.filter_eq_nil_iff.2]
            intro d hd he
            exact hnd.1 (List.mem_map.2 ⟨d, hd, by simpa using he⟩)
          · rw [List.filter_cons_of_neg, ih hnd.2 hc]
            simp only [decide_eq_true_eq]
            intro he
            exact hnd.1 (he ▸ List.mem_map.2 ⟨c, hc, rfl⟩)
      rw [this]; rfl
  exact key _ fun c hc => hsub.subset hc

/-- C94: of a frame whose columns have distinct names, `typed_columns` gives those columns, in order and with all rows, whose
dtype's name begins with one of the names given, or with `u` and one of the names. -/
theorem C94_typed (f : Frame N C) (dtypes typenames : List Str) (hnd : (f.columns.map Prod.fst).Nodup) :
    (typedColumns f dtypes typenames).index = f.index ∧
      (typedColumns f dtypes typenames).columns = chosen f.columns (dtypes.map (typeMatch typenames)) ∧
      ∀ d, typeMatch typenames d = true ↔ OfType typenames d := by
  refine ⟨rfl, ?_, typeMatch_iff typenames⟩
  rw [← select_eq_chosen]
  exact pick_select f.columns _ hnd

example : (numericColumns (⟨[0], [(1, ["x"]), (2, ["7"]), (3, ["8"])]⟩ : Frame Nat String)
    ["object".toList, "uint8".toList, "float64".toList]).columns = [(2, ["7"]), (3, ["8"])] := by decide

/-- Spec: dtypes that hold numbers -/
def numericDtypes : List Str :=
  ["int8", "int16", "int32", "int64", "uint8", "uint16", "uint32", "uint64", "float16", "float32", "float64", "float128"].map
    String.toList

/-- The full claim: `numeric_columns` of columns with distinct names gives just those of numeric dtypes. -/
def C94_full : Prop :=
  ∀ (f : Frame Nat Nat) (dtypes : List Str), (f.columns.map Prod.fst).Nodup →
    (numericColumns f dtypes).columns = chosen f.columns (dtypes.map fun d => decide (d ∈ numericDtypes))

/-- **The full claim is false**: a column of intervals is given as numeric, as `interval` begins with `int`. -/
theorem C94_full_false : ¬ C94_full := by
  intro h
  have := h ⟨[0], [(1, [5])]⟩ ["interval".toList] (by simp)
  exact absurd this (by decide)

/-- C94 for `numeric_columns`, the part that holds: it gives just the columns of numeric dtypes, if no other dtype's name begins
with `int`, `uint`, `float` or `ufloat`. -/
theorem C94_numeric_partial (f : Frame N C) (dtypes : List Str) (hnd : (f.columns.map Prod.fst).Nodup)
    (h : ∀ d ∈ dtypes, d ∈ numericDtypes ∨ ∀ p ∈ ["int", "uint", "float", "ufloat"], ¬ ∃ r, d = String.toList p ++ r) :
    (numericColumns f dtypes).columns = chosen f.columns (dtypes.map fun d => decide (d ∈ numericDtypes)) := by
  rw [numericColumns, (C94_typed f dtypes numericNames hnd).2.1]
  congr 1
  apply List.map_congr_left
  intro d hd
  rw [Bool.eq_iff_iff, typeMatch_iff, decide_eq_true_eq]
  constructor
  · rintro ⟨t, ht, r, hr⟩
    rcases h d hd with h | h
    · exact h
    · exfalso
      simp only [numericNames, List.mem_cons, List.not_mem_nil, or_false] at ht
      rcases ht with rfl | rfl <;> rcases hr with hr | hr
      · exact h "int" (by simp) ⟨r, hr⟩
      · exact h "uint" (by simp) ⟨r, hr⟩
      · exact h "float" (by simp) ⟨r, hr⟩
      · exact h "ufloat" (by simp) ⟨r, hr⟩
  · intro hm
    have : ∀ d ∈ numericDtypes, typeMatch numericNames d = true := by decide
    exact (typeMatch_iff _ _).1 (this d hm)

example : (numericColumns (⟨[0], [(1, [5]), (2, [6])]⟩ : Frame Nat Nat) ["bool".toList, "int64".toList]).columns =
    chosen [(1, [5]), (2, [6])] [false, true] :=
  C94_numeric_partial ⟨[0], [(1, [5]), (2, [6])]⟩ ["bool".toList, "int64".toList] (by simp)
    (by
      intro d hd
      simp only [List.mem_cons, List.not_mem_nil, or_false] at hd
      rcases hd with rfl | rfl
      · right
        intro p hp ⟨r, hr⟩
        simp only [List.mem_cons, List.not_mem_nil, or_false] at hp
        rcases hp with rfl | rfl | rfl | rfl <;> simp at hr
      · exact .inl (by decide))

/-- Defect: a Series of unsigned integers is not numeric, though a frame's column of unsigned integers is. -/
theorem C94_series_disagrees (s : Series N C) (bits : Str) (index : List N) :
    typedSeries s ("uint".toList ++ bits) numericNames = none ∧
      (numericColumns (⟨index, [(s.name, s.cells)]⟩ : Frame N C) ["uint".toList ++ bits]).columns = [(s.name, s.cells)] := by
  constructor
  · simp [typedSeries, numericNames, List.isPrefixOf]
  · rw [numericColumns, (C94_typed _ _ _ (by simp)).2.1]
    have : typeMatch numericNames ("uint".toList ++ bits) = true := by simp [typeMatch, numericNames, List.isPrefixOf]
    rw [← select_eq_chosen, List.map_cons, this]; rfl

/-- Defect: where names repeat, columns of other dtypes are given too, and columns are given more than once. -/
theorem C94_repeated_names :
    (numericColumns (⟨[0], [(1, ["x"]), (1, ["7"])]⟩ : Frame Nat String) ["object".toList, "int64".toList]).columns =
      [(1, ["x"]), (1, ["7"])] ∧
    (numericColumns (⟨[0], [(1, ["6"]), (1, ["7"])]⟩ : Frame Nat String) ["int64".toList, "int64".toList]).columns =
      [(1, ["6"]), (1, ["7"]), (1, ["6"]), (1, ["7"])] := by decide

end typed

section unique
variable {N C : Type} [DecidableEq N] [DecidableEq C]

/-- Spec: `r` is a row, among the first `rows`, in which no cell is null -/
def CompleteRow (rows : Nat) (cols : List (List (Option C))) (r : List C) : Prop :=
  ∃ i < rows, List.Forall₂ (fun (c : List (Option C)) x => c[i]? = some (some x)) cols r

omit [DecidableEq C] in
theorem completeRow_iff (cols : List (List (Option C))) (i : Nat) (r : List C) :
    completeRow cols i = some r ↔ List.Forall₂ (fun (c : List (Option C)) x => c[i]? = some (some x)) cols r := by
  unfold completeRow
  induction cols generalizing r with
  | nil => simp [eq_comm]
  | cons c t ih =>
    rw [List.mapM_cons]
    constructor
    · intro h
      rcases hc : c[i]?.join with _ | x
      · rw [hc] at h; simp at h
      rcases ht : (t.mapM fun c : List (Option C) => c[i]?.join) with _ | q
      · rw [hc, ht] at h; simp at h
      rw [hc, ht] at h
      simp only [Option.pure_def, Option.bind_eq_bind, Option.bind_some, Option.some.injEq] at h
      subst h
      exact .cons (by simpa [Option.join_eq_some_iff] using hc) ((ih q).1 ht)
    · intro h
      cases h with
      | cons hx ht =>
        rw [(ih _).2 ht, hx]; rfl

theorem countedRows_spec (sort : List (List C) → List (List C)) (hsort : ∀ l, (sort l).Perm l) (rows : Nat)
    (cols : List (List (Option C))) :
    (countedRows sort rows cols).Nodup ∧ ∀ r, r ∈ countedRows sort rows cols ↔ CompleteRow rows cols r := by
  refine ⟨(hsort _).nodup_iff.2 (distinct_nodup _), fun r => ?_⟩
  rw [countedRows, (hsort _).mem_iff, mem_distinct, List.mem_filterMap]
  constructor
  · rintro ⟨i, hi, h⟩; exact ⟨i, List.mem_range.1 hi, (completeRow_iff cols i r).1 h⟩
  · rintro ⟨i, hi, h⟩; exact ⟨i, List.mem_range.2 hi, (completeRow_iff cols i r).2 h⟩

/-- C95 for `junction`: just the complete rows of the first table that are not rows of the second, each once. -/
theorem C95_junction (sort : List (List C) → List (List C)) (hsort : ∀ l, (sort l).Perm l) (rows₁ rows₂ : Nat)
    (cols₁ cols₂ : List (List (Option C))) :
    (junction sort rows₁ rows₂ cols₁ cols₂).Nodup ∧
      ∀ r, r ∈ junction sort rows₁ rows₂ cols₁ cols₂ ↔ CompleteRow rows₁ cols₁ r ∧ ¬ CompleteRow rows₂ cols₂ r := by
  obtain ⟨h1, m1⟩ := countedRows_spec sort hsort rows₁ cols₁
  obtain ⟨_, m2⟩ := countedRows_spec sort hsort rows₂ cols₂
  exact ⟨h1.filter _, fun r => by rw [junction, List.mem_filter, decide_eq_true_eq, m1, m2]⟩

example : junction id 3 1 [[some 1, some 2, none], [some 5, some 6, some 7]] [[some 2], [some 6]] = [[1, 5]] := by decide

/-- the rows of a table made of columns -/
def tableRows (g : Frame N C) : List (List C) := (List.range g.index.length).map fun i => g.columns.filterMap fun c => c.2[i]?

omit [DecidableEq N] [DecidableEq C] in
theorem rows_of_columns (names : List N) (tuples : List (List C)) (ofNat : Nat → N) (h : ∀ t ∈ tuples, t.length = names.length) :
    tableRows (⟨(List.range tuples.length).map ofNat, names.mapIdx fun j n => (n, tuples.filterMap (·[j]?))⟩ : Frame N C) =
      tuples := by
  apply List.ext_getElem
  · simp [tableRows]
  intro i h1 h2
  have hi : i < tuples.length := h2
  simp only [tableRows, List.getElem_map, List.getElem_range, List.length_map, List.length_range]
  have hcol : ∀ j, j < names.length → (tuples.filterMap (·[j]?))[i]? = (tuples[i])[j]? := by
    intro j hj
    clear h1
    clear h2
    induction tuples generalizing i with
    | nil => simp at hi
    | cons t r ih =>
      have ht := h t (List.mem_cons_self ..)
      rw [List.filterMap_cons, List.getElem?_eq_getElem (show j < t.length by rw [ht]; exact hj)]
      cases i with
      | zero => simp [List.getElem?_eq_getElem (show j < t.length by rw [ht]; exact hj)]
      | succ i => simpa using ih (fun x hx => h x (List.mem_cons_of_mem _ hx)) i (by simpa using hi)
  have hlen := h _ (List.getElem_mem hi)
  have hmi : (names.mapIdx fun j n => (n, tuples.filterMap (·[j]?))).filterMap (fun c => c.2[i]?) =
      (List.range names.length).filterMap fun j => (tuples[i])[j]? := by
    rw [List.mapIdx_eq_zipIdx_map, List.filterMap_map]
    rw [show List.range names.length = (names.zipIdx).map Prod.snd from by simp [List.range_eq_range'], List.filterMap_map]
    apply List.filterMap_congr
    rintro ⟨n, j⟩ hm
    have := List.mem_zipIdx hm
    exact hcol j (by omega)
  rw [hmi, ← hlen]
  generalize tuples[i] = t
  apply List.ext_getElem?
  intro k
  have : (List.range t.length).filterMap (fun j => t[j]?) = t := by
    induction t with
    | nil => rfl
    | cons a r ih => rw [List.length_cons, List.range_succ_eq_map, List.filterMap_cons, List.filterMap_map]; simpa using ih
  rw [this]

omit [DecidableEq N] in
/-- C95 for `unique_to_records`: a table of the named columns whose rows are just the complete rows, each once — unless there
are none: then the table has no columns. -/
theorem C95_unique_partial (sort : List (List C) → List (List C)) (hsort : ∀ l, (sort l).Perm l) (rows : Nat) (names : List N)
    (cols : List (List (Option C))) (ofNat : Nat → N) (hlen : names.length = cols.length) :
    let g := uniqueToRecords sort rows names cols ofNat
    ((∃ r, CompleteRow rows cols r) → g.columns.map Prod.fst = names ∧ (tableRows g).Nodup ∧
      ∀ r, r ∈ tableRows g ↔ CompleteRow rows cols r) ∧
    ((¬ ∃ r, CompleteRow rows cols r) → g = ⟨[], []⟩) := by
  intro g
  obtain ⟨hnd, hm⟩ := countedRows_spec sort hsort rows cols
  constructor
  · rintro ⟨r, hr⟩
    have hne : countedRows sort rows cols ≠ [] := by
      intro h; have := (hm r).2 hr; rw [h] at this; cases this
    have hg : g = _ := if_neg hne
    have hrows := rows_of_columns names (countedRows sort rows cols) ofNat (by
      intro t ht
      obtain ⟨i, _, h⟩ := (hm t).1 ht
      rw [hlen, h.length_eq])
    rw [hg, hrows]
    exact ⟨by simp [List.mapIdx_eq_zipIdx_map, Function.comp_def], hnd, hm⟩
  · intro h
    have : countedRows sort rows cols = [] := by
      rw [List.eq_nil_iff_forall_not_mem]
      intro r hr; exact h ⟨r, (hm r).1 hr⟩
    exact if_pos this

example : uniqueToRecords id 4 ["a", "b"] [[some 1, some 1, none, some 2], [some 5, some 5, some 6, some 7]] (fun n => toString n) =
    (⟨["0", "1"], [("a", [1, 2]), ("b", [5, 7])]⟩ : Frame String Nat) := by rfl

/-- The full claim: every distinct row, with nulls or not, is in the table. -/
def C95_full : Prop :=
  ∀ (rows : Nat) (cols : List (List (Option Nat))) (i : Nat), i < rows →
    ∃ r ∈ tableRows (uniqueToRecords id rows (List.range cols.length) cols id), ∀ (j : Nat) (c : List (Option Nat)) (x : Nat),
      cols[j]? = some c → c[i]? = some (some x) → r[j]? = some x

/-- **The full claim is false**: a row with a null is left out. -/
theorem C95_full_false : ¬ C95_full := by
  intro h
  obtain ⟨r, hr, _⟩ := h 1 [[some 3], [none]] 0 (by omega)
  rw [show tableRows (uniqueToRecords id 1 (List.range [[some 3], [none]].length) [[some 3], [none]] id) = [] from rfl] at hr
  cases hr

end unique

section dupe
variable {N C : Type}

/-- C96: each row comes `repeats` times in a row, and rows are labelled `0, 1, …`. -/
theorem C96_dupe (f : Frame N C) (repeats : Nat) (ofNat : Nat → N) :
    (dupeBlock f repeats ofNat).index = (List.range (f.index.length * repeats)).map ofNat ∧
      List.Forall₂ (fun c d => d.1 = c.1 ∧ d.2.length = c.2.length * repeats ∧
        ∀ k : Nat, k < c.2.length * repeats → d.2[k]? = c.2[k / repeats]?) f.columns (dupeBlock f repeats ofNat).columns := by
  refine ⟨rfl, ?_⟩
  show List.Forall₂ _ f.columns (f.columns.map _)
  rw [List.forall₂_map_right_iff, List.forall₂_same]
  rintro ⟨n, c⟩ hmem
  clear hmem
  refine ⟨rfl, ?_, ?_⟩
  · show (c.flatMap fun x => List.replicate repeats x).length = c.length * repeats
    rw [List.length_flatMap]
    induction c with
    | nil => simp
    | cons a t ih => simp only [List.map_cons, List.sum_cons, List.length_replicate, List.length_cons] at *; rw [ih, Nat.succ_mul]; omega
  · show ∀ k, k < c.length * repeats → (c.flatMap fun x => List.replicate repeats x)[k]? = c[k / repeats]?
    induction c with
    | nil => intro k hk; simp at hk
    | cons a t ih =>
      intro k hk
      have hpos : 0 < repeats := by
        rcases Nat.eq_zero_or_pos repeats with h | h
        · subst h; simp at hk
        · exact h
      rw [List.flatMap_cons]
      by_cases h : k < repeats
      · rw [List.getElem?_append_left (by simpa using h), Nat.div_eq_of_lt h]; simp [h]
      · have h : repeats ≤ k := by omega
        rw [List.getElem?_append_right (by simpa using h), List.length_replicate, ih (k - repeats) (by
          rw [List.length_cons, Nat.succ_mul] at hk; omega), Nat.div_eq_sub_div hpos h]
        rfl

example : dupeBlock (⟨[7, 3], [(1, ["x", "y"])]⟩ : Frame Nat String) 2 id = ⟨[0, 1, 2, 3], [(1, ["x", "x", "y", "y"])]⟩ := rfl

end dupe
end Verif.Props
