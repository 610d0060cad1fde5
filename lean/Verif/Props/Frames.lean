import Verif.Model.Pivot
import Verif.Py.Tactics
/-!
# C68–C70: duplicate columns, constants, splitting

Cells are `Option V`: `none` is a null (NaN, None, NaT), which is equal to nothing.
-/
namespace Verif.Props
open Verif Verif.Model

variable {N V : Type} [DecidableEq N] [DecidableEq V]

/-- Spec: `==` of cells: a null is equal to nothing -/
def cellEq : Option V → Option V → Bool
  | some a, some b => decide (a = b)
  | _, _ => false

/-- Spec: a frame is rectangular. -/
def Rectangular {C : Type} (f : Frame N C) : Prop := ∀ c ∈ f.columns, c.2.length = f.index.length

/-- Spec: the elements at places where the mask is true. -/
def chosen {α : Type} (l : List α) (m : List Bool) : List α := ((l.zip m).filter Prod.snd).map Prod.fst

theorem select_eq_chosen {α : Type} (l : List α) (m : List Bool) : select l m = chosen l m := by
  induction l generalizing m with
  | nil => cases m <;> rfl
  | cons a t ih =>
    rcases m with _ | ⟨_ | _, m⟩
    · rfl
    · simp only [select, ih]; rfl
    · simp only [select, ih]; rfl

theorem select_map {α β : Type} (f : α → β) (l : List α) (m : List Bool) : select (l.map f) m = (select l m).map f := by
  induction l generalizing m with
  | nil => cases m <;> rfl
  | cons a t ih =>
    rcases m with _ | ⟨_ | _, m⟩ <;> simp [select, ih]

/-- Selecting by a property of the elements is filtering. -/
theorem select_filter {α : Type} (p : α → Bool) (l : List α) : select l (l.map p) = l.filter p := by
  induction l with
  | nil => rfl
  | cons a t ih =>
    by_cases h : p a = true
    · simp [select, h, ih]
    · simp only [Bool.not_eq_true] at h
      simp [select, h, ih]

/-! ## C68 -/

/-- The full claim: equal duplicates are dropped, unequal ones raise `ValueError`. -/
def C68_full : Prop :=
  ∀ (N V : Type) [DecidableEq N] [DecidableEq V] (f : Frame N (Option V)), Rectangular f →
    ((∀ c ∈ f.columns, ∀ d ∈ f.columns, c.1 = d.1 → c.2 = d.2) →
      ∃ g, dropDuplicates cellEq f = .ok g ∧ (g.columns.map Prod.fst).Nodup ∧ g.columns.Sublist f.columns ∧
        (∀ n, g.columns.find? (fun c => decide (c.1 = n)) = f.columns.find? (fun c => decide (c.1 = n))) ∧ g.index = f.index) ∧
    ((∃ c ∈ f.columns, ∃ d ∈ f.columns, c.1 = d.1 ∧ c.2 ≠ d.2) → dropDuplicates cellEq f = .error .valueError)

/-- two columns called `0`, with different values -/
def unequalDuplicates : Frame Nat (Option Nat) := ⟨[0], [(0, [some 1]), (0, [some 2])]⟩

/-- **C68 is false**: unequal duplicates do not raise; the second is silently dropped. (A column is compared with itself.) -/
theorem C68_full_false : ¬ C68_full := by
  intro h
  have := (h Nat Nat unequalDuplicates (by intro c hc; simp [unequalDuplicates] at hc; rcases hc with rfl | rfl <;> rfl)).2
    ⟨(0, [some 1]), by simp [unequalDuplicates], (0, [some 2]), by simp [unequalDuplicates], rfl, by decide⟩
  have h2 : dropDuplicates cellEq unequalDuplicates = .ok ⟨[0], [(0, [some 1])]⟩ := rfl
  rw [h2] at this; cases this

theorem select_sublist {α : Type} (l : List α) (m : List Bool) : (select l m).Sublist l := by
  induction l generalizing m with
  | nil => cases m <;> exact List.Sublist.refl _
  | cons a t ih =>
    rcases m with _ | ⟨_ | _, m⟩
    · exact List.nil_sublist _
    · exact (ih m).cons a
    · exact (ih m).cons_cons a

/-- What is left when the duplicated are dropped, if `seen` have occurred already. -/
theorem select_not_dup {C : Type} (l : List (N × C)) (seen : List N) :
    let r := select l ((duplicated seen (l.map Prod.fst)).map not)
    (r.map Prod.fst).Nodup ∧ (∀ c ∈ r, c.1 ∉ seen) ∧
      ∀ n, n ∉ seen → r.find? (fun c => decide (c.1 = n)) = l.find? (fun c => decide (c.1 = n)) := by
  induction l generalizing seen with
  | nil => exact ⟨List.nodup_nil, by simp [select], fun _ _ => rfl⟩
  | cons c t ih =>
    obtain ⟨h1, h2, h3⟩ := ih (c.1 :: seen)
    simp only [List.map_cons, duplicated]
    by_cases hm : c.1 ∈ seen
    · simp only [hm, decide_true, Bool.not_true, select]
      refine ⟨h1, fun d hd => fun hs => h2 d hd (List.mem_cons_of_mem _ hs), fun n hn => ?_⟩
      have hne : c.1 ≠ n := fun h => hn (h ▸ hm)
      rw [List.find?_cons_of_neg (by simp [hne])]
      exact h3 n (by simp [hn, Ne.symm hne])
    · simp only [hm, decide_false, Bool.not_false, select]
      refine ⟨?_, ?_, fun n hn => ?_⟩
      · rw [List.map_cons, List.nodup_cons]
        refine ⟨fun h => ?_, h1⟩
        obtain ⟨d, hd, he⟩ := List.mem_map.1 h
        exact h2 d hd (by rw [he]; simp)
      · intro d hd
        rcases List.mem_cons.1 hd with rfl | hd
        · exact hm
        · exact fun hs => h2 d hd (List.mem_cons_of_mem _ hs)
      · by_cases hne : c.1 = n
        · rw [List.find?_cons_of_pos (by simp [hne]), List.find?_cons_of_pos (by simp [hne])]
        · rw [List.find?_cons_of_neg (by simp [hne]), List.find?_cons_of_neg (by simp [hne])]
          exact h3 n (by simp [hn, Ne.symm hne])

theorem dup_nil_iff (l : List N) (seen : List N) :
    select l (duplicated seen l) = [] ↔ l.Nodup ∧ ∀ n ∈ l, n ∉ seen := by
  induction l generalizing seen with
  | nil => simp [select, duplicated]
  | cons n t ih =>
    by_cases hm : n ∈ seen
    · simp [duplicated, hm, select]
    · simp only [duplicated, hm, decide_false, select, ih, List.nodup_cons, List.mem_cons, not_or]
      constructor
      · rintro ⟨h1, h2⟩
        refine ⟨⟨fun h => (h2 n h).1 rfl, h1⟩, ?_⟩
        rintro m (rfl | h)
        · exact hm
        · exact (h2 m h).2
      · rintro ⟨⟨h0, h1⟩, h2⟩
        exact ⟨h1, fun m h => ⟨fun he => h0 (he ▸ h), h2 m (.inr h)⟩⟩

/-- Spec: a label that occurs more than once -/
def Twice {C : Type} (cols : List (N × C)) (n : N) : Prop := 2 ≤ (cols.map Prod.fst).count n

theorem mem_extra (l : List N) (seen : List N) (n : N) :
    n ∈ select l (duplicated seen l) ↔ (n ∈ seen ∧ n ∈ l) ∨ 2 ≤ l.count n := by
  induction l generalizing seen with
  | nil => simp [select, duplicated]
  | cons m t ih =>
    have hc : 1 ≤ t.count n ↔ n ∈ t := by rw [← List.count_pos_iff]; exact Iff.rfl
    by_cases hmn : m = n
    · subst hmn
      rw [List.count_cons_self]
      by_cases hm : m ∈ seen
      · simp only [duplicated, hm, decide_true, select, List.mem_cons, true_or, true_and]
      · simp only [duplicated, hm, decide_false, select, ih, List.mem_cons, true_or, true_and, false_and, false_or]
        rw [← hc]; constructor
        · rintro (h | h) <;> omega
        · intro h; left; omega
    · have h2 : (m :: t).count n = t.count n := List.count_cons_of_ne hmn
      rw [h2]
      have h3 : n ∈ m :: seen ↔ n ∈ seen := by simp [Ne.symm hmn]
      have h4 : n ∈ m :: t ↔ n ∈ t := by simp [Ne.symm hmn]
      rw [h4]
      by_cases hm : m ∈ seen
      · simp only [duplicated, hm, decide_true, select, List.mem_cons, ih, Ne.symm hmn, false_or]
      · simp only [duplicated, hm, decide_false, select, ih, h3]

/-- **C68, part.** What `check_and_drop_duplicate_columns` does: it raises exactly when a column whose name occurs twice has
a null; otherwise it returns the first column of each name. So equal-valued duplicates without nulls are dropped, as
documented. (Missing: duplicates with different values are not noticed, and equal ones with nulls raise.) -/
theorem C68_drop_partial (f : Frame N (Option V)) :
    ((∃ c ∈ f.columns, Twice f.columns c.1 ∧ none ∈ c.2) → dropDuplicates cellEq f = .error .valueError) ∧
    ((∀ c ∈ f.columns, Twice f.columns c.1 → none ∉ c.2) →
      ∃ g, dropDuplicates cellEq f = .ok g ∧ (g.columns.map Prod.fst).Nodup ∧ g.columns.Sublist f.columns ∧
        (∀ n, g.columns.find? (fun c => decide (c.1 = n)) = f.columns.find? (fun c => decide (c.1 = n))) ∧
        g.index = f.index) := by
  have hself : ∀ x : Option V, cellEq x x = true ↔ x ≠ none := by
    rintro (_ | x) <;> simp [cellEq]
  have hall : (∀ n ∈ select (f.columns.map Prod.fst) (duplicated [] (f.columns.map Prod.fst)),
      (f.columns.all fun c => !decide (c.1 = n) || c.2.all fun x => cellEq x x) = true) ↔
      ∀ c ∈ f.columns, Twice f.columns c.1 → none ∉ c.2 := by
    constructor
    · intro h c hc ht hn
      have := h c.1 ((mem_extra _ _ _).2 (.inr ht))
      rw [List.all_eq_true] at this
      have := this c hc
      simp only [decide_true, Bool.not_true, Bool.false_or, List.all_eq_true] at this
      exact (hself _).1 (this none hn) rfl
    · intro h n hn
      rw [mem_extra] at hn
      rw [List.all_eq_true]
      intro c hc
      by_cases he : c.1 = n
      · subst he
        simp only [decide_true, Bool.not_true, Bool.false_or, List.all_eq_true]
        intro x hx
        rw [hself]
        rintro rfl
        exact h c hc (hn.resolve_left (by simp)) hx
      · simp [he]
  constructor
  · rintro ⟨c, hc, ht, hn⟩
    unfold dropDuplicates
    have h1 : ¬ (select (f.columns.map Prod.fst) (duplicated [] (f.columns.map Prod.fst))).isEmpty = true := by
      rw [List.isEmpty_iff]
      intro h
      have := (mem_extra (f.columns.map Prod.fst) [] c.1).2 (.inr ht)
      rw [h] at this; cases this
    rw [if_neg h1, if_neg]
    rw [List.all_eq_true, hall]
    exact fun h => h c hc ht hn
  · intro h
    unfold dropDuplicates
    by_cases h1 : (select (f.columns.map Prod.fst) (duplicated [] (f.columns.map Prod.fst))).isEmpty = true
    · rw [if_pos h1]
      rw [List.isEmpty_iff, dup_nil_iff] at h1
      exact ⟨f, rfl, h1.1, List.Sublist.refl _, fun _ => rfl, rfl⟩
    · rw [if_neg h1, if_pos (by rw [List.all_eq_true, hall]; exact h)]
      obtain ⟨h2, -, h3⟩ := select_not_dup f.columns ([] : List N)
      exact ⟨_, rfl, h2, select_sublist _ _, fun n => h3 n (by simp), rfl⟩

/-- The hypotheses are met: equal duplicates, and duplicates with a null. -/
example : dropDuplicates cellEq (⟨[0, 1], [(7, [some 1, some 2]), (8, [none, none]), (7, [some 1, some 2])]⟩ :
      Frame Nat (Option Nat)) = .ok ⟨[0, 1], [(7, [some 1, some 2]), (8, [none, none])]⟩ := rfl
example : dropDuplicates cellEq (⟨[0], [(7, [none]), (7, [none])]⟩ : Frame Nat (Option Nat)) = .error .valueError := rfl

/-! ## C69 -/

/-- Spec: a column without two different values, nulls apart. -/
def Constant (l : List (Option V)) : Prop := ∀ a b, some a ∈ l → some b ∈ l → a = b

/-- Spec: with `dropna=False` a column that has a null is not constant, except for one without rows. -/
def ConstantStrict (l : List (Option V)) : Prop := Constant l ∧ none ∉ l

theorem isConstant_iff (l : List (Option V)) : isConstant Option.isNone cellEq true l = true ↔ Constant l := by
  unfold isConstant Constant
  have hm : ∀ a, some a ∈ l ↔ some a ∈ l.filter (!Option.isNone ·) := by simp
  simp only [if_true]
  have hnn : none ∉ l.filter (!Option.isNone ·) := by simp
  simp only [hm]
  generalize l.filter (!Option.isNone ·) = s at hnn
  rcases s with _ | ⟨x, t⟩
  · simp
  · obtain _ | x := x
    · simp at hnn
    simp only [List.all_eq_true]
    constructor
    · intro h a b ha hb
      have h1 := h _ ha; have h2 := h _ hb
      simp only [cellEq, decide_eq_true_eq] at h1 h2
      rw [h1, h2]
    · intro h y hy
      obtain _ | y := y
      · exact absurd hy hnn
      · simp only [cellEq, decide_eq_true_eq]
        exact h y x hy (by simp)

theorem isConstant_strict_iff (l : List (Option V)) : isConstant Option.isNone cellEq false l = true ↔ ConstantStrict l := by
  unfold isConstant ConstantStrict Constant
  simp only [Bool.false_eq_true, if_false]
  rcases l with _ | ⟨x, t⟩
  · simp
  · simp only [List.all_eq_true]
    constructor
    · intro h
      have hn : none ∉ x :: t := fun hn => by have := h none hn; simp [cellEq] at this
      refine ⟨fun a b ha hb => ?_, hn⟩
      obtain _ | x := x
      · simp at hn
      have h1 := h _ ha; have h2 := h _ hb
      simp only [cellEq, decide_eq_true_eq] at h1 h2
      rw [h1, h2]
    · rintro ⟨h, hn⟩ y hy
      obtain _ | x := x
      · simp at hn
      obtain _ | y := y
      · exact absurd hy hn
      · simp only [cellEq, decide_eq_true_eq]
        exact h y x hy (by simp)

/-- The full claim, for `how="rows"`: the dict has the constant columns, in order, each with its constant value; the frame has
the others. -/
def C69_full : Prop :=
  ∀ (N V : Type) [DecidableEq N] [DecidableEq V] (f : Frame N (Option V)), Rectangular f → f.index ≠ [] →
    (f.columns.map Prod.fst).Nodup →
    ∃ d g, extractConstants Option.isNone cellEq f true true true true = .ok ⟨.inr d, g⟩ ∧
      (∀ c ∈ f.columns, ¬ Constant c.2 → c ∈ g.columns ∧ Dict.get? d c.1 = none) ∧
      ∀ c ∈ f.columns, Constant c.2 → c ∉ g.columns ∧
        (∀ v, some v ∈ c.2 → Dict.get? d c.1 = some (some v)) ∧ ((∀ x ∈ c.2, x = none) → Dict.get? d c.1 = some none)

/-- a null above a one -/
def nullFirst : Frame Nat (Option Nat) := ⟨[0, 1], [(0, [none, some 1])]⟩

/-- **C69 is false in general**: the dict has what stands in the first row, a null here, though the constant is one. -/
theorem C69_full_false : ¬ C69_full := by
  intro h
  obtain ⟨d, g, he, -, h2⟩ := h Nat Nat nullFirst (by intro c hc; simp [nullFirst] at hc; subst hc; rfl) (by decide) (by decide)
  have hx : extractConstants Option.isNone cellEq nullFirst true true true true = .ok ⟨.inr [(0, none)], ⟨[0, 1], []⟩⟩ := rfl
  rw [hx] at he
  cases he
  have := (h2 (0, [none, some 1]) (by simp [nullFirst]) (by intro a b ha hb; simp at ha hb; rw [ha, hb])).2.1 1 (by simp)
  simp [Dict.get?] at this

omit [DecidableEq N] [DecidableEq V] in
theorem firstRow_ok (f : Frame N (Option V)) (hi : f.index ≠ []) :
    f.firstRow = .ok (firstCells f.columns) := by
  unfold Frame.firstRow
  rw [if_neg (by simpa [List.isEmpty_iff] using hi)]

omit [DecidableEq V] in
/-- The first row of a rectangular frame with distinct names, as a dict. -/
theorem get?_firstRow (cols : List (N × List (Option V))) (hne : ∀ c ∈ cols, c.2 ≠ []) (hd : (cols.map Prod.fst).Nodup) :
    Dict.keys (firstCells cols) = cols.map Prod.fst ∧ ∀ c ∈ cols, Dict.get? (firstCells cols) c.1 = c.2.head? := by
  induction cols with
  | nil => exact ⟨rfl, by simp⟩
  | cons c t ih =>
    obtain ⟨n, l⟩ := c
    obtain _ | ⟨x, l⟩ := l
    · exact absurd rfl (hne _ (List.mem_cons_self))
    rw [List.map_cons, List.nodup_cons] at hd
    obtain ⟨h1, h2⟩ := ih (fun c hc => hne c (List.mem_cons_of_mem _ hc)) hd.2
    have he : firstCells ((n, x :: l) :: t) = (n, x) :: firstCells t := rfl
    rw [he, Dict.keys_cons, h1]
    refine ⟨rfl, fun c hc => ?_⟩
    rw [Dict.get?_cons]
    rcases List.mem_cons.1 hc with rfl | hc
    · simp
    · have hm : c.1 ∈ t.map Prod.fst := List.mem_map_of_mem hc
      rw [if_neg (fun he => hd.1 (by simpa [he] using hm))]
      exact h2 c hc

omit [DecidableEq N] in
theorem eq_of_fst_eq {C : Type} (l : List (N × C)) (hd : (l.map Prod.fst).Nodup) (a b : N × C) (ha : a ∈ l) (hb : b ∈ l)
    (h : a.1 = b.1) : a = b := by
  induction l with
  | nil => cases ha
  | cons c t ih =>
    rw [List.map_cons, List.nodup_cons] at hd
    rcases List.mem_cons.1 ha with ha' | ha' <;> rcases List.mem_cons.1 hb with hb' | hb'
    · rw [ha', hb']
    · exact absurd (by rw [← ha', h]; exact List.mem_map_of_mem hb') hd.1
    · exact absurd (by rw [← hb', ← h]; exact List.mem_map_of_mem ha') hd.1
    · exact ih hd.2 ha' hb'

/-- **C69, part.** For a rectangular frame with rows and distinct column names: the columns returned, with
`drop_constants=True`, are those that are not constant (`dropna=False`: or that have a null), in order, and otherwise all; the
dict's keys are the names of the others, in order, and its values are those of the first row, so a constant column whose first
cell is not null is mapped to its constant value. (Missing: a null in the first row; `how="columns"`.) -/
theorem C69_constants_partial (f : Frame N (Option V)) (hr : Rectangular f) (hi : f.index ≠ [])
    (hd : (f.columns.map Prod.fst).Nodup) (dropConstants dropna : Bool) :
    ∃ d g, extractConstants Option.isNone cellEq f true dropConstants true dropna = .ok ⟨.inr d, g⟩ ∧ g.index = f.index ∧
      ∃ p : N × List (Option V) → Bool,
        (∀ c, p c = true ↔ if dropna then Constant c.2 else ConstantStrict c.2) ∧
        g.columns = (if dropConstants then f.columns.filter (!p ·) else f.columns) ∧
        Dict.keys d = (f.columns.filter p).map Prod.fst ∧
        (∀ c ∈ f.columns, p c = true → ∀ v, c.2.head? = some (some v) →
          Dict.get? d c.1 = some (some v) ∧ ∀ w, some w ∈ c.2 → w = v) ∧
        (∀ c ∈ f.columns, p c = false → Dict.get? d c.1 = none) := by
  let p : N × List (Option V) → Bool := fun c => isConstant Option.isNone cellEq dropna c.2
  have hp : ∀ c, p c = true ↔ if dropna then Constant c.2 else ConstantStrict c.2 := by
    intro c
    cases dropna
    · exact isConstant_strict_iff c.2
    · exact isConstant_iff c.2
  have hpc : ∀ c, p c = true → Constant c.2 := by
    intro c h
    rw [hp] at h
    cases dropna
    · exact h.1
    · exact h
  have hsel : select f.columns (f.columns.map p) = f.columns.filter p := select_filter p _
  have hsel' : select f.columns ((f.columns.map p).map not) = f.columns.filter (!p ·) := by
    rw [List.map_map]; exact select_filter _ _
  have hsub : (f.columns.filter p).Sublist f.columns := List.filter_sublist
  obtain ⟨hk, hg⟩ := get?_firstRow (f.columns.filter p)
    (fun c hc he => hi (List.eq_nil_of_length_eq_zero (by rw [← hr c (hsub.subset hc), he]; rfl)))
    (hd.sublist (hsub.map _))
  refine ⟨firstCells (f.columns.filter p), if dropConstants then { f with columns := f.columns.filter (!p ·) } else f, ?_, ?_,
    p, hp, ?_, hk, ?_, ?_⟩
  · unfold extractConstants
    have hf : Frame.firstRow { f with columns := f.columns.filter p } = .ok (firstCells (f.columns.filter p)) :=
      firstRow_ok { f with columns := f.columns.filter p } hi
    simp only [if_true]
    simp only [p] at hsel hsel' hf
    rw [hsel, hsel', hf]
  · cases dropConstants <;> rfl
  · cases dropConstants <;> rfl
  · intro c hc hpc' v hv
    refine ⟨by rw [hg c (List.mem_filter.2 ⟨hc, hpc'⟩), hv], fun w hw => ?_⟩
    exact hpc c hpc' w v hw (List.mem_of_head? hv)
  · intro c hc hpf
    rw [Dict.get?_eq_none]
    rw [hk]
    intro hm
    obtain ⟨e, he, hn⟩ := List.mem_map.1 hm
    have he' := List.mem_filter.1 he
    have : e = c := eq_of_fst_eq f.columns hd e c he'.1 hc hn
    rw [this, hpf] at he'
    cases he'.2

omit [DecidableEq N] in
/-- A frame without rows raises `IndexError`. -/
theorem C69_no_rows (f : Frame N (Option V)) (hi : f.index = []) (dropConstants dropna : Bool) :
    extractConstants Option.isNone cellEq f true dropConstants true dropna = .error .indexError := by
  unfold extractConstants
  simp only [if_true, Frame.firstRow, hi, List.isEmpty_nil]

omit [DecidableEq N] in
/-- Without `to_dict` the constants are returned as a frame, of the constant columns in order. -/
theorem C69_as_frame (f : Frame N (Option V)) (dropConstants : Bool) :
    ∃ a b, extractConstants Option.isNone cellEq f false dropConstants true true = .ok ⟨.inl a, b⟩ ∧
      a.index = f.index ∧ a.columns.Sublist f.columns ∧ (∀ c ∈ f.columns, c ∈ a.columns ↔ Constant c.2) ∧
      (dropConstants = true → (a.columns ++ b.columns).Perm f.columns) := by
  let p : N × List (Option V) → Bool := fun c => isConstant Option.isNone cellEq true c.2
  have hsel : select f.columns (f.columns.map p) = f.columns.filter p := select_filter p _
  have hsel' : select f.columns ((f.columns.map p).map not) = f.columns.filter (!p ·) := by
    rw [List.map_map]; exact select_filter _ _
  refine ⟨{ f with columns := f.columns.filter p },
    if dropConstants then { f with columns := f.columns.filter (!p ·) } else f, ?_, rfl, List.filter_sublist, ?_, ?_⟩
  · rw [← hsel, ← hsel']; rfl
  · intro c hc
    simp only [List.mem_filter, hc, true_and]
    exact isConstant_iff c.2
  · intro hdc
    rw [if_pos hdc]
    exact List.filter_append_perm p _

/-- The hypotheses are met: `a` is constant but for a null, `b` varies. -/
example : extractConstants Option.isNone cellEq (⟨[0, 1, 2], [(7, [some 1, none, some 1]), (8, [some 1, some 2, some 1])]⟩ :
      Frame Nat (Option Nat)) true true true true =
    .ok ⟨.inr [(7, some 1)], ⟨[0, 1, 2], [(8, [some 1, some 2, some 1])]⟩⟩ := rfl

/-- With `how="columns"` the dict is not one of index labels: it has the cells of the first constant row by column. -/
theorem C69_columns_dict : extractConstants Option.isNone cellEq (⟨[5, 6], [(7, [some 1, some 3]), (8, [some 2, some 3])]⟩ :
      Frame Nat (Option Nat)) true true false true =
    .ok ⟨.inr [(7, some 3), (8, some 3)], ⟨[5], [(7, [some 1]), (8, [some 2])]⟩⟩ := rfl

/-! ## C70 -/

section split
variable {C : Type}

omit [DecidableEq N] in
theorem rows_cons (n : N) (index : List N) (cols : List (N × List C)) :
    Frame.rows ⟨n :: index, cols⟩ = (n, cols.filterMap fun c => c.2.head?) ::
      Frame.rows ⟨index, cols.map fun c => (c.1, c.2.tail)⟩ := by
  unfold Frame.rows
  rw [List.mapIdx_cons]
  congr 1
  · simp only [Frame.row, List.head?_eq_getElem?]
  · apply List.ext_getElem?
    intro i
    simp only [List.getElem?_mapIdx, Frame.row, List.filterMap_map]
    congr 1
    funext m
    simp only [Function.comp_def, List.getElem?_tail]

theorem filterMap_congr_mem {α β : Type} (l : List α) (f g : α → Option β) (h : ∀ a ∈ l, f a = g a) :
    l.filterMap f = l.filterMap g := by
  induction l with
  | nil => rfl
  | cons a t ih =>
    rw [List.filterMap_cons, List.filterMap_cons, h a (by simp), ih fun b hb => h b (List.mem_cons_of_mem _ hb)]

omit [DecidableEq N] in
/-- Taking rows of a frame takes elements of the list of rows. -/
theorem rows_takeRows (index : List N) (cols : List (N × List C)) (m : List Bool) (hr : Rectangular ⟨index, cols⟩) :
    (Frame.takeRows ⟨index, cols⟩ m).rows = select (Frame.rows ⟨index, cols⟩) m := by
  induction index generalizing cols m with
  | nil => cases m <;> rfl
  | cons n index ih =>
    have hne : ∀ c ∈ cols, ∃ x l, c.2 = x :: l ∧ l.length = index.length := by
      intro c hc
      have := hr c hc
      obtain ⟨a, _ | ⟨x, l⟩⟩ := c
      · cases this
      · exact ⟨x, l, rfl, by simpa using this⟩
    have hr' : Rectangular ⟨index, cols.map fun c => (c.1, c.2.tail)⟩ := by
      intro c hc
      obtain ⟨d, hd, rfl⟩ := List.mem_map.1 hc
      obtain ⟨x, l, h1, h2⟩ := hne d hd
      simp only [h1, List.tail_cons]; exact h2
    rw [rows_cons]
    rcases m with _ | ⟨_ | _, m⟩
    · rfl
    · show _ = select _ m
      rw [← ih _ m hr']
      unfold Frame.takeRows
      congr 2
      rw [List.map_map]
      apply List.map_congr_left
      intro c hc
      obtain ⟨x, l, h1, h2⟩ := hne c hc
      simp only [Function.comp, h1, List.tail_cons, select]
    · show _ = _ :: select _ m
      rw [← ih _ m hr']
      unfold Frame.takeRows
      simp only [select]
      rw [rows_cons]
      congr 2
      · rw [List.filterMap_map]
        apply filterMap_congr_mem
        intro c hc
        obtain ⟨x, l, h1, h2⟩ := hne c hc
        simp only [Function.comp, h1, select, List.head?_cons]
      · congr 1
        rw [List.map_map, List.map_map]
        apply List.map_congr_left
        intro c hc
        obtain ⟨x, l, h1, h2⟩ := hne c hc
        simp only [Function.comp, h1, List.tail_cons, select]

theorem chosen_perm {α : Type} (l : List α) (m : List Bool) (h : m.length = l.length) :
    (chosen l m ++ chosen l (m.map not)).Perm l := by
  rw [← select_eq_chosen, ← select_eq_chosen]
  induction l generalizing m with
  | nil => cases m <;> exact List.Perm.refl _
  | cons a t ih =>
    rcases m with _ | ⟨_ | _, m⟩
    · cases h
    · have := ih m (by simpa using h)
      simp only [List.map_cons, Bool.not_false, select]
      exact List.perm_middle.trans (this.cons a)
    · have := ih m (by simpa using h)
      simp only [List.map_cons, Bool.not_true, select]
      exact this.cons a

/-- Spec: a mask gives each row the predicate's value: by place, if the predicate has the frame's labels, and otherwise by
label. -/
def MaskOf (index : List N) (pred : List (N × Bool)) (m : List Bool) : Prop :=
  m.length = index.length ∧
    if pred.map Prod.fst = index then m = pred.map Prod.snd
    else ∀ (i : Nat) (n : N), index[i]? = some n → m[i]? = Dict.get? pred n

theorem mapM_lookup (index : List N) (pred : List (N × Bool)) (m : List Bool)
    (h : index.mapM (predAt pred) =
      (.ok m : Except PyErr (List Bool))) : m.length = index.length ∧ index.map (Dict.get? pred) = m.map some := by
  induction index generalizing m with
  | nil => cases h; exact ⟨rfl, rfl⟩
  | cons n t ih =>
    rw [List.mapM_cons] at h
    rcases hg : Dict.get? pred n with _ | b
    · rw [show predAt pred n = .error (.user 0) by simp only [predAt, hg]] at h; cases h
    · rw [show predAt pred n = .ok b by simp only [predAt, hg]] at h
      rcases hm : t.mapM (predAt pred) with e | m'
      · rw [hm] at h; cases h
      · rw [hm] at h
        cases h
        obtain ⟨h1, h2⟩ := ih m' hm
        exact ⟨by simp [h1], by simp [hg, h2]⟩

theorem mapM_lookup_ok (index : List N) (pred : List (N × Bool)) (m : List Bool)
    (h : index.map (Dict.get? pred) = m.map some) :
    index.mapM (predAt pred) =
      (.ok m : Except PyErr (List Bool)) := by
  induction index generalizing m with
  | nil => cases m <;> cases h; rfl
  | cons n t ih =>
    obtain _ | ⟨b, m⟩ := m
    · cases h
    rw [List.map_cons, List.map_cons, List.cons.injEq] at h
    rw [List.mapM_cons, show predAt pred n = .ok b by simp only [predAt, h.1], ih m h.2]; rfl

theorem get?_not (pred : List (N × Bool)) (n : N) :
    Dict.get? (pred.map fun p => (p.1, !p.2)) n = (Dict.get? pred n).map not := by
  induction pred with
  | nil => rfl
  | cons p t ih =>
    obtain ⟨a, b⟩ := p
    simp only [List.map_cons, Dict.get?_cons, ih]
    split <;> rfl

theorem maskOf_align (index : List N) (pred : List (N × Bool)) (m : List Bool) (h : alignMask index pred = .ok m) :
    MaskOf index pred m := by
  unfold alignMask at h
  by_cases he : pred.map Prod.fst = index
  · rw [if_pos he] at h
    cases h
    exact ⟨by rw [← he]; simp, by rw [if_pos he]⟩
  · rw [if_neg he] at h
    obtain ⟨h1, h2⟩ := mapM_lookup index pred m h
    refine ⟨h1, ?_⟩
    rw [if_neg he]
    intro i n hi
    have := congrArg (fun l => l[i]?) h2
    simp only [List.getElem?_map, hi, Option.map_some] at this
    rcases hm : m[i]? with _ | b
    · rw [hm] at this; cases this
    · rw [hm] at this; simpa using this.symm

theorem align_not (index : List N) (pred : List (N × Bool)) (m : List Bool) (h : alignMask index pred = .ok m) :
    alignMask index (pred.map fun p => (p.1, !p.2)) = .ok (m.map not) := by
  have hf : (pred.map fun p => (p.1, !p.2)).map Prod.fst = pred.map Prod.fst := by simp
  unfold alignMask at *
  rw [hf]
  by_cases he : pred.map Prod.fst = index
  · rw [if_pos he] at h ⊢
    cases h; simp
  · rw [if_neg he] at h ⊢
    obtain ⟨h1, h2⟩ := mapM_lookup index pred m h
    apply mapM_lookup_ok
    have h3 : Dict.get? (pred.map fun p => (p.1, !p.2)) = fun n => (Dict.get? pred n).map not := funext fun n => get?_not pred n
    rw [h3]
    have := congrArg (List.map (Option.map not)) h2
    simpa [Function.comp_def] using this

/-- **C70.** `split_on` returns the rows at which the predicate is true and those at which it is false, in order; together
they are the rows of the frame, each once. It does not raise if the predicate has the frame's labels, or a value for each of
them. -/
theorem C70_split_on (f : Frame N C) (hr : Rectangular f) (pred : List (N × Bool)) :
    (∀ a b, splitOn f pred = .ok (a, b) → ∃ m, MaskOf f.index pred m ∧ a.rows = chosen f.rows m ∧
      b.rows = chosen f.rows (m.map not) ∧ (a.rows ++ b.rows).Perm f.rows) ∧
    ((pred.map Prod.fst = f.index ∨ ∀ n ∈ f.index, ∃ b, Dict.get? pred n = some b) → ∃ r, splitOn f pred = .ok r) := by
  have hlen : f.rows.length = f.index.length := by simp [Frame.rows]
  constructor
  · intro a b h
    unfold splitOn at h
    rcases hm : alignMask f.index pred with e | m
    · rw [hm] at h; cases h
    rw [hm] at h
    simp only [align_not _ _ _ hm] at h
    cases h
    have hmo := maskOf_align _ _ _ hm
    have e1 : (f.takeRows m).rows = chosen f.rows m := by
      rw [← select_eq_chosen]; exact rows_takeRows f.index f.columns m hr
    have e2 : (f.takeRows (m.map not)).rows = chosen f.rows (m.map not) := by
      rw [← select_eq_chosen]; exact rows_takeRows f.index f.columns _ hr
    refine ⟨m, hmo, e1, e2, ?_⟩
    rw [e1, e2]
    exact chosen_perm _ _ (hmo.1.trans hlen.symm)
  · intro h
    have : ∃ m, alignMask f.index pred = .ok m := by
      unfold alignMask
      by_cases he : pred.map Prod.fst = f.index
      · exact ⟨_, if_pos he⟩
      · rw [if_neg he]
        have h' := h.resolve_left he
        refine ⟨f.index.map fun n => (Dict.get? pred n).getD false, mapM_lookup_ok _ _ _ ?_⟩
        rw [List.map_map]
        apply List.map_congr_left
        intro n hn
        obtain ⟨b, hb⟩ := h' n hn
        simp [hb]
    obtain ⟨m, hm⟩ := this
    unfold splitOn
    rw [hm]
    simp only [align_not _ _ _ hm]
    exact ⟨_, rfl⟩

/-- A label without a value makes it raise, if the labels are not those of the frame. -/
theorem C70_unalignable (f : Frame N C) (pred : List (N × Bool)) (n : N) (hn : n ∈ f.index) (hp : Dict.get? pred n = none)
    : ∃ e, splitOn f pred = .error e := by
  unfold splitOn
  rcases hm : alignMask f.index pred with e | m
  · exact ⟨e, rfl⟩
  · exfalso
    have hmo := maskOf_align _ _ _ hm
    by_cases he : pred.map Prod.fst = f.index
    · rw [Dict.get?_eq_none] at hp
      exact hp (by rw [← he] at hn; exact hn)
    · have h2 := hmo.2
      rw [if_neg he] at h2
      obtain ⟨i, hi, hg⟩ := List.getElem_of_mem hn
      have := h2 i n (by rw [List.getElem?_eq_getElem hi, hg])
      rw [hp, List.getElem?_eq_none_iff, hmo.1] at this
      omega

/-- The hypotheses are met; the second predicate has the labels in another order. -/
example : splitOn (⟨[5, 6, 7], [(0, ['a', 'b', 'c'])]⟩ : Frame Nat Char) [(5, true), (6, false), (7, true)] =
    .ok (⟨[5, 7], [(0, ['a', 'c'])]⟩, ⟨[6], [(0, ['b'])]⟩) := rfl
example : splitOn (⟨[5, 6, 7], [(0, ['a', 'b', 'c'])]⟩ : Frame Nat Char) [(7, true), (6, false), (5, false)] =
    .ok (⟨[7], [(0, ['c'])]⟩, ⟨[5, 6], [(0, ['a', 'b'])]⟩) := rfl

end split

end Verif.Props
