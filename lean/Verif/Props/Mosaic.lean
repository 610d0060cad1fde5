import Verif.Model.Mosaic
import Verif.Py.Tactics
import Mathlib.Data.List.Perm.Basic
import Mathlib.Data.Nat.Basic
import Mathlib.Data.Rat.Cast.Order
import Mathlib.Tactic.Linarith
import Mathlib.Tactic.Positivity
/-!
# C71–C72: ranges of a parquet file
-/
namespace Verif.Props
open Verif Verif.Model

variable {V R : Type} [LinearOrder V]

/-- Spec: the records describe the groups, one each in order, and bound their values. -/
def Describes (file : List (List R)) (val : R → Option V) (recs : List (GroupRec V)) : Prop :=
  recs.length = file.length ∧ ∀ (i : Nat) r g, recs[i]? = some r → file[i]? = some g →
    r.rowGroup = i ∧ ∃ a b, r.min = some a ∧ r.max = some b ∧ ∀ x ∈ g, ∀ v, val x = some v → a ≤ v ∧ v ≤ b

/-- Spec: a row whose value is in the half-open range -/
def inRange (val : R → Option V) (lo hi : V) (x : R) : Bool := match val x with
  | some v => decide (lo ≤ v) && decide (v < hi)
  | none => false

theorem inRange_iff (val : R → Option V) (lo hi : V) (x : R) :
    inRange val lo hi x = true ↔ ∃ v, val x = some v ∧ lo ≤ v ∧ v < hi := by
  unfold inRange
  rcases val x with _ | v <;> simp

theorem filter_range (val : R → Option V) (lo hi : V) (g : List R) :
    ((g.filter fun x => lessThan hi (val x)).filter fun x => atLeast lo (val x)) = g.filter (inRange val lo hi) := by
  rw [List.filter_filter]
  congr 1
  funext x
  unfold inRange
  rcases val x with _ | v <;> simp [lessThan, atLeast]

/-- Describing the groups from place `k` on. -/
def DescribesFrom (k : Nat) (file : List (List R)) (val : R → Option V) : List (GroupRec V) → List (List R) → Prop
  | [], [] => True
  | r :: rs, g :: gs => r.rowGroup = k ∧ file[k]? = some g ∧
      (∃ a b, r.min = some a ∧ r.max = some b ∧ ∀ x ∈ g, ∀ v, val x = some v → a ≤ v ∧ v ≤ b) ∧
      DescribesFrom (k + 1) file val rs gs
  | _, _ => False

theorem describesFrom_of (file : List (List R)) (val : R → Option V) (recs : List (GroupRec V)) (k : Nat)
    (gs : List (List R)) (hl : recs.length = gs.length) (hg : ∀ i, gs[i]? = file[k + i]?)
    (h : ∀ (i : Nat) r g, recs[i]? = some r → gs[i]? = some g →
      r.rowGroup = k + i ∧ ∃ a b, r.min = some a ∧ r.max = some b ∧ ∀ x ∈ g, ∀ v, val x = some v → a ≤ v ∧ v ≤ b) :
    DescribesFrom k file val recs gs := by
  induction recs generalizing k gs with
  | nil => cases gs; exact trivial; cases hl
  | cons r rs ih =>
    obtain _ | ⟨g, gs⟩ := gs
    · cases hl
    have h0 := h 0 r g rfl rfl
    refine ⟨h0.1, ?_, h0.2, ih (k + 1) gs (by simpa using hl) (fun i => ?_) fun i r' g' hr' hg' => ?_⟩
    · have := hg 0; simpa using this.symm
    · have := hg (i + 1); rw [List.getElem?_cons_succ] at this; rw [this]; congr 1; omega
    · have := h (i + 1) r' g' (by simpa using hr') (by simpa using hg')
      exact ⟨by omega, this.2⟩

theorem Describes.from (file : List (List R)) (val : R → Option V) (recs : List (GroupRec V)) (h : Describes file val recs) :
    DescribesFrom 0 file val recs file :=
  describesFrom_of file val recs 0 file h.1 (by simp) (by simpa using h.2)

theorem boundRecords_spec (file : List (List R)) (val : R → Option V) (lo hi : V) (k : Nat) (recs : List (GroupRec V))
    (gs : List (List R)) (h : DescribesFrom k file val recs gs) :
    ∃ l, boundRecords lo hi recs = .ok l ∧
      readGroups file val lo hi l = .ok (gs.flatten.filter (inRange val lo hi)) ∧
      (l = [] → ∀ r ∈ recs, ∀ a b, r.min = some a → r.max = some b → hi < a ∨ b < lo) := by
  induction recs generalizing k gs with
  | nil =>
    obtain _ | ⟨g, gs⟩ := gs
    · exact ⟨[], rfl, rfl, by simp⟩
    · exact absurd h id
  | cons r rs ih =>
    obtain _ | ⟨g, gs⟩ := gs
    · exact absurd h id
    obtain ⟨h1, h2, ⟨a, b, ha, hb, hv⟩, h4⟩ := h
    obtain ⟨l, hl, hrd, he⟩ := ih (k + 1) gs h4
    have hw : wanted lo hi r = .ok (!decide (hi < a) && !decide (b < lo)) := by
      unfold wanted
      simp only [ha, hb]
      by_cases h : hi < a <;> simp [h]
    by_cases hin : hi < a ∨ b < lo
    · refine ⟨l, ?_, ?_, ?_⟩
      · unfold boundRecords
        rw [hw, hl]
        have : (!decide (hi < a) && !decide (b < lo)) = false := by
          rcases hin with h | h <;> simp [h]
        simp [this]
      · rw [hrd, List.flatten_cons, List.filter_append]
        have : g.filter (inRange val lo hi) = [] := by
          rw [List.filter_eq_nil_iff]
          intro x hx hr
          rw [inRange_iff] at hr
          obtain ⟨v, hv', h5, h6⟩ := hr
          have := hv x hx v hv'
          rcases hin with h | h
          · exact absurd (lt_of_lt_of_le h6 (le_of_lt h)) (not_lt_of_ge this.1)
          · exact absurd (lt_of_lt_of_le h h5) (not_lt_of_ge this.2)
        rw [this]; rfl
      · intro hnil q hq a' b' ha' hb'
        rcases List.mem_cons.1 hq with rfl | hq
        · rw [ha] at ha'; rw [hb] at hb'; cases ha'; cases hb'; exact hin
        · exact he hnil q hq a' b' ha' hb'
    · refine ⟨r :: l, ?_, ?_, by simp⟩
      · unfold boundRecords
        rw [hw, hl]
        have : (!decide (hi < a) && !decide (b < lo)) = true := by
          simp only [not_or] at hin; simp [hin.1, hin.2]
        simp [this]
      · unfold readGroups
        rw [h1, h2, hrd]
        simp only [filter_range, List.flatten_cons, List.filter_append]

/-- **C71.** If the records describe the file, `read_between` returns the rows whose value is in the half-open range, in file
order; or nothing, in which case no row is in the range, and the statistics of every group show it. -/
theorem C71_read_between (file : List (List R)) (val : R → Option V) (lo hi : V) (recs : List (GroupRec V))
    (h : Describes file val recs) :
    readBetween file val lo hi recs = .ok (some (file.flatten.filter (inRange val lo hi))) ∨
      (readBetween file val lo hi recs = .ok none ∧ file.flatten.filter (inRange val lo hi) = [] ∧
        ∀ r ∈ recs, ∀ a b, r.min = some a → r.max = some b → hi < a ∨ b < lo) := by
  obtain ⟨l, h1, h2, h3⟩ := boundRecords_spec file val lo hi 0 recs file h.from
  unfold readBetween
  rw [h1]
  obtain _ | ⟨r, t⟩ := l
  · right
    have h2' : Except.ok ([] : List R) = (.ok (file.flatten.filter (inRange val lo hi)) : Except PyErr (List R)) := h2
    exact ⟨rfl, (Except.ok.inj h2').symm, h3 rfl⟩
  · left
    simp only [h2]

/-- A group whose statistics meet the range makes it return a table. -/
theorem C71_not_none (file : List (List R)) (val : R → Option V) (lo hi : V) (recs : List (GroupRec V))
    (h : Describes file val recs) (r : GroupRec V) (hr : r ∈ recs) (a b : V) (ha : r.min = some a) (hb : r.max = some b)
    (h1 : a ≤ hi) (h2 : lo ≤ b) :
    readBetween file val lo hi recs = .ok (some (file.flatten.filter (inRange val lo hi))) := by
  rcases C71_read_between file val lo hi recs h with h' | ⟨-, -, h'⟩
  · exact h'
  · rcases h' r hr a b ha hb with h'' | h''
    · exact absurd h'' (not_lt_of_ge h1)
    · exact absurd h'' (not_lt_of_ge h2)

/-- Defect: a group of nulls, whose statistics have no minimum, makes it raise `TypeError`. -/
theorem C71_null_group (file : List (List R)) (val : R → Option V) (lo hi : V) (r : GroupRec V) (t : List (GroupRec V))
    (h : r.min = none) : readBetween file val lo hi (r :: t) = .error .typeError := by
  simp [readBetween, boundRecords, wanted, h]

/-- Spec: rows that are their value -/
def demoFile : List (List (Option Nat)) := [[some 3, some 9], [none, some 4], [some 20]]
def demoRecs : List (GroupRec Nat) := [⟨some 3, some 9, 0⟩, ⟨some 4, some 4, 1⟩, ⟨some 20, some 20, 2⟩]

theorem demo_describes : Describes demoFile id demoRecs := by
  refine ⟨rfl, fun i r g hr hg => ?_⟩
  rcases i with _ | _ | _ | i
  · cases hr; cases hg; exact ⟨rfl, 3, 9, rfl, rfl, by decide⟩
  · cases hr; cases hg
    refine ⟨rfl, 4, 4, rfl, rfl, fun x hx v hv => ?_⟩
    simp only [List.mem_cons, List.not_mem_nil, or_false] at hx
    rcases hx with rfl | rfl
    · cases hv
    · cases hv; exact ⟨le_refl _, le_refl _⟩
  · cases hr; cases hg; exact ⟨rfl, 20, 20, rfl, rfl, by decide⟩
  · cases hr

/-- The hypotheses are met: the last group is not read, the null is dropped, nine is not below nine. -/
example : readBetween demoFile id 3 9 demoRecs = .ok (some [some 3, some 4]) := rfl
example : readBetween demoFile id 30 40 demoRecs = .ok none := rfl

/-! ## C72 -/

/-- Spec: the one row's value is not above the other's. -/
def valLe (val : R → Option V) (x y : R) : Prop := ∀ a b, val x = some a → val y = some b → a ≤ b

/-- Spec: a sort, ascending by the value: any, stable or not. -/
def Sorts (val : R → Option V) (sortBy : List R → List R) : Prop :=
  ∀ l, (∀ x ∈ l, (val x).isSome) → (sortBy l).Perm l ∧ (sortBy l).Pairwise (valLe val)

/-- Spec: `np.linspace(a, b, n)`, `n ≥ 2`, goes from `a` to `b` without going down. -/
def Spaced (ar : Arith V) : Prop :=
  ∀ a b n, a ≤ b → 2 ≤ n → ∃ m, ar.linspace a b n = a :: (m ++ [b]) ∧ (ar.linspace a b n).Pairwise (· ≤ ·)

theorem filter_split (val : R → Option V) (a b z : V) (hab : a ≤ b) (hbz : b ≤ z) (l : List R) :
    (l.filter (inRange val a b) ++ l.filter (inRange val b z)).Perm (l.filter (inRange val a z)) := by
  have h := List.filter_append_perm (lessThan b ∘ val) (l.filter (inRange val a z))
  rw [List.filter_filter, List.filter_filter] at h
  refine List.Perm.trans (List.Perm.of_eq ?_) h
  congr 1
  · apply List.filter_congr
    intro x _
    unfold inRange
    rcases hv : val x with _ | v
    · simp
    · by_cases h1 : v < b
      · have : v < z := lt_of_lt_of_le h1 hbz
        simp [lessThan, hv, h1, this]
      · simp [lessThan, hv, h1]
  · apply List.filter_congr
    intro x _
    unfold inRange
    rcases hv : val x with _ | v
    · simp
    · by_cases h1 : v < b
      · simp [lessThan, hv, h1, not_le.2 h1]
      · have h2 : b ≤ v := not_lt.1 h1
        simp [lessThan, hv, h1, le_trans hab h2, h2]

/-- the last of a list that begins with `a` -/
def lastFrom (a : V) : List V → V
  | [] => a
  | b :: t => lastFrom b t

theorem le_lastFrom (a : V) (t : List V) (h : (a :: t).Pairwise (· ≤ ·)) : a ≤ lastFrom a t := by
  induction t generalizing a with
  | nil => exact le_refl a
  | cons b t ih =>
    rw [List.pairwise_cons] at h
    exact le_trans (h.1 b (by simp)) (ih b h.2)

/-- What is written for windows that follow one another. -/
theorem writeWindows_spec (file : List (List R)) (val : R → Option V) (recs : List (GroupRec V)) (sortBy : List R → List R)
    (hd : Describes file val recs) (hs : Sorts val sortBy) (a : V) (t : List V) (hc : (a :: t).Pairwise (· ≤ ·)) :
    ∃ out, writeWindows file val recs sortBy id ((a :: t).zip t) = .ok out ∧
      out.Perm (file.flatten.filter (inRange val a (lastFrom a t))) ∧ out.Pairwise (valLe val) := by
  induction t generalizing a with
  | nil =>
    refine ⟨[], rfl, ?_, List.Pairwise.nil⟩
    have : file.flatten.filter (inRange val a a) = [] := by
      rw [List.filter_eq_nil_iff]
      intro x _ hx
      obtain ⟨v, -, h1, h2⟩ := (inRange_iff val a a x).1 hx
      exact absurd h2 (not_lt_of_ge h1)
    rw [lastFrom, this]
  | cons b t ih =>
    rw [List.pairwise_cons] at hc
    have hab : a ≤ b := hc.1 b (by simp)
    obtain ⟨out, ho, hperm, hsort⟩ := ih b hc.2
    have hbz : b ≤ lastFrom b t := le_lastFrom b t hc.2
    have hval : ∀ x ∈ file.flatten.filter (inRange val a b), (val x).isSome := by
      intro x hx
      obtain ⟨v, hv, -⟩ := (inRange_iff val a b x).1 (List.mem_filter.1 hx).2
      simp [hv]
    obtain ⟨hp1, hs1⟩ := hs _ hval
    -- what is written for the first window
    have hw : ∃ first, first.Perm (file.flatten.filter (inRange val a b)) ∧ first.Pairwise (valLe val) ∧
        writeWindows file val recs sortBy id ((a :: b :: t).zip (b :: t)) = .ok (first ++ out) := by
      have hz : (a :: b :: t).zip (b :: t) = (a, b) :: (b :: t).zip t := rfl
      rw [hz]
      unfold writeWindows
      rw [ho]
      rcases C71_read_between file val a b recs hd with hr | ⟨hr, he, -⟩
      · simp only [hr]
        rcases hl : file.flatten.filter (inRange val a b) with _ | ⟨x, y⟩
        · exact ⟨[], List.Perm.refl _, List.Pairwise.nil, rfl⟩
        · rw [hl] at hp1 hs1
          exact ⟨sortBy (x :: y), hp1, hs1, rfl⟩
      · simp only [hr]
        exact ⟨[], by rw [he], List.Pairwise.nil, rfl⟩
    obtain ⟨first, hf1, hf2, hf3⟩ := hw
    refine ⟨first ++ out, hf3, ?_, ?_⟩
    · exact (hf1.append hperm).trans (filter_split val a b _ hab hbz _)
    · rw [List.pairwise_append]
      refine ⟨hf2, hsort, fun x hx y hy => ?_⟩
      obtain ⟨v, hv, -, h2⟩ := (inRange_iff val a b x).1 (List.mem_filter.1 (hf1.subset hx)).2
      obtain ⟨w, hw, h3, -⟩ := (inRange_iff val b _ y).1 (List.mem_filter.1 (hperm.subset hy)).2
      intro v' w' hv' hw'
      rw [hv] at hv'; rw [hw] at hw'; cases hv'; cases hw'
      exact le_of_lt (lt_of_lt_of_le h2 h3)

omit [LinearOrder V] in
theorem bumpLast_zip (f : V → V) (a : V) (m : List V) (b : V) :
    bumpLast f ((a :: (m ++ [b])).zip (m ++ [b])) = (a :: (m ++ [f b])).zip (m ++ [f b]) := by
  induction m generalizing a with
  | nil => rfl
  | cons c m ih =>
    have h1 : (a :: (c :: m ++ [b])).zip (c :: m ++ [b]) = (a, c) :: (c :: (m ++ [b])).zip (m ++ [b]) := rfl
    have h2 : (a :: (c :: m ++ [f b])).zip (c :: m ++ [f b]) = (a, c) :: (c :: (m ++ [f b])).zip (m ++ [f b]) := rfl
    have h3 : (c :: (m ++ [b])).zip (m ++ [b]) ≠ [] := by cases m <;> simp
    rw [h1, h2, ← ih]
    rcases hz : (c :: (m ++ [b])).zip (m ++ [b]) with _ | ⟨w, ws⟩
    · exact absurd hz h3
    · rfl

omit [LinearOrder V] in
theorem lastFrom_append (a : V) (m : List V) (b : V) : lastFrom a (m ++ [b]) = b := by
  induction m generalizing a with
  | nil => rfl
  | cons c m ih => exact ih c

/-- The greatest maximum and the least minimum bound every value. -/
theorem maxRec_spec (file : List (List R)) (val : R → Option V) (k : Nat) (recs : List (GroupRec V)) (gs : List (List R))
    (h : DescribesFrom k file val recs gs) (hne : recs ≠ []) :
    ∃ mx mn, maxRec recs = .ok mx ∧ minRec recs = .ok mn ∧
      ∀ x ∈ gs.flatten, ∀ v, val x = some v → mn ≤ v ∧ v ≤ mx := by
  induction recs generalizing k gs with
  | nil => exact absurd rfl hne
  | cons r rs ih =>
    obtain _ | ⟨g, gs⟩ := gs
    · exact absurd h id
    obtain ⟨h1, h2, ⟨a, b, ha, hb, hv⟩, h4⟩ := h
    obtain _ | ⟨r', rs⟩ := rs
    · obtain _ | ⟨g', gs⟩ := gs
      · refine ⟨b, a, by simp [maxRec, hb], by simp [minRec, ha], ?_⟩
        intro x hx
        exact hv x (by simpa using hx)
      · exact absurd h4 id
    · obtain ⟨mx, mn, hmx, hmn, hall⟩ := ih (k + 1) gs h4 (by simp)
      refine ⟨if b < mx then mx else b, if mn < a then mn else a, by simp [maxRec, hb, hmx], by simp [minRec, ha, hmn], ?_⟩
      intro x hx v hxv
      rw [List.flatten_cons, List.mem_append] at hx
      have h5 : mx ≤ (if b < mx then mx else b) ∧ b ≤ (if b < mx then mx else b) := by
        split
        · rename_i h; exact ⟨le_refl _, le_of_lt h⟩
        · rename_i h; exact ⟨not_lt.1 h, le_refl _⟩
      have h6 : (if mn < a then mn else a) ≤ mn ∧ (if mn < a then mn else a) ≤ a := by
        split
        · rename_i h; exact ⟨le_refl _, le_of_lt h⟩
        · rename_i h; exact ⟨not_lt.1 h, le_refl _⟩
      rcases hx with hx | hx
      · have := hv x hx v hxv
        exact ⟨le_trans h6.2 this.1, le_trans this.2 h5.2⟩
      · have := hall x hx v hxv
        exact ⟨le_trans h6.1 this.1, le_trans this.2 h5.1⟩

/-- The full claim: with a grid that goes from the least to the greatest value and an addition that does not make less, as
floating-point arithmetic has, the output is the rows with a value, sorted. -/
def C72_full : Prop :=
  ∀ (V R : Type) [LinearOrder V] (ar : Arith V) (file : List (List R)) (val : R → Option V) (recs : List (GroupRec V))
    (sortBy : List R → List R) (n : Nat), Spaced ar → (∀ x, x ≤ ar.addOne x) → Describes file val recs → recs ≠ [] →
    (∃ x ∈ file.flatten, (val x).isSome) → Sorts val sortBy → 2 ≤ n →
    ∃ out, sortChunked ar file val recs sortBy id n = .ok out ∧ out.Perm (file.flatten.filter fun x => (val x).isSome) ∧
      out.Pairwise (valLe val)

/-- **C72, part.** If adding one to the greatest value gives more, as it does short of `2 ** 53`, then for an ascending sort and
at least two chunks the rows written are those with a value, each as often as in the input, sorted over the whole file.
(Missing: greater values, see `C72_full_false`; descending order, see `C72_descending_false`.) -/
theorem C72_sort_chunked_partial (ar : Arith V) (file : List (List R)) (val : R → Option V) (recs : List (GroupRec V))
    (sortBy : List R → List R) (n : Nat) (hg : Spaced ar) (hd : Describes file val recs) (hne : recs ≠ [])
    (hv : ∃ x ∈ file.flatten, (val x).isSome)
    (ho : ∀ mx, maxRec recs = .ok mx → mx < ar.addOne mx) (hs : Sorts val sortBy) (hn : 2 ≤ n) :
    ∃ out, sortChunked ar file val recs sortBy id n = .ok out ∧ out.Perm (file.flatten.filter fun x => (val x).isSome) ∧
      out.Pairwise (valLe val) := by
  obtain ⟨mx, mn, hmx, hmn, hall⟩ := maxRec_spec file val 0 recs file hd.from hne
  have hle : mn ≤ mx := by
    obtain ⟨x, hx, h⟩ := hv
    obtain ⟨v, hv⟩ := Option.isSome_iff_exists.1 h
    exact le_trans (hall x hx v hv).1 (hall x hx v hv).2
  obtain ⟨m, hl, hp⟩ := hg mn mx n hle hn
  have hone := ho mx hmx
  have hw : windowsOf ar mn mx n = .ok ((mn :: (m ++ [ar.addOne mx])).zip (m ++ [ar.addOne mx])) := by
    unfold windowsOf
    rw [hl]
    simp only [List.length_cons, List.length_append, List.length_nil, List.tail_cons, bumpLast_zip]
    rw [if_neg (by omega)]
  have hp' : (mn :: (m ++ [ar.addOne mx])).Pairwise (· ≤ ·) := by
    rw [hl, ← List.cons_append, List.pairwise_append] at hp
    rw [← List.cons_append, List.pairwise_append]
    refine ⟨hp.1, by simp, fun x hx y hy => ?_⟩
    rw [List.mem_singleton.1 hy]
    exact le_trans (hp.2.2 x hx mx (by simp)) (le_of_lt hone)
  obtain ⟨out, h1, h2, h3⟩ := writeWindows_spec file val recs sortBy hd hs mn _ hp'
  refine ⟨out, ?_, ?_, h3⟩
  · unfold sortChunked
    simp only [hmx, hmn, hw]
    exact h1
  · refine h2.trans (List.Perm.of_eq (List.filter_congr fun x hx => ?_))
    rw [lastFrom_append]
    unfold inRange
    rcases hxv : val x with _ | v
    · rfl
    · have := hall x hx v hxv
      simp [this.1, lt_of_le_of_lt this.2 hone]

/-- One chunk, or none, raises `TypeError`. -/
theorem C72_one_chunk (ar : Arith V) (file : List (List R)) (val : R → Option V) (recs : List (GroupRec V))
    (sortBy process : List R → List R) (n : Nat) (hl : ∀ a b, (ar.linspace a b n).length = n) (hn : n < 2)
    (hd : Describes file val recs) (hne : recs ≠ []) :
    sortChunked ar file val recs sortBy process n = .error .typeError := by
  obtain ⟨mx, mn, hmx, hmn, -⟩ := maxRec_spec file val 0 recs file hd.from hne
  unfold sortChunked
  simp only [hmx, hmn, windowsOf]
  rw [if_pos (by rw [hl]; exact hn)]

/-- Spec: exact arithmetic -/
def exactArith : Arith ℚ where
  linspace a b n := if n < 2 then List.replicate n a
    else (List.range (n - 1)).map (fun i : Nat => a + (i : ℚ) * ((b - a) / ((n - 1 : Nat) : ℚ))) ++ [b]
  addOne x := x + 1

theorem exact_spaced : Spaced exactArith := by
  intro a b n hab hn
  obtain ⟨k, rfl⟩ : ∃ k, n = k + 2 := ⟨n - 2, by omega⟩
  have hlin : exactArith.linspace a b (k + 2) =
      (List.range (k + 1)).map (fun i : Nat => a + (i : ℚ) * ((b - a) / ((k + 1 : Nat) : ℚ))) ++ [b] := by
    simp only [exactArith]
    rw [if_neg (by omega)]
    rfl
  have hstep : 0 ≤ (b - a) / ((k + 1 : Nat) : ℚ) := div_nonneg (by linarith) (by positivity)
  refine ⟨((List.range k).map (fun i : Nat => a + ((i + 1 : Nat) : ℚ) * ((b - a) / ((k + 1 : Nat) : ℚ)))), ?_, ?_⟩
  · rw [hlin, List.range_succ_eq_map, List.map_cons, List.cons_append, List.map_map]
    congr 1
    simp
  · rw [hlin, List.pairwise_append]
    refine ⟨?_, by simp, ?_⟩
    · rw [List.pairwise_map]
      refine List.pairwise_lt_range.imp fun {i j} hij => ?_
      have : (i : ℚ) ≤ j := by exact_mod_cast le_of_lt hij
      have := mul_le_mul_of_nonneg_right this hstep
      linarith
    · intro x hx y hy
      obtain ⟨i, hi, rfl⟩ := List.mem_map.1 hx
      rw [List.mem_singleton.1 hy]
      have h1 : (i : ℚ) ≤ ((k + 1 : Nat) : ℚ) := by exact_mod_cast le_of_lt (List.mem_range.1 hi)
      have h2 := mul_le_mul_of_nonneg_right h1 hstep
      have h3 : ((k + 1 : Nat) : ℚ) * ((b - a) / ((k + 1 : Nat) : ℚ)) = b - a := by
        exact mul_div_cancel₀ _ (by positivity)
      linarith

/-- **C72 for exact arithmetic**: whatever the file and the number of chunks, two or more. -/
theorem C72_exact (file : List (List R)) (val : R → Option ℚ) (recs : List (GroupRec ℚ)) (sortBy : List R → List R) (n : Nat)
    (hd : Describes file val recs) (hne : recs ≠ []) (hv : ∃ x ∈ file.flatten, (val x).isSome) (hs : Sorts val sortBy)
    (hn : 2 ≤ n) :
    ∃ out, sortChunked exactArith file val recs sortBy id n = .ok out ∧
      out.Perm (file.flatten.filter fun x => (val x).isSome) ∧ out.Pairwise (valLe val) :=
  C72_sort_chunked_partial exactArith file val recs sortBy n exact_spaced hd hne hv
    (fun mx _ => by show mx < mx + 1; linarith) hs hn

/-- Spec: integers, with an addition that at `2 ** 53` does what that of binary64 does: `2 ** 53 + 1` is `2 ** 53`. -/
def coarseArith : Arith Nat where
  linspace a b n := if n < 2 then List.replicate n a
    else (List.range (n - 1)).map (fun i => a + i * (b - a) / (n - 1)) ++ [b]
  addOne x := if x < 2 ^ 53 then x + 1 else x

theorem coarse_spaced : Spaced coarseArith := by
  intro a b n hab hn
  obtain ⟨k, rfl⟩ : ∃ k, n = k + 2 := ⟨n - 2, by omega⟩
  have hlin : coarseArith.linspace a b (k + 2) =
      (List.range (k + 1)).map (fun i => a + i * (b - a) / (k + 1)) ++ [b] := by
    simp only [coarseArith]
    rw [if_neg (by omega)]
    rfl
  refine ⟨((List.range k).map (fun i => a + (i + 1) * (b - a) / (k + 1))), ?_, ?_⟩
  · rw [hlin, List.range_succ_eq_map, List.map_cons, List.cons_append, List.map_map]
    congr 1
    simp
  · rw [hlin, List.pairwise_append]
    refine ⟨?_, by simp, ?_⟩
    · rw [List.pairwise_map]
      refine List.pairwise_lt_range.imp fun {i j} hij => ?_
      exact Nat.add_le_add_left (Nat.div_le_div_right (Nat.mul_le_mul_right _ (le_of_lt hij))) a
    · intro x hx y hy
      obtain ⟨i, hi, rfl⟩ := List.mem_map.1 hx
      rw [List.mem_singleton.1 hy]
      have h1 : i * (b - a) / (k + 1) ≤ b - a := by
        apply Nat.div_le_of_le_mul
        exact Nat.mul_le_mul_right _ (le_of_lt (List.mem_range.1 hi))
      omega

/-- a sort for numbers -/
def insertNat (x : Option Nat) : List (Option Nat) → List (Option Nat)
  | [] => [x]
  | y :: t => if x.getD 0 ≤ y.getD 0 then x :: y :: t else y :: insertNat x t

def sortNat (l : List (Option Nat)) : List (Option Nat) := l.foldr insertNat []

theorem insertNat_perm (x : Option Nat) (l : List (Option Nat)) : (insertNat x l).Perm (x :: l) := by
  induction l with
  | nil => exact List.Perm.refl _
  | cons y t ih =>
    unfold insertNat
    split
    · exact List.Perm.refl _
    · exact (ih.cons y).trans (List.Perm.swap x y t)

theorem sortNat_perm (l : List (Option Nat)) : (sortNat l).Perm l := by
  induction l with
  | nil => exact List.Perm.refl _
  | cons x t ih => exact (insertNat_perm x (sortNat t)).trans (ih.cons x)

theorem insertNat_sorted (x : Option Nat) (l : List (Option Nat)) (h : l.Pairwise fun a b => a.getD 0 ≤ b.getD 0) :
    (insertNat x l).Pairwise fun a b => a.getD 0 ≤ b.getD 0 := by
  induction l with
  | nil => simp [insertNat]
  | cons y t ih =>
    unfold insertNat
    rw [List.pairwise_cons] at h
    split
    · rename_i hxy
      refine List.pairwise_cons.2 ⟨fun z hz => ?_, List.pairwise_cons.2 h⟩
      rcases List.mem_cons.1 hz with rfl | hz
      · exact hxy
      · exact le_trans hxy (h.1 z hz)
    · rename_i hxy
      refine List.pairwise_cons.2 ⟨fun z hz => ?_, ih h.2⟩
      rcases List.mem_cons.1 ((insertNat_perm x t).subset hz) with rfl | hz
      · exact le_of_lt (not_le.1 hxy)
      · exact h.1 z hz

theorem sortNat_sorts : Sorts id sortNat := by
  intro l _
  refine ⟨sortNat_perm l, ?_⟩
  have : (sortNat l).Pairwise fun a b => a.getD 0 ≤ b.getD 0 := by
    induction l with
    | nil => exact List.Pairwise.nil
    | cons x t ih => exact insertNat_sorted x _ (by rename_i h; exact ih (fun y hy => h y (List.mem_cons_of_mem _ hy)))
  refine this.imp fun {a b} h => ?_
  intro v w hv hw
  cases hv; cases hw; exact h

/-- a file of the values nought and `2 ** 53` -/
def bigFile : List (List (Option Nat)) := [[some 0, some (2 ^ 53)]]
def bigRecs : List (GroupRec Nat) := [⟨some 0, some (2 ^ 53), 0⟩]

theorem big_describes : Describes bigFile id bigRecs := by
  refine ⟨rfl, fun i r g hr hg => ?_⟩
  rcases i with _ | i
  · cases hr; cases hg
    refine ⟨rfl, 0, 2 ^ 53, rfl, rfl, fun x hx v hv => ?_⟩
    simp only [List.mem_cons, List.not_mem_nil, or_false] at hx
    rcases hx with rfl | rfl <;> cases hv
    · exact ⟨le_refl _, by decide⟩
    · exact ⟨by decide, le_refl _⟩
  · cases hr

/-- **C72 is false for great values**: the last bound is not above `2 ** 53`, so the row with that value is lost. -/
theorem C72_full_false : ¬ C72_full := by
  intro h
  obtain ⟨out, h1, h2, -⟩ := h Nat (Option Nat) coarseArith bigFile id bigRecs sortNat 2 coarse_spaced
    (fun x => by show x ≤ if x < 2 ^ 53 then x + 1 else x; split <;> omega) big_describes (by decide)
    ⟨some 0, by decide, rfl⟩ sortNat_sorts (le_refl _)
  have : sortChunked coarseArith bigFile id bigRecs sortNat id 2 = .ok [some 0] := by rfl
  rw [this] at h1
  cases h1
  have := h2.length_eq
  revert this
  decide

/-- Spec: a sort, descending -/
def SortsDown (val : R → Option V) (sortBy : List R → List R) : Prop :=
  ∀ l, (∀ x ∈ l, (val x).isSome) → (sortBy l).Perm l ∧ (sortBy l).Pairwise fun x y => valLe val y x

/-- **C72 is false for descending order**: the windows are written from the lowest up, whatever the direction. With any sort
the file of three and twenty, below, comes out ascending. -/
theorem C72_descending_false (sortBy : List (Option Nat) → List (Option Nat)) (hs : SortsDown id sortBy) :
    ∃ out, sortChunked coarseArith [[some 3], [some 20]] id [⟨some 3, some 3, 0⟩, ⟨some 20, some 20, 1⟩] sortBy id 3 = .ok out ∧
      ¬ out.Pairwise fun x y => valLe (V := Nat) id y x := by
  have hone : ∀ v : Nat, sortBy [some v] = [some v] := by
    intro v
    have := (hs [some v] (by simp)).1
    exact List.perm_singleton.1 this
  refine ⟨[some 3, some 20], ?_, ?_⟩
  · have : sortChunked coarseArith [[some 3], [some 20]] id [⟨some 3, some 3, 0⟩, ⟨some 20, some 20, 1⟩] sortBy id 3 =
        .ok (sortBy [some 3] ++ (sortBy [some 20] ++ [])) := rfl
    rw [this, hone, hone]
    rfl
  · intro h
    have := (List.pairwise_cons.1 h).1 (some 20) (by simp) 20 3 rfl rfl
    omega

/-- The hypotheses are met: twenty-one is above twenty, the null is dropped. -/
example : sortChunked coarseArith demoFile id demoRecs sortNat id 3 = .ok [some 3, some 4, some 9, some 20] := rfl
example : ∀ mx, maxRec demoRecs = .ok mx → mx < coarseArith.addOne mx := by
  intro mx h
  have : maxRec demoRecs = .ok 20 := rfl
  rw [this] at h; cases h; decide

/-! ## C89 -/

theorem writeWindows_process (file : List (List R)) (val : R → Option V) (recs : List (GroupRec V)) (sortBy : List R → List R)
    (hs : ∀ l, (sortBy l).Perm l) (ws : List (V × V)) :
    (∃ e, ∀ p, writeWindows file val recs sortBy p ws = .error e) ∨
    ∃ pieces : List (List R), pieces.length ≤ ws.length ∧ (∀ l ∈ pieces, l ≠ []) ∧
      ∀ p, writeWindows file val recs sortBy p ws = .ok (pieces.map p).flatten := by
  induction ws with
  | nil => exact .inr ⟨[], by simp, by simp, fun _ => rfl⟩
  | cons w t ih =>
    rcases hr : readBetween file val w.1 w.2 recs with e | r
    · exact .inl ⟨e, fun p => by simp only [writeWindows, hr]⟩
    rcases ih with ⟨e, he⟩ | ⟨pieces, hl, hne, hp⟩
    · exact .inl ⟨e, fun p => by simp only [writeWindows, hr, he]⟩
    rcases r with _ | _ | ⟨x, y⟩
    · exact .inr ⟨pieces, by simp; omega, hne, fun p => by simp only [writeWindows, hr, hp]⟩
    · exact .inr ⟨pieces, by simp; omega, hne, fun p => by simp only [writeWindows, hr, hp]⟩
    · refine .inr ⟨sortBy (x :: y) :: pieces, by simpa using hl, ?_, fun p => by simp [writeWindows, hr, hp]⟩
      intro l hm
      rcases List.mem_cons.1 hm with rfl | hm
      · intro h0
        have := (hs (x :: y)).length_eq
        simp [h0] at this
      · exact hne l hm

theorem bumpLast_length (f : V → V) (l : List (V × V)) : (bumpLast f l).length = l.length := by
  induction l with
  | nil => rfl
  | cons w t ih => cases t with
    | nil => rfl
    | cons u t => simpa [bumpLast] using ih

/-- C89: whatever the processor, what is written is what would be written without it, cut into fewer than `n_chunks`
consecutive pieces, none empty, each put through the processor; the pieces do not depend on the processor, and neither does
the error if there is one. -/
theorem C89_inline_processor (ar : Arith V) (file : List (List R)) (val : R → Option V) (recs : List (GroupRec V))
    (sortBy : List R → List R) (hs : ∀ l, (sortBy l).Perm l) (n : Nat) (hl : ∀ a b, (ar.linspace a b n).length = n) :
    (∃ e, ∀ p, sortChunked ar file val recs sortBy p n = .error e) ∨
    ∃ pieces : List (List R), pieces.length < n ∧ (∀ l ∈ pieces, l ≠ []) ∧
      sortChunked ar file val recs sortBy id n = .ok pieces.flatten ∧
      ∀ p, sortChunked ar file val recs sortBy p n = .ok (pieces.map p).flatten := by
  rcases hmx : maxRec recs with e | mx
  · exact .inl ⟨e, fun p => by simp only [sortChunked, hmx]⟩
  rcases hmn : minRec recs with e | mn
  · exact .inl ⟨e, fun p => by simp only [sortChunked, hmx, hmn]⟩
  rcases hw : windowsOf ar mn mx n with e | ws
  · exact .inl ⟨e, fun p => by simp only [sortChunked, hmx, hmn, hw]⟩
  have hlen : ws.length < n := by
    unfold windowsOf at hw
    simp only at hw
    split at hw
    · cases hw
    · cases hw
      rename_i h2
      rw [bumpLast_length, List.length_zip, List.length_tail, hl]
      rw [hl] at h2
      omega
  rcases writeWindows_process file val recs sortBy hs ws with ⟨e, he⟩ | ⟨pieces, h1, h2, h3⟩
  · exact .inl ⟨e, fun p => by simp only [sortChunked, hmx, hmn, hw, he]⟩
  · refine .inr ⟨pieces, by omega, h2, ?_, fun p => by simp only [sortChunked, hmx, hmn, hw, h3]⟩
    simp only [sortChunked, hmx, hmn, hw, h3, List.map_id]

/-- C89: so a processor that treats rows one by one (here: any that maps or drops them) can as well be run over the finished
file -/
theorem C89_row_by_row (ar : Arith V) (file : List (List R)) (val : R → Option V) (recs : List (GroupRec V))
    (sortBy : List R → List R) (hs : ∀ l, (sortBy l).Perm l) (n : Nat) (hl : ∀ a b, (ar.linspace a b n).length = n)
    (f : R → Option R) (out : List R) (h : sortChunked ar file val recs sortBy id n = .ok out) :
    sortChunked ar file val recs sortBy (·.filterMap f) n = .ok (out.filterMap f) := by
  rcases C89_inline_processor ar file val recs sortBy hs n hl with ⟨e, he⟩ | ⟨pieces, -, -, h1, h2⟩
  · rw [he] at h; cases h
  · rw [h1] at h
    cases h
    rw [h2]
    congr 1
    induction pieces with
    | nil => rfl
    | cons a t ih => simp [List.filterMap_append, ih]

example : sortChunked coarseArith demoFile id demoRecs sortNat (fun l => l ++ [some l.length]) 3 =
    .ok [some 3, some 4, some 9, some 3, some 20, some 1] := rfl

example : sortChunked coarseArith demoFile id demoRecs sortNat (·.filterMap fun x => if x = some 4 then none else some x) 3 =
    .ok [some 3, some 9, some 20] :=
  C89_row_by_row coarseArith demoFile id demoRecs sortNat sortNat_perm 3
    (fun a b => by simp [coarseArith]) (fun x => if x = some 4 then none else some x) [some 3, some 4, some 9, some 20] rfl

end Verif.Props
