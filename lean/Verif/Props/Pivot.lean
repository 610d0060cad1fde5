import Verif.Model.Pivot
import Verif.Py.Tactics
/-!
# C66–C67: downcasting
-/
namespace Verif.Props
open Verif Verif.Model

/-! ## C66 -/

/-- Spec: the values an integer dtype can hold. -/
def Holds (t : IntType) (x : Int) : Prop :=
  if t.signed then -(2 ^ (t.bits - 1)) ≤ x ∧ x < 2 ^ (t.bits - 1) else 0 ≤ x ∧ x < 2 ^ t.bits

/-- Spec: numpy's widths. -/
def intWidths : List Nat := [8, 16, 32, 64]

theorem minOf_le (a : Int) (l : List Int) : minOf a l ≤ a ∧ ∀ x ∈ l, minOf a l ≤ x := by
  induction l generalizing a with
  | nil => exact ⟨Int.le_refl _, by simp⟩
  | cons b t ih =>
    have h := ih (if b < a then b else a)
    simp only [minOf, List.mem_cons, forall_eq_or_imp]
    by_cases hb : b < a
    · rw [if_pos hb] at h ⊢; exact ⟨by omega, by omega, h.2⟩
    · rw [if_neg hb] at h ⊢; exact ⟨by omega, by omega, h.2⟩

theorem le_maxOf (a : Int) (l : List Int) : a ≤ maxOf a l ∧ ∀ x ∈ l, x ≤ maxOf a l := by
  induction l generalizing a with
  | nil => exact ⟨Int.le_refl _, by simp⟩
  | cons b t ih =>
    have h := ih (if a < b then b else a)
    simp only [maxOf, List.mem_cons, forall_eq_or_imp]
    by_cases hb : a < b
    · rw [if_pos hb] at h ⊢; exact ⟨by omega, by omega, h.2⟩
    · rw [if_neg hb] at h ⊢; exact ⟨by omega, by omega, h.2⟩

theorem minOf_mem (a : Int) (l : List Int) : minOf a l ∈ a :: l := by
  induction l generalizing a with
  | nil => simp [minOf]
  | cons b t ih =>
    have h := ih (if b < a then b else a)
    simp only [minOf]
    rcases List.mem_cons.1 h with h | h
    · rw [h]; split <;> simp
    · exact List.mem_cons_of_mem _ (List.mem_cons_of_mem _ h)

theorem maxOf_mem (a : Int) (l : List Int) : maxOf a l ∈ a :: l := by
  induction l generalizing a with
  | nil => simp [maxOf]
  | cons b t ih =>
    have h := ih (if a < b then b else a)
    simp only [maxOf]
    rcases List.mem_cons.1 h with h | h
    · rw [h]; split <;> simp
    · exact List.mem_cons_of_mem _ (List.mem_cons_of_mem _ h)

theorem minOf_ge_iff (a : Int) (l : List Int) (c : Int) : c ≤ minOf a l ↔ ∀ x ∈ a :: l, c ≤ x := by
  constructor
  · intro h x hx
    rcases List.mem_cons.1 hx with rfl | hx
    · exact Int.le_trans h (minOf_le _ _).1
    · exact Int.le_trans h ((minOf_le _ _).2 x hx)
  · intro h; exact h _ (minOf_mem a l)

theorem maxOf_le_iff (a : Int) (l : List Int) (c : Int) : maxOf a l ≤ c ↔ ∀ x ∈ a :: l, x ≤ c := by
  constructor
  · intro h x hx
    rcases List.mem_cons.1 hx with rfl | hx
    · exact Int.le_trans (le_maxOf _ _).1 h
    · exact Int.le_trans ((le_maxOf _ _).2 x hx) h
  · intro h; exact h _ (maxOf_mem a l)

theorem holds_iff (t : IntType) (x : Int) : Holds t x ↔ t.min ≤ x ∧ x ≤ t.max := by
  unfold Holds IntType.min IntType.max
  rcases t.signed with _ | _ <;> simp only [Bool.false_eq_true, if_true, if_false] <;> constructor <;> intro h <;>
    constructor <;> omega

theorem inIntBounds_iff (a : Int) (l : List Int) (t : IntType) :
    inIntBounds (minOf a l) (maxOf a l) t = true ↔ ∀ x ∈ a :: l, Holds t x := by
  simp only [inIntBounds, Bool.and_eq_true, decide_eq_true_eq, minOf_ge_iff, maxOf_le_iff, holds_iff]
  exact ⟨fun h x hx => ⟨h.1 x hx, h.2 x hx⟩, fun h => ⟨fun x hx => (h x hx).1, fun x hx => (h x hx).2⟩⟩

theorem castInt_of_holds (t : IntType) (h0 : 0 < t.bits) (x : Int) (h : Holds t x) : castInt t x = x := by
  have hp : (2 : Int) ^ t.bits = 2 ^ (t.bits - 1) + 2 ^ (t.bits - 1) := by
    obtain ⟨k, hk⟩ : ∃ k, t.bits = k + 1 := ⟨t.bits - 1, by omega⟩
    rw [hk, Nat.add_sub_cancel, Int.pow_succ]; omega
  unfold castInt
  have : 0 ≤ x - t.min ∧ x - t.min < 2 ^ t.bits := by
    unfold Holds at h; unfold IntType.min
    split at h <;> rename_i hs <;> simp only [hs, if_true] <;> (try simp only [Bool.false_eq_true, if_false]) <;> omega
  rw [Int.emod_eq_of_lt this.1 this.2]; omega

theorem firstDepth_some (s : Bool) (amin amax : Int) (l : List Nat) (t : IntType) (h : firstDepth s amin amax l = some t) :
    t.signed = s ∧ t.bits ∈ l ∧ inIntBounds amin amax t = true ∧
      ∃ pre post, l = pre ++ t.bits :: post ∧ ∀ d ∈ pre, inIntBounds amin amax ⟨s, d⟩ = false := by
  induction l with
  | nil => cases h
  | cons d r ih =>
    unfold firstDepth at h
    by_cases hb : inIntBounds amin amax ⟨s, d⟩ = true
    · rw [if_pos hb] at h
      cases h
      exact ⟨rfl, by simp, hb, [], r, rfl, by simp⟩
    · rw [if_neg hb] at h
      obtain ⟨h1, h2, h3, pre, post, h4, h5⟩ := ih h
      refine ⟨h1, List.mem_cons_of_mem _ h2, h3, d :: pre, post, by rw [h4]; rfl, ?_⟩
      intro x hx
      rcases List.mem_cons.1 hx with rfl | hx
      · simpa using hb
      · exact h5 x hx

theorem firstDepth_isSome (s : Bool) (amin amax : Int) (l : List Nat) (d : Nat) (hd : d ∈ l)
    (h : inIntBounds amin amax ⟨s, d⟩ = true) : ∃ t, firstDepth s amin amax l = some t := by
  induction l with
  | nil => cases hd
  | cons e r ih =>
    unfold firstDepth
    by_cases hb : inIntBounds amin amax ⟨s, e⟩ = true
    · exact ⟨_, if_pos hb⟩
    · rw [if_neg hb]
      rcases List.mem_cons.1 hd with rfl | hd
      · exact absurd h hb
      · exact ih hd

theorem holds_mono (s : Bool) (b c : Nat) (h : b ≤ c) (x : Int) (hx : Holds ⟨s, b⟩ x) : Holds ⟨s, c⟩ x := by
  unfold Holds at *
  have h1 : (2 : Int) ^ b ≤ 2 ^ c := by exact_mod_cast Nat.pow_le_pow_right (by decide) h
  have h2 : (2 : Int) ^ (b - 1) ≤ 2 ^ (c - 1) := by exact_mod_cast Nat.pow_le_pow_right (by decide) (Nat.sub_le_sub_right h 1)
  cases s <;> simp only [Bool.false_eq_true, if_false, if_true] at * <;> omega

/-- A value of a signed type that is not negative is a value of the unsigned type of that width. -/
theorem holds_unsigned (b : Nat) (x : Int) (h : Holds ⟨true, b⟩ x) (h0 : 0 ≤ x) : Holds ⟨false, b⟩ x := by
  unfold Holds at *
  have h2 : (2 : Int) ^ (b - 1) ≤ 2 ^ b := by exact_mod_cast Nat.pow_le_pow_right (by decide) (Nat.sub_le b 1)
  simp only [Bool.false_eq_true, if_false, if_true] at *
  omega

/-- **C66.** A non-empty integer array, of 64-bit signed or of 64-bit unsigned values, is downcast without loss to an integer
dtype, unsigned exactly when no element is negative, of one of the four widths, that holds every element; no integer dtype of
smaller width holds them all. -/
theorem C66_int_downcast (l : List Int) (hl : l ≠ [])
    (h64 : (∀ x ∈ l, Holds ⟨true, 64⟩ x) ∨ (∀ x ∈ l, Holds ⟨false, 64⟩ x)) :
    ∃ t, downcastInt l = .ok (t, l) ∧ (t.signed = false ↔ ∀ x ∈ l, 0 ≤ x) ∧ t.bits ∈ intWidths ∧ (∀ x ∈ l, Holds t x) ∧
      ∀ s : IntType, s.bits ∈ intWidths → (∀ x ∈ l, Holds s x) → t.bits ≤ s.bits := by
  obtain _ | ⟨a, l⟩ := l
  · exact absurd rfl hl
  have hsign : decide (minOf a l < 0) = false ↔ ∀ x ∈ a :: l, 0 ≤ x := by
    rw [← minOf_ge_iff, decide_eq_false_iff_not, Int.not_lt]
  have hex : inIntBounds (minOf a l) (maxOf a l) ⟨decide (minOf a l < 0), 64⟩ = true := by
    rw [inIntBounds_iff]
    rcases hs : decide (minOf a l < 0) with _ | _
    · have h0 := hsign.1 hs
      rcases h64 with h | h
      · exact fun x hx => holds_unsigned 64 x (h x hx) (h0 x hx)
      · exact h
    · rcases h64 with h | h
      · exact h
      · have : ∀ x ∈ a :: l, 0 ≤ x := fun x hx => by
          have := h x hx
          simp only [Holds, Bool.false_eq_true, if_false] at this
          exact this.1
        rw [hsign.2 this] at hs; cases hs
  obtain ⟨t, ht⟩ := firstDepth_isSome _ _ _ [8, 16, 32, 64] 64 (by simp) hex
  obtain ⟨h1, h2, h3, pre, post, h4, h5⟩ := firstDepth_some _ _ _ _ _ ht
  rw [inIntBounds_iff] at h3
  have hb : 0 < t.bits := by
    simp only [List.mem_cons, List.not_mem_nil, or_false] at h2
    omega
  refine ⟨t, ?_, ?_, h2, h3, ?_⟩
  · unfold downcastInt
    simp only [ht]
    congr 2
    conv => rhs; rw [← List.map_id (a :: l)]
    exact List.map_congr_left fun x hx => castInt_of_holds t hb x (h3 x hx)
  · rw [h1]; exact hsign
  · intro s hs hall
    -- the type of this sign and of the width of `s` would do
    have hw : ∀ x ∈ a :: l, Holds ⟨decide (minOf a l < 0), s.bits⟩ x := by
      rcases hsg : decide (minOf a l < 0) with _ | _
      · have h0 := hsign.1 hsg
        intro x hx
        have := hall x hx
        obtain ⟨_ | _, b⟩ := s
        · exact this
        · exact holds_unsigned b x this (h0 x hx)
      · intro x hx
        obtain ⟨_ | _, b⟩ := s
        · have : ∀ y ∈ a :: l, 0 ≤ y := fun y hy => by
            have := hall y hy
            simp only [Holds, Bool.false_eq_true, if_false] at this
            exact this.1
          rw [hsign.2 this] at hsg; cases hsg
        · exact hall x hx
    rw [← inIntBounds_iff] at hw
    have hn : s.bits ∉ pre := fun hp => by rw [h5 _ hp] at hw; cases hw
    have hs' : s.bits ∈ [8, 16, 32, 64] := hs
    rw [h4] at hs'
    have hsorted : ([8, 16, 32, 64] : List Nat).Pairwise (· ≤ ·) := by decide
    rw [h4] at hsorted
    rcases List.mem_append.1 hs' with h | h
    · exact absurd h hn
    · rcases List.mem_cons.1 h with h | h
      · exact Nat.le_of_eq h.symm
      · exact (List.pairwise_cons.1 (List.pairwise_append.1 hsorted).2.1).1 _ h

/-- An empty array raises `ValueError`. -/
theorem C66_empty : downcastInt [] = .error .valueError := rfl

/-- The hypotheses are met: `uint8` for `0` and `255`, `int16` for `-129`, `uint64` for the largest unsigned value. -/
example : downcastInt [0, 255, 7] = .ok (⟨false, 8⟩, [0, 255, 7]) := rfl
example : downcastInt [3, -129] = .ok (⟨true, 16⟩, [3, -129]) := rfl
example : downcastInt [2 ^ 64 - 1] = .ok (⟨false, 64⟩, [2 ^ 64 - 1]) := rfl
example : downcastInt [-2 ^ 63, 2 ^ 63 - 1] = .ok (⟨true, 64⟩, [-2 ^ 63, 2 ^ 63 - 1]) := rfl
example : (∀ x ∈ ([-129, 3] : List Int), Holds ⟨true, 64⟩ x) := by
  intro x hx; simp only [List.mem_cons, List.not_mem_nil, or_false] at hx
  rcases hx with rfl | rfl <;> simp [Holds]

/-! ## C67 -/

variable {E : Type}

/-- Spec: the dtypes worth trying for an array of `float<bits>`, in order: the integers, if every element is finite, and
the shorter floating-point types. -/
def candidates (bits : Nat) (hasNonfinite : Bool) : List NumType :=
  (if hasNonfinite then [] else intWidths.map .uint ++ intWidths.map .int) ++
    ([16, 32, 64, 128].filter (· < bits)).map .float

/-- Spec: the array can be cast to the dtype with these errors, within tolerance. -/
def FitsWith (a : FloatArr E) (atol rtol : E) (t : NumType) (ae re : E) : Prop :=
  a.inBounds t = true ∧ a.cast t = .ok (ae, re) ∧ a.gt ae atol = false ∧ a.gt re rtol = false

/-- Spec: the array can be cast to the dtype within tolerance. -/
def Fits (a : FloatArr E) (atol rtol : E) (t : NumType) : Prop := ∃ ae re, FitsWith a atol rtol t ae re

/-- Spec: no cast to a dtype whose bounds the array is within raises. -/
def NoRaise (a : FloatArr E) : Prop := ∀ t, a.inBounds t = true → ∃ p, a.cast t = .ok p

/-- Spec: the first of the candidates that will do, and if there is none the array as it is. -/
def FirstFit (a : FloatArr E) (atol rtol : E) (r : Downcast E) : Prop :=
  (∃ pre t post ae re, candidates a.bits a.hasNonfinite = pre ++ t :: post ∧ (∀ s ∈ pre, ¬ Fits a atol rtol s) ∧
      FitsWith a atol rtol t ae re ∧ r = .recast t ae re) ∨
    ((∀ s ∈ candidates a.bits a.hasNonfinite, ¬ Fits a atol rtol s) ∧ r = .unchanged a.zero a.zero)

/-- One step of the search. -/
theorem searchTypes_cons (a : FloatArr E) (atol rtol : E) (n : Bool) (t : NumType) (r : List NumType)
    (h1 : t ≠ .float a.bits) (h2 : skipped a.hasNonfinite n t = false) :
    (¬ Fits a atol rtol t ∧ searchTypes a atol rtol n (t :: r) = searchTypes a atol rtol n r) ∨
    (∃ e, a.inBounds t = true ∧ a.cast t = .error e ∧ searchTypes a atol rtol n (t :: r) = .error e) ∨
    (∃ ae re, FitsWith a atol rtol t ae re ∧ searchTypes a atol rtol n (t :: r) =
      if !t.isFloat && a.hasNonfinite then .error .attributeError else .ok (.recast t ae re)) := by
  by_cases hb : a.inBounds t = false
  · left
    refine ⟨?_, ?_⟩
    · rintro ⟨ae, re, h, -⟩; rw [h] at hb; cases hb
    · rw [searchTypes, if_neg h1, h2, if_neg (by simp), if_pos hb]
  have hb' : a.inBounds t = true := by simpa using hb
  rcases hc : a.cast t with e | ⟨ae, re⟩
  · right; left
    exact ⟨e, hb', rfl, by rw [searchTypes, if_neg h1, h2, if_neg (by simp), if_neg hb, hc]⟩
  have hs : searchTypes a atol rtol n (t :: r) = if a.gt ae atol then searchTypes a atol rtol n r
      else if a.gt re rtol then searchTypes a atol rtol n r
      else if !t.isFloat && a.hasNonfinite then .error .attributeError else .ok (.recast t ae re) := by
    rw [searchTypes, if_neg h1, h2, if_neg (by simp), if_neg hb, hc]
  have huniq : ∀ ae' re', FitsWith a atol rtol t ae' re' → ae' = ae ∧ re' = re := by
    rintro ae' re' ⟨-, h, -⟩
    rw [hc] at h; cases h; exact ⟨rfl, rfl⟩
  by_cases ha : a.gt ae atol = true
  · left
    refine ⟨?_, by rw [hs, if_pos ha]⟩
    rintro ⟨ae', re', h⟩
    obtain ⟨rfl, rfl⟩ := huniq _ _ h
    rw [h.2.2.1] at ha; cases ha
  by_cases hr : a.gt re rtol = true
  · left
    refine ⟨?_, by rw [hs, if_neg ha, if_pos hr]⟩
    rintro ⟨ae', re', h⟩
    obtain ⟨rfl, rfl⟩ := huniq _ _ h
    rw [h.2.2.2] at hr; cases hr
  · right; right
    exact ⟨ae, re, ⟨hb', hc, by simpa using ha, by simpa using hr⟩, by rw [hs, if_neg ha, if_neg hr]⟩

/-- Spec for the search over a list: first fit in it, or what follows. -/
theorem searchTypes_append (a : FloatArr E) (atol rtol : E) (n : Bool) (l r : List NumType)
    (h1 : ∀ t ∈ l, t ≠ .float a.bits) (h2 : ∀ t ∈ l, skipped a.hasNonfinite n t = false) :
    ((∀ s ∈ l, ¬ Fits a atol rtol s) ∧ searchTypes a atol rtol n (l ++ r) = searchTypes a atol rtol n r) ∨
    (∃ e t, t ∈ l ∧ a.inBounds t = true ∧ a.cast t = .error e ∧ searchTypes a atol rtol n (l ++ r) = .error e) ∨
    (∃ pre t post ae re, l = pre ++ t :: post ∧ (∀ s ∈ pre, ¬ Fits a atol rtol s) ∧ FitsWith a atol rtol t ae re ∧
      searchTypes a atol rtol n (l ++ r) =
        if !t.isFloat && a.hasNonfinite then .error .attributeError else .ok (.recast t ae re)) := by
  induction l with
  | nil => exact .inl ⟨by simp, rfl⟩
  | cons t l ih =>
    rcases searchTypes_cons a atol rtol n t (l ++ r) (h1 t (by simp)) (h2 t (by simp)) with
      ⟨hn, hs⟩ | ⟨e, hb, hc, hs⟩ | ⟨ae, re, hf, hs⟩
    · rcases ih (fun s hs => h1 s (List.mem_cons_of_mem _ hs)) (fun s hs => h2 s (List.mem_cons_of_mem _ hs)) with
        ⟨h, hs'⟩ | ⟨e, u, hu, hb, hc, hs'⟩ | ⟨pre, u, post, ae, re, he, hp, hf, hs'⟩
      · left
        exact ⟨fun s h' => (List.mem_cons.1 h').elim (fun h'' => h'' ▸ hn) (h s), by rw [List.cons_append, hs, hs']⟩
      · right; left
        exact ⟨e, u, List.mem_cons_of_mem _ hu, hb, hc, by rw [List.cons_append, hs, hs']⟩
      · right; right
        refine ⟨t :: pre, u, post, ae, re, by rw [he]; rfl, ?_, hf, by rw [List.cons_append, hs, hs']⟩
        exact fun s h' => (List.mem_cons.1 h').elim (fun h'' => h'' ▸ hn) (hp s)
    · right; left; exact ⟨e, t, by simp, hb, hc, hs⟩
    · right; right; exact ⟨[], t, l, ae, re, rfl, by simp, hf, hs⟩

/-- Spec: what the search passes over without looking at the array. -/
def worthTrying (a : FloatArr E) (n : Bool) (t : NumType) : Bool := decide (t = .float a.bits) || !skipped a.hasNonfinite n t

theorem searchTypes_filter (a : FloatArr E) (atol rtol : E) (n : Bool) (l : List NumType) :
    searchTypes a atol rtol n (l.filter (worthTrying a n)) = searchTypes a atol rtol n l := by
  induction l with
  | nil => rfl
  | cons t l ih =>
    by_cases h : worthTrying a n t = true
    · rw [List.filter_cons_of_pos h]
      simp only [searchTypes, ih]
    · rw [List.filter_cons_of_neg h, ih]
      simp only [worthTrying, Bool.or_eq_true, decide_eq_true_eq, not_or, Bool.not_eq_true', Bool.not_eq_false] at h
      rw [searchTypes, if_neg h.1, if_pos h.2]

theorem searchTypes_stop (a : FloatArr E) (atol rtol : E) (n : Bool) (r : List NumType) :
    searchTypes a atol rtol n (.float a.bits :: r) = .ok (.unchanged a.zero a.zero) := by
  rw [searchTypes, if_pos rfl]

/-- numpy's sizes of floating-point types (and `bool`) -/
def FloatBits (b : Nat) : Prop := b = 8 ∨ b = 16 ∨ b = 32 ∨ b = 64 ∨ b = 128

theorem filter_searchOrder (a : FloatArr E) (hb : FloatBits a.bits) (n : Bool) (hn : n = false ∨ a.hasNonfinite = false) :
    ∃ rest, searchOrder.filter (worthTrying a n) = candidates a.bits a.hasNonfinite ++ .float a.bits :: rest := by
  have hk : skipped a.hasNonfinite n = skipped a.hasNonfinite false := by
    rcases hn with rfl | h
    · rfl
    · rw [h]; funext t; cases t <;> rfl
  have : worthTrying a n = fun t => decide (t = .float a.bits) || !skipped a.hasNonfinite false t := by
    funext t; simp only [worthTrying, hk]
  rw [this]
  generalize a.hasNonfinite = f
  rcases hb with h | h | h | h | h <;> rw [h] <;> cases f
  all_goals exact ⟨_, rfl⟩

theorem candidates_spec (a : FloatArr E) (hb : FloatBits a.bits) (n : Bool) (hn : n = false ∨ a.hasNonfinite = false)
    (t : NumType) (ht : t ∈ candidates a.bits a.hasNonfinite) :
    t ≠ .float a.bits ∧ skipped a.hasNonfinite n t = false ∧ (!t.isFloat && a.hasNonfinite) = false := by
  have hk : skipped a.hasNonfinite n = skipped a.hasNonfinite false := by
    rcases hn with rfl | h
    · rfl
    · rw [h]; funext t; cases t <;> rfl
  rw [hk]
  revert t
  generalize a.hasNonfinite = f
  rcases hb with h | h | h | h | h <;> rw [h] <;> cases f <;> decide

/-- What the search does when nillable integers are not asked for, or not needed: the first fit, unless a cast raises. -/
theorem search_result (a : FloatArr E) (atol rtol : E) (n : Bool) (hb : FloatBits a.bits)
    (hn : n = false ∨ a.hasNonfinite = false) :
    (∃ r, searchTypes a atol rtol n searchOrder = .ok r ∧ FirstFit a atol rtol r) ∨
      ∃ e t, t ∈ candidates a.bits a.hasNonfinite ∧ a.inBounds t = true ∧ a.cast t = .error e ∧
        searchTypes a atol rtol n searchOrder = .error e := by
  obtain ⟨rest, hr⟩ := filter_searchOrder a hb n hn
  rw [← searchTypes_filter, hr]
  rcases searchTypes_append a atol rtol n (candidates a.bits a.hasNonfinite) (.float a.bits :: rest)
    (fun t ht => (candidates_spec a hb n hn t ht).1) (fun t ht => (candidates_spec a hb n hn t ht).2.1) with
    ⟨h, hs⟩ | ⟨e, t, ht, h1, h2, hs⟩ | ⟨pre, t, post, ae, re, he, hp, hf, hs⟩
  · left
    exact ⟨_, by rw [hs, searchTypes_stop], .inr ⟨h, rfl⟩⟩
  · right; exact ⟨e, t, ht, h1, h2, hs⟩
  · left
    refine ⟨_, ?_, .inl ⟨pre, t, post, ae, re, he, hp, hf, rfl⟩⟩
    rw [hs, (candidates_spec a hb n hn t (by rw [he]; simp)).2.2]
    rfl

/-- The full claim: an array with finite elements, not all zero, is cast to the first candidate that fits, and otherwise
keeps its dtype. -/
def C67_full : Prop :=
  ∀ (E : Type) (a : FloatArr E) (atol rtol : E), FloatBits a.bits → a.hasFinite = true →
    (a.hasNonzero = true ∨ a.gt a.zero atol = false ∧ a.gt a.zero rtol = false) →
    ∃ r, downcast a atol rtol false false = .ok r ∧ (a.hasNonzero = true → FirstFit a atol rtol r) ∧
      (a.hasNonzero = false → ∃ t, r = .recast t a.zero a.zero)

/-- **C67, part.** If no cast of the array to a dtype within whose bounds it is raises, an array with finite elements that
are not all zero is cast to the first of the candidates that fits, with the errors reported; if none does it keeps its dtype.
(Missing: the claim is false in general, see `C67_full_false` and `C67_zero_with_nonfinite`.) -/
theorem C67_first_fit_partial (a : FloatArr E) (atol rtol : E) (pandas nillable : Bool) (hb : FloatBits a.bits)
    (hf : a.hasFinite = true) (hz : a.hasNonzero = true) (hp : nillable = true → pandas = true)
    (hn : nillable = false ∨ a.hasNonfinite = false) (hc : NoRaise a) :
    ∃ r, downcast a atol rtol pandas nillable = .ok r ∧ FirstFit a atol rtol r := by
  have hd : downcast a atol rtol pandas nillable = searchTypes a atol rtol nillable searchOrder := by
    unfold downcast
    have : (nillable && !pandas) = false := by
      cases nillable <;> cases pandas <;> simp at hp ⊢
    rw [if_neg (by simp [this]), if_neg (by simp [hf]), if_neg (by simp [hz]), if_neg (by simp [hz]), if_neg (by simp [hz])]
  rcases search_result a atol rtol nillable hb hn with ⟨r, h, hfit⟩ | ⟨e, t, -, h1, h2, -⟩
  · exact ⟨r, hd.trans h, hfit⟩
  · obtain ⟨p, hp⟩ := hc t h1
    rw [hp] at h2; cases h2

/-- **C67, part.** Whatever numpy's casts do, and whatever the options: errors returned for a search that succeeded are within
tolerance, and are those of the dtype returned. -/
theorem C67_within_tolerance (a : FloatArr E) (atol rtol : E) (pandas nillable : Bool) (t : NumType) (ae re : E)
    (hz : a.hasNonzero = true) (h : downcast a atol rtol pandas nillable = .ok (.recast t ae re)) :
    FitsWith a atol rtol t ae re := by
  unfold downcast at h
  split at h
  · cases h
  split at h
  · cases h
  simp only [hz, Bool.not_true, Bool.false_and, Bool.false_eq_true, if_false] at h
  generalize searchOrder = l at h
  induction l with
  | nil => cases h
  | cons u r ih =>
    by_cases h1 : u = .float a.bits
    · rw [h1, searchTypes_stop] at h; cases h
    by_cases h2 : skipped a.hasNonfinite nillable u = true
    · rw [searchTypes, if_neg h1, if_pos h2] at h; exact ih h
    rcases searchTypes_cons a atol rtol nillable u r h1 (by simpa using h2) with
      ⟨-, hs⟩ | ⟨e, -, -, hs⟩ | ⟨ae', re', hf, hs⟩
    · exact ih (hs ▸ h)
    · rw [hs] at h; cases h
    · rw [hs] at h
      split at h
      · cases h
      · cases h; exact hf

/-- An array of zeros becomes `uint8` with no error. -/
theorem C67_zeros (a : FloatArr E) (atol rtol : E) (pandas nillable : Bool) (hf : a.hasFinite = true)
    (hz : a.hasNonzero = false) (hn : a.hasNonfinite = false) (hp : nillable = true → pandas = true) :
    downcast a atol rtol pandas nillable = .ok (.recast (.uint 8) a.zero a.zero) := by
  unfold downcast
  have : (nillable && !pandas) = false := by
    cases nillable <;> cases pandas <;> simp at hp ⊢
  rw [if_neg (by simp [this]), if_neg (by simp [hf]), if_pos (by simp [hz, hn])]

/-- An array without finite elements keeps its dtype. -/
theorem C67_nothing_finite (a : FloatArr E) (atol rtol : E) (pandas nillable : Bool) (hf : a.hasFinite = false)
    (hp : nillable = true → pandas = true) :
    downcast a atol rtol pandas nillable = .ok (.unchanged a.zero a.zero) := by
  unfold downcast
  have : (nillable && !pandas) = false := by
    cases nillable <;> cases pandas <;> simp at hp ⊢
  rw [if_neg (by simp [this]), if_pos (by simp [hf])]

/-- Defect: an array of zeros and NaN is returned as it is, cast, without the dict all other arrays come in. -/
theorem C67_zero_with_nonfinite (a : FloatArr E) (atol rtol : E) (pandas : Bool) (hf : a.hasFinite = true)
    (hz : a.hasNonzero = false) (hn : a.hasNonfinite = true) :
    downcast a atol rtol pandas false = .ok (.bare (.float 16)) := by
  unfold downcast
  rw [if_neg (by simp), if_neg (by simp [hf]), if_neg (by simp [hz, hn]), if_pos (by simp [hz])]

/-- Defect: with `use_nillable_int`, an array with a null that fits any integer dtype makes `downcast` raise: no nillable
integer array is ever returned. -/
theorem C67_nillable_raises (a : FloatArr E) (atol rtol : E) (pandas : Bool) (hf : a.hasFinite = true)
    (hn : a.hasNonfinite = true) (t : NumType) (ae re : E) (ht : t.isFloat = false) :
    downcast a atol rtol pandas true ≠ .ok (.recast t ae re) := by
  intro h
  unfold downcast at h
  split at h
  · cases h
  rw [if_neg (by simp [hf]), if_neg (by simp [hn]), if_neg (by simp)] at h
  split at h
  · cases h
  generalize searchOrder = l at h
  induction l with
  | nil => cases h
  | cons u r ih =>
    by_cases h1 : u = .float a.bits
    · rw [h1, searchTypes_stop] at h; cases h
    by_cases h2 : skipped a.hasNonfinite true u = true
    · rw [searchTypes, if_neg h1, if_pos h2] at h; exact ih h
    rcases searchTypes_cons a atol rtol true u r h1 (by simpa using h2) with
      ⟨-, hs⟩ | ⟨e, -, -, hs⟩ | ⟨ae', re', hf', hs⟩
    · exact ih (hs ▸ h)
    · rw [hs] at h; cases h
    · rw [hs] at h
      split at h
      · cases h
      · rename_i hc
        cases h
        simp [ht, hn] at hc

/-- `np.array([-1., 2. ** 63])`: numpy finds `2. ** 63` within the bounds of `int64`, whose maximum it rounds to `2. ** 63` in
order to compare, and the cast raises `RuntimeWarning`. Both are exact in `float32`. -/
def bigFloats : FloatArr Nat where
  bits := 64
  hasNonfinite := false
  hasFinite := true
  hasNonzero := true
  inBounds
    | .int 64 => true
    | .float b => b == 32
    | _ => false
  cast
    | .int 64 => .error (.user 0)
    | _ => .ok (0, 0)
  gt a b := decide (b < a)
  zero := 0

/-- **C67 is false in general**: an array of `-1.` and `2. ** 63` raises, though `float32` would do. -/
theorem C67_full_false : ¬ C67_full := by
  intro h
  obtain ⟨r, hr, -⟩ := h Nat bigFloats 0 0 (.inr (.inr (.inr (.inl rfl)))) rfl (.inl rfl)
  have : downcast bigFloats 0 0 false false = .error (.user 0) := rfl
  rw [this] at hr; cases hr

/-- the halves `1.5`, `-2.5` as `float64`: in the bounds of the signed types, with an error of a half as integers, and none as
`float16` -/
def halves : FloatArr Nat where
  bits := 64
  hasNonfinite := false
  hasFinite := true
  hasNonzero := true
  inBounds
    | .uint _ => false
    | _ => true
  cast
    | .float _ => .ok (0, 0)
    | _ => .ok (5, 3)
  gt a b := decide (b < a)
  zero := 0

/-- The hypotheses are met; the first candidate that fits is `float16`, and with more tolerance `int8`. -/
example : NoRaise halves ∧ downcast halves 1 1 false false = .ok (.recast (.float 16) 0 0) ∧
    downcast halves 5 3 false false = .ok (.recast (.int 8) 5 3) := by
  refine ⟨?_, rfl, rfl⟩
  intro t h
  cases t <;> exact ⟨_, rfl⟩

end Verif.Props
