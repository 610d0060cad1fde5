import Verif.Lemmas.Floats
import Verif.Props.Pivot
/-!
# C97: how far `downcast` moves the numbers of a `float64` array
-/
namespace Verif.Props
open Verif Verif.Model Verif.Spec Verif.Lemmas

theorem castAll_forall₂ {t : NumType} {l r : List ℚ} (h : castAll t l = .ok r) :
    List.Forall₂ (fun x y => castOne t x = .ok y) l r := by
  unfold castAll at h
  induction l generalizing r with
  | nil => cases h; exact .nil
  | cons a s ih =>
    rw [List.mapM_cons] at h
    rcases ha : castOne t a with e | y
    · rw [ha] at h; cases h
    rcases hs : s.mapM (castOne t) with e | q
    · rw [ha, hs] at h; cases h
    rw [ha, hs] at h; cases h
    exact .cons ha (ih hs)

theorem forall₂_zip {α β : Type} {R : α → β → Prop} {l : List α} {r : List β} (h : List.Forall₂ R l r) {a : α} (ha : a ∈ l) :
    ∃ b, (a, b) ∈ l.zip r ∧ R a b := by
  induction h with
  | nil => cases ha
  | cons h t ih =>
    rcases List.mem_cons.1 ha with rfl | ha
    · exact ⟨_, List.mem_cons_self .., h⟩
    · obtain ⟨b, hb, hr⟩ := ih ha; exact ⟨b, List.mem_cons_of_mem _ hb, hr⟩

/-- zeros are cast to zeros -/
theorem castAll_zeros {t : NumType} (l : List ℚ) {r : List ℚ} (h : castAll t (l.filter (· != 0)) = .ok r) :
    ∃ r', castAll t l = .ok r' ∧ ∀ P : ℚ → ℚ → Prop, P 0 0 → List.Forall₂ P (l.filter (· != 0)) r → List.Forall₂ P l r' := by
  induction l generalizing r with
  | nil => exact ⟨[], rfl, fun P _ _ => .nil⟩
  | cons a s ih =>
    by_cases ha : a = 0
    · subst ha
      rw [List.filter_cons_of_neg (by simp)] at h
      obtain ⟨r', h1, h2⟩ := ih h
      refine ⟨0 :: r', ?_, fun P h0 hP => .cons h0 (h2 P h0 (by rwa [List.filter_cons_of_neg (by simp)] at hP))⟩
      unfold castAll at h1 ⊢
      rw [List.mapM_cons, castOne_zero, h1]; rfl
    · rw [List.filter_cons_of_pos (by simpa using ha)] at h ⊢
      unfold castAll at h
      rw [List.mapM_cons] at h
      rcases hc : castOne t a with e | y
      · rw [hc] at h; cases h
      rcases hs : (s.filter (· != 0)).mapM (castOne t) with e | q
      · rw [hc, hs] at h; cases h
      rw [hc, hs] at h; cases h
      obtain ⟨r', h1, h2⟩ := ih hs
      refine ⟨y :: r', ?_, fun P h0 hP => ?_⟩
      · unfold castAll at h1 ⊢
        rw [List.mapM_cons, hc, h1]; rfl
      · cases hP with
        | cons hay hP => exact .cons hay (h2 P h0 hP)

/-- the errors computed are those there are -/
theorem errors_exact {t : NumType} {l r : List ℚ} (hl : ∀ x ∈ l, Rep f64 x ∧ x ≠ 0) (h : castAll t l = .ok r) :
    Within (errorsOf l r).1 (errorsOf l r).2 l r ∧ (l ≠ [] → ∃ p ∈ l.zip r, |p.1 - p.2| = (errorsOf l r).1) := by
  have hf := castAll_forall₂ h
  have hoff : offsetsOf l r = (l.zip r).map fun p => |p.1 - p.2| := by
    clear h
    unfold offsetsOf
    induction hf with
    | nil => rfl
    | cons hxy _ ih =>
      rw [List.zip_cons_cons, List.map_cons, List.map_cons, ih fun x hx => hl x (List.mem_cons_of_mem _ hx)]
      simp only [(castOne_rep (hl _ (List.mem_cons_self ..)).1 hxy).1]
  constructor
  · have key : ∀ p ∈ (l.zip r), |p.1 - p.2| ≤ (errorsOf l r).1 ∧
        |p.1 - p.2| * (1 - 2 ^ (-53 : ℤ)) ≤ |p.1| * ((errorsOf l r).2 + 2 ^ (-1075 : ℤ)) := by
      intro p hp
      have hpl : p.1 ∈ l := (List.of_mem_zip (a := p.1) (b := p.2) hp).1
      have hx0 := (hl _ hpl).2
      refine ⟨le_maxQ (by rw [hoff]; exact List.mem_map.2 ⟨p, hp, rfl⟩), ?_⟩
      have hz : |f64.round (|p.1 - p.2| / p.1)| ≤ (errorsOf l r).2 := by
        apply le_maxQ
        rw [hoff]
        refine List.mem_map.2 ⟨(|p.1 - p.2|, p.1), ?_, rfl⟩
        clear hl h hf hoff hx0 hpl
        induction l generalizing r with
        | nil => simp at hp
        | cons a s ih =>
          cases r with
          | nil => simp at hp
          | cons b q =>
            simp only [List.zip_cons_cons, List.map_cons, List.mem_cons] at hp ⊢
            rcases hp with rfl | hp
            · exact .inl rfl
            · exact .inr (ih hp)
      have hr := round_rel f64 (|p.1 - p.2| / p.1)
      have e1 : (-(f64.prec : ℤ)) = -53 := rfl
      have e2 : f64.emin - 1 = -1075 := rfl
      rw [e1, e2] at hr
      have h1 : |(|p.1 - p.2| / p.1)| * (1 - 2 ^ (-53 : ℤ)) ≤ (errorsOf l r).2 + 2 ^ (-1075 : ℤ) := hr.trans (by gcongr)
      rw [abs_div, abs_abs] at h1
      have hxp := abs_pos.2 hx0
      have h2 := mul_le_mul_of_nonneg_left h1 hxp.le
      calc |p.1 - p.2| * (1 - 2 ^ (-53 : ℤ)) = |p.1| * (|p.1 - p.2| / |p.1| * (1 - 2 ^ (-53 : ℤ))) := by field_simp
        _ ≤ _ := h2
    unfold Within
    rw [List.forall₂_iff_zip]
    exact ⟨hf.length_eq, fun hm => key (_, _) hm⟩
  · intro hne
    have hne' : offsetsOf l r ≠ [] := by
      rw [hoff]
      cases hf with
      | nil => exact absurd rfl hne
      | cons _ _ => simp
    have := maxQ_mem hne' (by rw [hoff]; intro a ha; obtain ⟨p, _, rfl⟩ := List.mem_map.1 ha; exact abs_nonneg _)
    rw [hoff] at this
    obtain ⟨p, hp, he⟩ := List.mem_map.1 this
    refine ⟨p, hp, ?_⟩
    rw [he]
    show _ = maxQ (offsetsOf l r)
    rw [hoff]

/-- C97: if `downcast` returns a `float64` array (finite elements `l`) cast to another dtype, with errors `ae` and `re`, then
each element of the returned array is within `ae` of the element given, and `ae` is attained: the absolute error reported is
exact, though it has been computed with rounding. Relative errors are at most `re` but for the rounding of one quotient. Both are
within the tolerances if an element is not zero; else they are zero. -/
theorem C97_errors_reported (l : List ℚ) (hl : ∀ x ∈ l, Rep f64 x) (nonfinite : Bool) (inBounds : NumType → Bool)
    (atol rtol : ℚ) (pandas nillable : Bool) (t : NumType) (ae re : ℚ)
    (h : downcast (f64Arr l nonfinite inBounds) atol rtol pandas nillable = .ok (.recast t ae re)) :
    ∃ r, castAll t l = .ok r ∧ Within ae re l r ∧ (∃ p ∈ l.zip r, |p.1 - p.2| = ae) ∧
      ((∃ x ∈ l, x ≠ 0) → ae ≤ atol ∧ re ≤ rtol) ∧ ((∀ x ∈ l, x = 0) → ae = 0 ∧ re = 0) := by
  have hne : l ≠ [] := by
    rintro rfl
    unfold downcast at h
    split at h
    · cases h
    rw [if_pos (by rfl)] at h; cases h
  by_cases hz : ∃ x ∈ l, x ≠ 0
  · have hnz : (f64Arr l nonfinite inBounds).hasNonzero = true := by
      show l.any (· != 0) = true
      rw [List.any_eq_true]; obtain ⟨x, hx, h0⟩ := hz; exact ⟨x, hx, by simpa using h0⟩
    obtain ⟨_, hc, ha, hr⟩ := C67_within_tolerance _ atol rtol pandas nillable t ae re hnz h
    have hc : (match castAll t (l.filter (· != 0)) with
      | .error e => .error e
      | .ok r => .ok (errorsOf (l.filter (· != 0)) r)) = Except.ok (ae, re) := hc
    rcases hcast : castAll t (l.filter (· != 0)) with e | r
    · rw [hcast] at hc; cases hc
    rw [hcast] at hc
    injection hc with hc
    have hnzl : ∀ x ∈ l.filter (· != 0), Rep f64 x ∧ x ≠ 0 := fun x hx =>
      ⟨hl x (List.mem_filter.1 hx).1, by simpa using (List.mem_filter.1 hx).2⟩
    obtain ⟨hw, hatt⟩ := errors_exact hnzl hcast
    rw [hc] at hw hatt
    obtain ⟨r', hr', hP⟩ := castAll_zeros l hcast
    have hae : 0 ≤ ae := by have := maxQ_nonneg (offsetsOf (l.filter (· != 0)) r); rw [errorsOf, Prod.mk.injEq] at hc; rw [← hc.1]; exact this
    obtain ⟨p, hp, hpe⟩ := hatt (by
      obtain ⟨x, hx, h0⟩ := hz
      intro hnil
      have : x ∈ l.filter (· != 0) := List.mem_filter.2 ⟨hx, by simpa using h0⟩
      rw [hnil] at this; cases this)
    refine ⟨r', hr', hP _ ⟨by simpa using hae, by simp⟩ hw, ⟨p, ?_, hpe⟩,
      fun _ => ⟨by simpa [f64Arr] using ha, by simpa [f64Arr] using hr⟩,
      fun hall => absurd hz (by rintro ⟨x, hx, h0⟩; exact h0 (hall x hx))⟩
    have hp0 : castOne t p.1 = .ok p.2 := (List.forall₂_iff_zip.1 (castAll_forall₂ hcast)).2 hp
    have hpl : p.1 ∈ l := (List.mem_filter.1 (List.of_mem_zip (a := p.1) (b := p.2) hp).1).1
    obtain ⟨y, hy, hc'⟩ := forall₂_zip (castAll_forall₂ hr') hpl
    rw [hp0] at hc'
    cases hc'
    exact hy
  · have hall : ∀ x ∈ l, x = 0 := fun x hx => by
      by_contra h0; exact hz ⟨x, hx, h0⟩
    have hnz : (f64Arr l nonfinite inBounds).hasNonzero = false := by
      show l.any (· != 0) = false
      rw [List.any_eq_false]; intro x hx; simpa using hall x hx
    have hrep : t = .uint 8 ∧ ae = 0 ∧ re = 0 := by
      unfold downcast at h
      split at h
      · cases h
      split at h
      · cases h
      split at h
      · cases h; exact ⟨rfl, rfl, rfl⟩
      split at h
      · cases h
      rw [if_pos (by simp [hnz])] at h; cases h
    obtain ⟨rfl, rfl, rfl⟩ := hrep
    have hfil : l.filter (· != 0) = [] := by
      rw [List.filter_eq_nil_iff]; intro x hx; simpa using hall x hx
    obtain ⟨r, hr, hP⟩ := castAll_zeros (t := .uint 8) l (r := []) (by rw [hfil]; rfl)
    have hfz : List.Forall₂ (fun x y : ℚ => x = 0 ∧ y = 0) l r := hP _ ⟨rfl, rfl⟩ (by rw [hfil]; exact .nil)
    refine ⟨r, hr, hfz.imp ?_, ?_, fun h => absurd h hz, fun _ => ⟨rfl, rfl⟩⟩
    · rintro x y ⟨rfl, rfl⟩; simp
    · clear h
      cases hfz with
      | nil => exact absurd rfl hne
      | cons h _ => obtain ⟨rfl, rfl⟩ := h; exact ⟨(0, 0), List.mem_cons_self .., by simp⟩

/-- With tolerances of zero the values do not change at all. -/
theorem C97_lossless (l : List ℚ) (hl : ∀ x ∈ l, Rep f64 x) (nonfinite : Bool) (inBounds : NumType → Bool)
    (rtol : ℚ) (pandas nillable : Bool) (t : NumType) (ae re : ℚ)
    (h : downcast (f64Arr l nonfinite inBounds) 0 rtol pandas nillable = .ok (.recast t ae re)) : castAll t l = .ok l := by
  obtain ⟨r, hr, hw, hatt, h1, h2⟩ := C97_errors_reported l hl nonfinite inBounds 0 rtol pandas nillable t ae re h
  have hae : ae ≤ 0 := by
    by_cases hz : ∃ x ∈ l, x ≠ 0
    · exact (h1 hz).1
    · exact (h2 fun x hx => by by_contra h0; exact hz ⟨x, hx, h0⟩).1.le
  have : l = r := by
    clear h hr h1 h2 hl hatt
    unfold Within at hw
    induction hw with
    | nil => rfl
    | cons hxy _ ih =>
      have := abs_eq_zero.1 (le_antisymm (hxy.1.trans hae) (abs_nonneg _))
      rw [ih, sub_eq_zero.1 this]
  rw [hr, this]

/-- The format of a dtype. -/
def fmtOf (b : Nat) : Fmt := if b = 16 then f16 else if b = 32 then f32 else f64

/-- What casts do: an integer dtype gets the integer between the number and zero that is nearest to the number; a float dtype gets
the nearest number of its format, and where two are equally near the one that is an even multiple of their distance. -/
theorem C97_cast_nearest (x : ℚ) (t : NumType) (ht : t ∈ candidates 64 false) (y : ℚ) (h : castOne t x = .ok y) :
    (t.isFloat = false → ∃ k : ℤ, y = k ∧ |x - y| < 1 ∧ |y| ≤ |x| ∧ 0 ≤ x * y) ∧
    (∀ b, t = .float b → Rep (fmtOf b) y ∧ ∀ z, Rep (fmtOf b) z → |x - y| ≤ |x - z| ∧
      (|x - z| = |x - y| → z ≠ y → ∃ j : ℤ, y = 2 * j * |y - z|)) := by
  have htr : |x - truncQ x| < 1 ∧ |(truncQ x : ℚ)| ≤ |x| ∧ 0 ≤ x * truncQ x := by
    unfold truncQ
    split
    · rename_i h0
      have h1 := Int.floor_le x
      have h2 := Int.lt_floor_add_one x
      have h3 : (0 : ℚ) ≤ ⌊x⌋ := by exact_mod_cast Int.floor_nonneg.2 h0
      rw [abs_of_nonneg (by linarith), abs_of_nonneg h3, abs_of_nonneg h0]
      exact ⟨by linarith, h1, mul_nonneg h0 h3⟩
    · rename_i h0
      push Not at h0
      have h1 := Int.le_ceil x
      have h2 := Int.ceil_lt_add_one x
      have h3 : (⌈x⌉ : ℚ) ≤ 0 := by exact_mod_cast Int.ceil_nonpos.2 h0.le
      rw [abs_of_nonpos (by linarith), abs_of_nonpos h3, abs_of_nonpos h0.le]
      exact ⟨by linarith, by linarith, mul_nonneg_of_nonpos_of_nonpos h0.le h3⟩
  constructor
  · intro hi
    have : y = truncQ x := by
      cases t with
      | uint b => rw [castOne] at h; split at h <;> cases h; rfl
      | int b => rw [castOne] at h; split at h <;> cases h; rfl
      | float b => cases hi
    subst this
    exact ⟨_, rfl, htr⟩
  · rintro b rfl
    have hb : b = 16 ∨ b = 32 := by
      simp [candidates, intWidths] at ht; omega
    have key : ∀ F : Fmt, 1 ≤ F.prec → F.emin ≤ F.emax → |x| ≤ F.max → y = F.round x → Rep F y ∧ ∀ z, Rep F z → |x - y| ≤ |x - z| ∧
        (|x - z| = |x - y| → z ≠ y → ∃ j : ℤ, y = 2 * j * |y - z|) := by
      rintro F hp he hm rfl
      exact ⟨round_rep F hp he x hm, fun z hz => ⟨round_nearest F hp x z hz, round_tie F hp x z hz⟩⟩
    rcases hb with rfl | rfl
    · rw [castOne, if_pos rfl] at h
      split at h <;> cases h
      exact key f16 (by decide) (by decide) ‹_› rfl
    · rw [castOne, if_neg (by decide), if_pos rfl] at h
      split at h <;> cases h
      exact key f32 (by decide) (by decide) ‹_› rfl

/-- 2049 is halfway between 2048 and 2050, the `float16` numbers next to it; 2048 = 1024 * 2 is taken -/
example : castOne (.float 16) 2049 = .ok 2048 ∧ ∃ j : ℤ, (2048 : ℚ) = 2 * j * |(2048 : ℚ) - 2050| := by
  have h : castOne (.float 16) 2049 = .ok 2048 := by decide +kernel
  refine ⟨h, ?_⟩
  obtain ⟨_, h2⟩ := C97_cast_nearest 2049 (.float 16) (by decide) 2048 h
  exact ((h2 16 rfl).2 2050 ⟨1025, 1, by decide, by decide, by decide, by norm_num⟩).2 (by norm_num) (by norm_num)

/-- how bounds are compared where no rounding matters (pivot.py:148-155) -/
def plainBounds (l : List ℚ) : NumType → Bool
  | .uint b => l.all fun x => decide (0 ≤ x ∧ x ≤ 2 ^ b - 1)
  | .int b => l.all fun x => decide (-(2 ^ (b - 1)) ≤ x ∧ x ≤ 2 ^ (b - 1) - 1)
  | .float b => l.all fun x => decide (|x| ≤ if b = 16 then f16.max else if b = 32 then f32.max else f64.max)

/-- `[0.0, 1.5, -3.0]` goes to `float16` without loss -/
example : downcast (f64Arr [0, 3 / 2, -3] false (plainBounds [0, 3 / 2, -3])) 0 0 false false =
    .ok (.recast (.float 16) 0 0) := by decide +kernel

/-- so C97 says: cast to `float16`, the array is the same -/
example : castAll (.float 16) [0, 3 / 2, -3] = .ok [0, 3 / 2, -3] :=
  C97_lossless [0, 3 / 2, -3] (by
    intro x hx
    simp only [List.mem_cons, List.not_mem_nil, or_false] at hx
    rcases hx with rfl | rfl | rfl
    · exact ⟨0, 0, by decide, by decide, by decide, by norm_num⟩
    · exact ⟨3, -1, by decide, by decide, by decide, by norm_num⟩
    · exact ⟨-3, 0, by decide, by decide, by decide, by norm_num⟩) false (plainBounds [0, 3 / 2, -3]) 0 false false _ 0 0
    (by decide +kernel)

/-- 0.1 (as a `float64`) goes to `float32` with tolerance 1e-8, and the error reported is the exact one -/
def tenth : ℚ := 3602879701896397 * 2 ^ (-55 : ℤ)

theorem tenth_rep : Rep f64 tenth := ⟨3602879701896397, -55, by decide, by decide, by decide, by unfold tenth; push_cast; rfl⟩

example : ∃ ae re r, downcast (f64Arr [tenth, 0] false (plainBounds [tenth, 0])) (1 / 10 ^ 8) 1 false false =
    .ok (.recast (.float 32) ae re) ∧ castAll (.float 32) [tenth, 0] = .ok r ∧ Within ae re [tenth, 0] r ∧ ae ≤ 1 / 10 ^ 8 := by
  have h : downcast (f64Arr [tenth, 0] false (plainBounds [tenth, 0])) (1 / 10 ^ 8) 1 false false =
    .ok (.recast (.float 32) (errorsOf [tenth] [f32.round tenth]).1 (errorsOf [tenth] [f32.round tenth]).2) := by decide +kernel
  obtain ⟨r, h1, h2, _, h3, _⟩ := C97_errors_reported [tenth, 0] (by
    intro x hx
    simp only [List.mem_cons, List.not_mem_nil, or_false] at hx
    rcases hx with rfl | rfl
    · exact tenth_rep
    · exact rep_zero f64 (by decide)) false _ _ _ false false _ _ _ h
  exact ⟨_, _, r, h, h1, h2, (h3 ⟨tenth, by simp, by decide +kernel⟩).1⟩

/-- bytes of an element -/
def bytesOf : NumType → Nat
  | .uint b => b / 8
  | .int b => b / 8
  | .float b => b / 8

/-- The claim that a dtype of the fewest bytes is chosen. -/
def C97_smallest_full : Prop :=
  ∀ (l : List ℚ) (t u : NumType) (ae re : ℚ), (∀ x ∈ l, Rep f64 x) →
    downcast (f64Arr l false (plainBounds l)) 0 0 false false = .ok (.recast t ae re) →
    u ∈ candidates 64 false → Fits (f64Arr l false (plainBounds l)) 0 0 u → bytesOf t ≤ bytesOf u

/-- `u`, `i` or `f` (`dtype.kind`) -/
def kindOf : NumType → Char
  | .uint _ => 'u'
  | .int _ => 'i'
  | .float _ => 'f'

/-- What holds: of the dtypes of the same kind that will do, the one chosen has the fewest bytes. (Missing: dtypes of other kinds,
see `C97_smallest_full_false`.) -/
theorem C97_smallest_partial (l : List ℚ) (nonfinite : Bool) (inBounds : NumType → Bool) (atol rtol : ℚ) (pandas : Bool)
    (t u : NumType) (ae re : ℚ)
    (h : downcast (f64Arr l nonfinite inBounds) atol rtol pandas false = .ok (.recast t ae re))
    (hu : u ∈ candidates 64 nonfinite) (hk : kindOf t = kindOf u)
    (hfit : Fits (f64Arr l nonfinite inBounds) atol rtol u) : bytesOf t ≤ bytesOf u := by
  have hone : ∀ u ∈ candidates 64 nonfinite, 1 ≤ bytesOf u := by cases nonfinite <;> decide
  have key : FirstFit (f64Arr l nonfinite inBounds) atol rtol (.recast t ae re) ∨ t = .uint 8 := by
    unfold downcast at h
    rw [if_neg (by simp)] at h
    split at h
    · cases h
    split at h
    · cases h; exact .inr rfl
    split at h
    · cases h
    split at h
    · cases h
    rcases search_result (f64Arr l nonfinite inBounds) atol rtol false (.inr (.inr (.inr (.inl rfl)))) (.inl rfl) with
      ⟨r, h1, h2⟩ | ⟨e, _, _, _, _, h1⟩
    · rw [h1] at h; cases h; exact .inl h2
    · rw [h1] at h; cases h
  rcases key with (⟨pre, t', post, ae', re', hc, hpre, -, ht⟩ | ⟨_, ht⟩) | rfl
  · cases ht
    have hs : List.Pairwise (fun s s' => kindOf s = kindOf s' → bytesOf s ≤ bytesOf s') (candidates 64 nonfinite) := by
      cases nonfinite <;> decide
    have hc : candidates 64 nonfinite = pre ++ t :: post := hc
    rw [hc] at hs hu
    rcases List.mem_append.1 hu with hu | hu
    · exact absurd hfit (hpre u hu)
    · rcases List.mem_cons.1 hu with rfl | hu
      · exact le_rfl
      · exact List.rel_of_pairwise_cons (List.pairwise_append.1 hs).2.1 hu hk
  · cases ht
  · exact hone u hu

/-- 300 goes to `uint16`, though `uint32` will do too -/
example : bytesOf (.uint 16) ≤ bytesOf (.uint 32) :=
  C97_smallest_partial [300] false (plainBounds [300]) 0 0 false (.uint 16) (.uint 32) 0 0 (by decide +kernel) (by decide) rfl
    ⟨0, 0, by decide +kernel, by decide +kernel, by decide +kernel, by decide +kernel⟩

/-- **False**: 2 ^ 40 becomes a `uint64`, of eight bytes as before, though it is a `float32`. -/
theorem C97_smallest_full_false : ¬ C97_smallest_full := by
  intro h
  have := h [2 ^ 40] (.uint 64) (.float 32) 0 0 (by
    intro x hx
    rw [List.mem_singleton.1 hx]
    exact ⟨1, 40, by decide, by decide, by decide, by norm_num⟩) (by decide +kernel) (by decide)
    ⟨0, 0, by decide +kernel, by decide +kernel, by decide +kernel, by decide +kernel⟩
  exact absurd this (by decide)

end Verif.Props
