import Mathlib.Algebra.Order.Field.Power
import Mathlib.Tactic.Linarith
import Mathlib.Tactic.Ring
import Mathlib.Tactic.Positivity
import Mathlib.Tactic.NormNum
import Mathlib.Tactic.FieldSimp
import Mathlib.Tactic.GCongr
import Verif.Spec.Floats
/-!
# Rounding is to nearest, and errors of casts are exact
-/
namespace Verif.Lemmas
open Verif Verif.Model Verif.Spec

theorem roundEven_close (q : ℚ) : |q - roundEven q| ≤ 1 / 2 := by
  have h1 := Int.floor_le q
  have h2 := Int.lt_floor_add_one q
  unfold roundEven
  split
  · rw [abs_le]; constructor <;> linarith
  · split
    · push_cast; rw [abs_le]; constructor <;> linarith
    · split
      · rw [abs_le]; constructor <;> linarith
      · push_cast; rw [abs_le]; constructor <;> linarith

theorem roundEven_nearest (q : ℚ) (k : ℤ) : |q - roundEven q| ≤ |q - k| := by
  by_cases h : roundEven q = k
  · rw [h]
  have h1 := roundEven_close q
  have h2 : (1 : ℚ) ≤ |(roundEven q : ℚ) - k| := by
    have : (1 : ℤ) ≤ |roundEven q - k| := Int.one_le_abs (sub_ne_zero.2 h)
    exact_mod_cast this
  have h3 : |(roundEven q : ℚ) - k| ≤ |q - k| + |q - roundEven q| := by
    have := abs_sub (q - k) (q - roundEven q)
    calc |(roundEven q : ℚ) - k| = |(q - k) - (q - roundEven q)| := by ring_nf
      _ ≤ _ := this
  linarith

theorem roundEven_le {q : ℚ} {n : ℤ} (h : |q| ≤ n) : |roundEven q| ≤ n := by
  have h1 := roundEven_nearest q n
  have h2 := roundEven_nearest q (-n)
  obtain ⟨h3, h4⟩ := abs_le.1 h
  push_cast at h2
  rw [abs_of_nonpos (show q - n ≤ 0 by linarith)] at h1
  rw [abs_of_nonneg (show 0 ≤ q - -(n : ℚ) by linarith)] at h2
  have h5 := (abs_le.1 h1).1
  have h6 := (abs_le.1 h2).2
  have : |((roundEven q : ℤ) : ℚ)| ≤ n := by rw [abs_le]; constructor <;> linarith
  exact_mod_cast this

theorem roundEven_int (k : ℤ) : roundEven (k : ℚ) = k := by simp [roundEven]

theorem two_zpow_pos (e : ℤ) : (0 : ℚ) < 2 ^ e := by positivity

/-- the error of rounding, in units of the last place -/
theorem round_close (F : Fmt) (q : ℚ) : |q - F.round q| ≤ 2 ^ F.exp q / 2 := by
  have hp := two_zpow_pos (F.exp q)
  have h := roundEven_close (q / 2 ^ F.exp q)
  have : q - F.round q = (q / 2 ^ F.exp q - roundEven (q / 2 ^ F.exp q)) * 2 ^ F.exp q := by
    unfold Fmt.round; field_simp
  rw [this, abs_mul, abs_of_pos hp]
  have := mul_le_mul_of_nonneg_right h hp.le
  linarith

/-- no multiple of the unit of the last place is nearer -/
theorem round_nearest_grid (F : Fmt) (q : ℚ) (k : ℤ) : |q - F.round q| ≤ |q - k * 2 ^ F.exp q| := by
  have hp := two_zpow_pos (F.exp q)
  have h := roundEven_nearest (q / 2 ^ F.exp q) k
  have h1 : q - F.round q = (q / 2 ^ F.exp q - roundEven (q / 2 ^ F.exp q)) * 2 ^ F.exp q := by
    unfold Fmt.round; field_simp
  have h2 : q - k * 2 ^ F.exp q = (q / 2 ^ F.exp q - k) * 2 ^ F.exp q := by field_simp
  rw [h1, h2, abs_mul, abs_mul]
  gcongr

theorem zpow_mul_grid {a b : ℤ} (h : a ≤ b) (m : ℤ) : ∃ k : ℤ, (m : ℚ) * 2 ^ b = k * 2 ^ a := by
  obtain ⟨n, rfl⟩ := Int.le.dest h
  refine ⟨m * 2 ^ n, ?_⟩
  rw [zpow_add₀ (by norm_num)]
  push_cast; rw [zpow_natCast]; ring

/-- a number of the format is a multiple of the unit of the last place near `q`, or farther away than what `q` is rounded to -/
theorem round_grid_or_far (F : Fmt) (hprec : 1 ≤ F.prec) (q r : ℚ) (hr : Rep F r) :
    (∃ k : ℤ, r = k * 2 ^ F.exp q) ∨ |q - F.round q| < |q - r| := by
  obtain ⟨m, e, hm, he, _, rfl⟩ := hr
  by_cases hle : F.exp q ≤ e
  · exact .inl (zpow_mul_grid hle m)
  have hlt : e < F.exp q := by omega
  have hexp : F.exp q = Int.log 2 |q| + 1 - F.prec := by
    unfold Fmt.exp at hlt ⊢
    rcases le_total F.emin (Int.log 2 |q| + 1 - F.prec) with h | h
    · exact max_eq_right h
    · rw [max_eq_left h] at hlt; omega
  by_cases hq : q = 0
  · have : F.round 0 = 0 := by simp [Fmt.round, roundEven]
    rw [hq, this, sub_self, abs_zero]
    by_cases h0 : (m : ℚ) * 2 ^ e = 0
    · exact .inl ⟨0, by rw [h0]; simp⟩
    · exact .inr (abs_pos.2 (by simpa using h0))
  right
  have hlog : (2 : ℚ) ^ (F.exp q + F.prec - 1) ≤ |q| := by
    have := Int.zpow_log_le_self (b := 2) (by norm_num) (abs_pos.2 hq)
    rw [hexp]; norm_num at this ⊢; exact this
  -- the power of two just below `q` is on the grid, between `r` and `q`
  obtain ⟨k, hk⟩ := zpow_mul_grid (show F.exp q ≤ F.exp q + F.prec - 1 by omega) 1
  have hrlt : |(m : ℚ) * 2 ^ e| < 2 ^ (F.exp q + F.prec - 1) := by
    rw [abs_mul, abs_of_pos (two_zpow_pos e)]
    have : |(m : ℚ)| < 2 ^ F.prec := by exact_mod_cast hm
    calc |(m : ℚ)| * 2 ^ e < 2 ^ F.prec * 2 ^ e := by gcongr
      _ = 2 ^ ((F.prec : ℤ) + e) := by rw [zpow_add₀ (by norm_num), zpow_natCast]
      _ ≤ _ := zpow_le_zpow_right₀ (by norm_num) (by omega)
  rcases le_total 0 q with h0 | h0
  · have h1 := round_nearest_grid F q k
    rw [← hk] at h1
    rw [abs_of_nonneg h0] at hlog
    have := (abs_lt.1 hrlt).2
    rw [abs_of_nonneg (show 0 ≤ q - ((1 : ℤ) : ℚ) * 2 ^ (F.exp q + F.prec - 1) by push_cast; linarith)] at h1
    refine h1.trans_lt (lt_of_lt_of_le ?_ (le_abs_self _))
    push_cast; linarith
  · have h1 := round_nearest_grid F q (-k)
    have hk' : ((-k : ℤ) : ℚ) * 2 ^ F.exp q = - (2 ^ (F.exp q + F.prec - 1)) := by
      push_cast; rw [neg_mul, ← hk]; push_cast; ring
    rw [hk'] at h1
    rw [abs_of_nonpos h0] at hlog
    have := (abs_lt.1 hrlt).1
    rw [abs_of_nonpos (show q - -(2 ^ (F.exp q + F.prec - 1)) ≤ 0 by linarith)] at h1
    refine h1.trans_lt (lt_of_lt_of_le ?_ (neg_le_abs _))
    linarith

/-- Rounding gives the nearest number of the format. -/
theorem round_nearest (F : Fmt) (hprec : 1 ≤ F.prec) (q r : ℚ) (hr : Rep F r) : |q - F.round q| ≤ |q - r| := by
  rcases round_grid_or_far F hprec q r hr with ⟨k, rfl⟩ | h
  · exact round_nearest_grid F q k
  · exact h.le

theorem roundEven_tie {q : ℚ} {k : ℤ} (h : |q - k| = |q - roundEven q|) (hk : k ≠ roundEven q) :
    |roundEven q - k| = 1 ∧ ∃ j, roundEven q = 2 * j := by
  have hc := roundEven_close q
  have hone : (1 : ℤ) ≤ |roundEven q - k| := Int.one_le_abs (sub_ne_zero.2 (Ne.symm hk))
  have hle : |(roundEven q : ℚ) - k| ≤ 1 := by
    have := abs_sub_le (roundEven q : ℚ) q k
    rw [abs_sub_comm (roundEven q : ℚ) q, h] at this
    linarith
  have hle' : |roundEven q - k| ≤ 1 := by exact_mod_cast hle
  have heq : |roundEven q - k| = 1 := le_antisymm hle' hone
  refine ⟨heq, ?_⟩
  have hmid : |q - roundEven q| = 1 / 2 := by
    have h1 : |(roundEven q : ℚ) - k| = 1 := by exact_mod_cast heq
    have := abs_sub_le (roundEven q : ℚ) q k
    rw [abs_sub_comm (roundEven q : ℚ) q, h, h1] at this
    linarith
  unfold roundEven at hmid ⊢
  have h1 := Int.floor_le q
  have h2 := Int.lt_floor_add_one q
  by_cases ha : q - ⌊q⌋ < 1 / 2
  · rw [if_pos ha] at hmid
    rw [abs_of_nonneg (by linarith)] at hmid; linarith
  rw [if_neg ha] at hmid ⊢
  by_cases hb : 1 / 2 < q - ⌊q⌋
  · rw [if_pos hb] at hmid
    push_cast at hmid
    rw [abs_of_nonpos (by linarith)] at hmid; linarith
  rw [if_neg hb]
  by_cases he : ⌊q⌋ % 2 = 0
  · rw [if_pos he]; exact ⟨⌊q⌋ / 2, by omega⟩
  · rw [if_neg he]; exact ⟨(⌊q⌋ + 1) / 2, by omega⟩

/-- Of two numbers of the format that are equally near, the even multiple of their distance is taken. -/
theorem round_tie (F : Fmt) (hprec : 1 ≤ F.prec) (q r : ℚ) (hr : Rep F r) (h : |q - r| = |q - F.round q|)
    (hne : r ≠ F.round q) : ∃ j : ℤ, F.round q = 2 * j * |F.round q - r| := by
  rcases round_grid_or_far F hprec q r hr with ⟨k, rfl⟩ | h'
  · have hp := two_zpow_pos (F.exp q)
    have h1 : q - F.round q = (q / 2 ^ F.exp q - roundEven (q / 2 ^ F.exp q)) * 2 ^ F.exp q := by
      unfold Fmt.round; field_simp
    have h2 : q - k * 2 ^ F.exp q = (q / 2 ^ F.exp q - k) * 2 ^ F.exp q := by field_simp
    rw [h1, h2, abs_mul, abs_mul] at h
    have h3 := mul_right_cancel₀ (abs_pos.2 hp.ne').ne' h
    obtain ⟨ha, j, hj⟩ := roundEven_tie h3 (by rintro rfl; exact hne rfl)
    refine ⟨j, ?_⟩
    have h4 : F.round q - k * 2 ^ F.exp q = ((roundEven (q / 2 ^ F.exp q) - k : ℤ) : ℚ) * 2 ^ F.exp q := by
      unfold Fmt.round; push_cast; ring
    rw [h4, abs_mul, abs_of_pos hp]
    have : |((roundEven (q / 2 ^ F.exp q) - k : ℤ) : ℚ)| = 1 := by exact_mod_cast ha
    rw [this, one_mul]
    show (roundEven _ : ℚ) * _ = _
    rw [hj]; push_cast; ring
  · linarith

theorem round_of_rep (F : Fmt) (hprec : 1 ≤ F.prec) {q : ℚ} (h : Rep F q) : F.round q = q := by
  have := round_nearest F hprec q q h
  rw [sub_self, abs_zero] at this
  have := abs_eq_zero.1 (le_antisymm this (abs_nonneg _))
  linarith

/-- Numbers within range are rounded to numbers of the format. -/
theorem round_rep (F : Fmt) (hprec : 1 ≤ F.prec) (hem : F.emin ≤ F.emax) (q : ℚ) (hq : |q| ≤ F.max) : Rep F (F.round q) := by
  by_cases h0 : q = 0
  · subst h0
    exact ⟨0, F.emin, by simp, le_refl _, hem, by simp [Fmt.round, roundEven]⟩
  have hpos := abs_pos.2 h0
  have hl := Int.zpow_log_le_self (b := 2) (by norm_num) hpos
  have hu := Int.lt_zpow_succ_log_self (b := 2) (by norm_num) |q|
  norm_num at hl hu
  have hp := two_zpow_pos (F.exp q)
  have hmax : F.max < 2 ^ (F.prec + F.emax) := by
    rw [Fmt.max, zpow_add₀ (by norm_num), zpow_natCast]
    have := two_zpow_pos F.emax
    nlinarith
  have he : F.exp q ≤ F.emax := by
    unfold Fmt.exp
    refine max_le hem ?_
    have : (2 : ℚ) ^ Int.log 2 |q| < 2 ^ (F.prec + F.emax) := lt_of_le_of_lt (hl.trans hq) hmax
    rw [zpow_lt_zpow_iff_right₀ (by norm_num)] at this
    omega
  have hge : F.emin ≤ F.exp q := le_max_left _ _
  have hb : |q / 2 ^ F.exp q| ≤ 2 ^ F.prec := by
    rw [abs_div, abs_of_pos hp, div_le_iff₀ hp]
    have : (2 : ℚ) ^ (Int.log 2 |q| + 1) ≤ 2 ^ (F.prec + F.exp q) :=
      zpow_le_zpow_right₀ (by norm_num) (by have := le_max_right F.emin (Int.log 2 |q| + 1 - F.prec); unfold Fmt.exp; omega)
    rw [zpow_add₀ (by norm_num) (F.prec : ℤ), zpow_natCast] at this
    linarith
  have hm : |(roundEven (q / 2 ^ F.exp q) : ℤ)| ≤ 2 ^ F.prec := by
    apply roundEven_le; push_cast; exact hb
  rcases lt_or_eq_of_le hm with hm | hm
  · exact ⟨_, _, hm, hge, he, rfl⟩
  -- the number rounds up to a power of two
  by_cases hlast : F.exp q = F.emax
  · exfalso
    have hb' : |q / 2 ^ F.exp q| ≤ 2 ^ F.prec - 1 := by
      rw [abs_div, abs_of_pos hp, div_le_iff₀ hp, hlast]
      exact hq
    have : |roundEven (q / 2 ^ F.exp q)| ≤ 2 ^ F.prec - 1 := by
      apply roundEven_le; push_cast; exact hb'
    omega
  · have hlt : F.exp q + 1 ≤ F.emax := by omega
    obtain ⟨p, hp'⟩ : ∃ p, F.prec = p + 1 := ⟨F.prec - 1, by omega⟩
    have hpow : (2 : ℤ) ^ p < 2 ^ F.prec := by rw [hp', pow_succ]; have : (0:ℤ) < 2 ^ p := by positivity
                                               omega
    have hval : ((2 : ℚ) ^ F.prec) * 2 ^ F.exp q = 2 ^ p * 2 ^ (F.exp q + 1) := by
      rw [zpow_add_one₀ (by norm_num), hp', pow_succ]; ring
    rcases abs_eq (by positivity : (0:ℤ) ≤ 2 ^ F.prec) |>.1 hm with h | h
    · refine ⟨2 ^ p, F.exp q + 1, by rw [abs_of_pos (by positivity)]; exact hpow, by omega, hlt, ?_⟩
      rw [Fmt.round, h]; push_cast; exact hval
    · refine ⟨-2 ^ p, F.exp q + 1, by rw [abs_neg, abs_of_pos (by positivity)]; exact hpow, by omega, hlt, ?_⟩
      rw [Fmt.round, h]; push_cast
      rw [neg_mul, neg_mul, hval]

theorem rep_zero (F : Fmt) (hem : F.emin ≤ F.emax) : Rep F 0 := ⟨0, F.emin, by simp, le_refl _, hem, by simp⟩

/-- a multiple of a number's unit that is not larger than the number -/
theorem rep_of_grid {F : Fmt} {m e k : ℤ} (hm : |m| < 2 ^ F.prec) (h1 : F.emin ≤ e) (h2 : e ≤ F.emax)
    (h : |(k : ℚ) * 2 ^ e| ≤ |(m : ℚ) * 2 ^ e|) : Rep F (k * 2 ^ e) := by
  refine ⟨k, e, lt_of_le_of_lt ?_ hm, h1, h2, rfl⟩
  rw [abs_mul, abs_mul] at h
  have : |(k : ℚ)| ≤ |(m : ℚ)| := le_of_mul_le_mul_right h (abs_pos.2 (two_zpow_pos e).ne')
  exact_mod_cast this

theorem round_le_abs (F : Fmt) (q : ℚ) : |q - F.round q| ≤ |q| := by
  have := round_nearest_grid F q 0
  simpa using this

/-- The error of rounding a number of a format to another, no finer, one is a number of the format. -/
theorem round_sub_rep (F G : Fmt) (hem : F.emin ≤ F.emax) {x : ℚ} (hx : Rep F x) : Rep F (x - G.round x) := by
  obtain ⟨m, e, hm, h1, h2, rfl⟩ := hx
  rcases le_total e (G.exp ((m : ℚ) * 2 ^ e)) with h | h
  · obtain ⟨k, hk⟩ := zpow_mul_grid h (roundEven ((m : ℚ) * 2 ^ e / 2 ^ G.exp ((m : ℚ) * 2 ^ e)))
    have hd : (m : ℚ) * 2 ^ e - G.round (m * 2 ^ e) = ((m - k : ℤ) : ℚ) * 2 ^ e := by
      rw [Fmt.round, hk]; push_cast; ring
    have := round_le_abs G ((m : ℚ) * 2 ^ e)
    rw [hd] at this ⊢
    exact rep_of_grid hm h1 h2 this
  · obtain ⟨k, hk⟩ := zpow_mul_grid h m
    have := round_nearest_grid G ((m : ℚ) * 2 ^ e) k
    rw [← hk, sub_self, abs_zero] at this
    rw [abs_eq_zero.1 (le_antisymm this (abs_nonneg _))]
    exact rep_zero F hem

theorem truncQ_le_abs (q : ℚ) : |q - truncQ q| ≤ |q| := by
  unfold truncQ
  split
  · rename_i h
    have h1 := Int.floor_le q
    have h2 : (0 : ℚ) ≤ ⌊q⌋ := by exact_mod_cast Int.floor_nonneg.2 h
    rw [abs_of_nonneg (by linarith), abs_of_nonneg h]; linarith
  · rename_i h
    have h : q < 0 := not_le.1 h
    have h1 := Int.le_ceil q
    have h2 : ((⌈q⌉ : ℤ) : ℚ) ≤ 0 := by exact_mod_cast Int.ceil_le.2 (by simpa using h.le)
    rw [abs_of_nonpos (by linarith), abs_of_neg h]; linarith

theorem truncQ_int (k : ℤ) : truncQ (k : ℚ) = k := by unfold truncQ; split <;> simp

/-- What is cut off when a number is truncated is a number of the format. -/
theorem trunc_sub_rep (F : Fmt) (hem : F.emin ≤ F.emax) {x : ℚ} (hx : Rep F x) : Rep F (x - truncQ x) := by
  obtain ⟨m, e, hm, h1, h2, rfl⟩ := hx
  rcases le_total 0 e with h | h
  · obtain ⟨k, hk⟩ := zpow_mul_grid h m
    rw [hk, zpow_zero, mul_one, truncQ_int, sub_self]
    exact rep_zero F hem
  · obtain ⟨k, hk⟩ := zpow_mul_grid h (truncQ ((m : ℚ) * 2 ^ e))
    rw [zpow_zero, mul_one] at hk
    have hd : (m : ℚ) * 2 ^ e - truncQ (m * 2 ^ e) = ((m - k : ℤ) : ℚ) * 2 ^ e := by rw [hk]; push_cast; ring
    have := truncQ_le_abs ((m : ℚ) * 2 ^ e)
    rw [hd] at this ⊢
    exact rep_of_grid hm h1 h2 this

/-- how far a quotient can be from its rounding -/
theorem round_rel (F : Fmt) (q : ℚ) : |q| * (1 - 2 ^ (-(F.prec : ℤ))) ≤ |F.round q| + 2 ^ (F.emin - 1) := by
  by_cases h0 : q = 0
  · subst h0
    have := two_zpow_pos (F.emin - 1)
    have := abs_nonneg (F.round 0)
    simp only [abs_zero, zero_mul]; linarith
  have hc := round_close F q
  have hl := Int.zpow_log_le_self (b := 2) (by norm_num) (abs_pos.2 h0)
  norm_num at hl
  have he : (2 : ℚ) ^ F.exp q / 2 ≤ 2 ^ (F.emin - 1) + |q| * 2 ^ (-(F.prec : ℤ)) := by
    have hp1 := two_zpow_pos (F.emin - 1)
    have hp2 := two_zpow_pos (-(F.prec : ℤ))
    unfold Fmt.exp
    rcases le_total F.emin (Int.log 2 |q| + 1 - F.prec) with h | h
    · rw [max_eq_right h]
      have : (2 : ℚ) ^ (Int.log 2 |q| + 1 - F.prec) / 2 = 2 ^ Int.log 2 |q| * 2 ^ (-(F.prec : ℤ)) := by
        rw [← zpow_add₀ (by norm_num), show Int.log 2 |q| + 1 - (F.prec : ℤ) = Int.log 2 |q| + -(F.prec : ℤ) + 1 by ring,
          zpow_add_one₀ (by norm_num)]
        ring
      rw [this]
      have := mul_le_mul_of_nonneg_right hl hp2.le
      linarith
    · rw [max_eq_left h]
      have : (2 : ℚ) ^ F.emin / 2 = 2 ^ (F.emin - 1) := by rw [zpow_sub_one₀ (by norm_num)]; ring
      rw [this]
      have := mul_nonneg (abs_nonneg q) hp2.le
      linarith
  have h3 : |q| ≤ |F.round q| + |q - F.round q| := by
    have := abs_add_le (F.round q) (q - F.round q)
    simpa using this
  linarith

/-! ## Arrays -/

theorem castOne_rep {t : NumType} {x y : ℚ} (hx : Rep f64 x) (h : castOne t x = .ok y) :
    f64.round (x - y) = x - y ∧ |x - y| ≤ |x| := by
  have hf : f64.emin ≤ f64.emax := by decide
  have h1 : 1 ≤ f64.prec := by decide
  have key : (y = truncQ x ∨ ∃ G : Fmt, y = G.round x) ∨ y = x := by
    cases t with
    | uint b => rw [castOne] at h; split at h <;> cases h; exact .inl (.inl rfl)
    | int b => rw [castOne] at h; split at h <;> cases h; exact .inl (.inl rfl)
    | float b =>
      rw [castOne] at h
      split at h
      · split at h <;> cases h; exact .inl (.inr ⟨_, rfl⟩)
      · split at h
        · split at h <;> cases h; exact .inl (.inr ⟨_, rfl⟩)
        · cases h; exact .inr rfl
  rcases key with (rfl | ⟨G, rfl⟩) | rfl
  · exact ⟨round_of_rep f64 h1 (trunc_sub_rep f64 hf hx), truncQ_le_abs x⟩
  · exact ⟨round_of_rep f64 h1 (round_sub_rep f64 G hf hx), round_le_abs G x⟩
  · rw [sub_self]; exact ⟨round_of_rep f64 h1 (rep_zero f64 hf), by simp⟩

theorem round_zero (F : Fmt) : F.round 0 = 0 := by simp [Fmt.round, roundEven]

theorem castOne_zero (t : NumType) : castOne t 0 = .ok 0 := by
  have ht : truncQ 0 = 0 := by simp [truncQ]
  cases t with
  | uint b => rw [castOne, ht, if_pos ⟨le_refl _, by positivity⟩]; simp
  | int b =>
    have : (0 : ℤ) < 2 ^ (b - 1) := by positivity
    rw [castOne, ht, if_pos ⟨by omega, this⟩]; simp
  | float b =>
    have h16 : (0 : ℚ) ≤ f16.max := by unfold Fmt.max f16; norm_num
    have h32 : (0 : ℚ) ≤ f32.max := by unfold Fmt.max f32; norm_num
    rw [castOne]
    split
    · rw [if_pos (by rw [abs_zero]; exact h16), round_zero]
    · split
      · rw [if_pos (by rw [abs_zero]; exact h32), round_zero]
      · rfl

theorem le_maxQ {l : List ℚ} {a : ℚ} (h : a ∈ l) : a ≤ maxQ l := by
  induction l with
  | nil => cases h
  | cons b t ih =>
    rcases List.mem_cons.1 h with rfl | h
    · exact le_max_left _ _
    · exact (ih h).trans (le_max_right _ _)

theorem maxQ_nonneg (l : List ℚ) : 0 ≤ maxQ l := by
  induction l with
  | nil => exact le_refl _
  | cons b t ih => exact ih.trans (le_max_right _ _)

theorem maxQ_mem {l : List ℚ} (h : l ≠ []) (hn : ∀ a ∈ l, 0 ≤ a) : maxQ l ∈ l := by
  induction l with
  | nil => exact absurd rfl h
  | cons b t ih =>
    have hmax : maxQ (b :: t) = Max.max b (maxQ t) := rfl
    rw [hmax]
    by_cases ht : t = []
    · subst ht; rw [show maxQ [] = 0 from rfl, max_eq_left (hn b (by simp))]; simp
    rcases le_total b (maxQ t) with h | h
    · rw [max_eq_right h]; exact List.mem_cons_of_mem _ (ih ht fun a ha => hn a (List.mem_cons_of_mem _ ha))
    · rw [max_eq_left h]; exact List.mem_cons_self ..

end Verif.Lemmas
