import Verif.Model.Ast
import Verif.Spec.Ast
import Verif.Lemmas.JsonStr
/-! # Python's strings and numbers, written and read -/
namespace Verif.Lemmas
open Verif Verif.Model Verif.Spec
variable {F : Type} {E : PyLits F}

/-- what comes after an expression: nothing, `,` `:` or a closing bracket -/
def Ends (t : Text) : Prop := ∀ c r, t = c :: r → c = 44 ∨ c = 58 ∨ c = 93 ∨ c = 41 ∨ c = 125

theorem ends_nil : Ends [] := by intro c r h; cases h

theorem ends_cons {c : Nat} (r : Text) (h : c = 44 ∨ c = 58 ∨ c = 93 ∨ c = 41 ∨ c = 125) : Ends (c :: r) := by
  intro c' r' e; cases e; exact h

theorem Ends.stops {t : Text} (h : Ends t) : Stops t := by
  intro c r e
  rcases h c r e with rfl | rfl | rfl | rfl | rfl <;> decide

/-! ## strings -/

theorem xXX_hex2 {n : Nat} (h : n < 256) (r : Text) : xXX (hex2 n ++ r) = some (n, r) := by
  simp only [hex2, List.cons_append, List.nil_append, xXX, hexVal_hexDigit (Nat.mod_lt _ (by omega : 16 > 0)),
    Option.bind_eq_bind, Option.bind_some, Option.some.injEq, Prod.mk.injEq, and_true]
  omega

theorem unescape_escChar {p : Nat → Bool} {bytes : Bool} {q c : Nat} (hq : q = 39 ∨ q = 34) (hc : c < 0x110000)
    (hb : bytes = true → c < 256 ∧ p c = false) (f : Nat) (r : Text) :
    unescape bytes q (f + 1) (escChar p q c ++ r) = (unescape bytes q f r).map fun x => (c :: x.1, x.2) := by
  have hq92 : ¬ 92 = q := by omega
  unfold escChar
  by_cases h1 : c = q ∨ c = 92
  · rw [if_pos h1]
    have : c = 92 ∨ c = 39 ∨ c = 34 := by omega
    simp only [List.cons_append, List.nil_append, unescape, if_neg hq92, if_true, if_pos this]
  rw [if_neg h1]
  by_cases h2 : c = 9
  · subst h2; simp [unescape, hq92]
  rw [if_neg h2]
  by_cases h3 : c = 10
  · subst h3; simp [unescape, hq92]
  rw [if_neg h3]
  by_cases h4 : c = 13
  · subst h4; simp [unescape, hq92]
  rw [if_neg h4]
  by_cases h5 : c < 32 ∨ c = 127
  · rw [if_pos h5]
    simp only [List.cons_append, unescape, if_neg hq92, if_true, xXX_hex2 (show c < 256 by omega)]
    simp
  rw [if_neg h5]
  have hcq : ¬ c = q := fun e => h1 (Or.inl e)
  have hc92 : ¬ c = 92 := fun e => h1 (Or.inr e)
  by_cases h6 : c < 127
  · rw [if_pos h6]
    have : ¬ (c < 32 ∨ c = 127 ∨ bytes = true ∧ 127 < c) := by omega
    simp only [List.cons_append, List.nil_append, unescape, if_neg hcq, if_neg hc92, if_neg this]
  rw [if_neg h6]
  by_cases h7 : p c = true
  · rw [if_pos h7]
    have hbf : bytes = false := by
      cases bytes with
      | false => rfl
      | true => rw [(hb rfl).2] at h7; cases h7
    have : ¬ (c < 32 ∨ c = 127 ∨ bytes = true ∧ 127 < c) := by
      rw [hbf]; simp; omega
    simp only [List.cons_append, List.nil_append, unescape, if_neg hcq, if_neg hc92, if_neg this]
  rw [if_neg h7]
  by_cases h8 : c < 256
  · rw [if_pos h8]
    simp only [List.cons_append, unescape, if_neg hq92, if_true, xXX_hex2 h8]
    simp
  rw [if_neg h8]
  have hbf : bytes = false := by
    cases bytes with
    | false => rfl
    | true => exact absurd (hb rfl).1 h8
  subst hbf
  by_cases h9 : c < 65536
  · rw [if_pos h9]
    simp only [List.cons_append, unescape, if_neg hq92, if_true, uXXXX_hex4 h9]
    simp
  rw [if_neg h9]
  have e : c / 65536 * 65536 + c % 65536 = c := by omega
  simp only [List.cons_append, List.append_assoc, unescape, if_neg hq92, if_true, uXXXX_hex4 (show c / 65536 < 65536 by omega),
    uXXXX_hex4 (show c % 65536 < 65536 by omega), e, hc]
  simp

theorem unescape_text {p : Nat → Bool} {bytes : Bool} {q : Nat} (hq : q = 39 ∨ q = 34) (r : Text) : ∀ (s : Text) (f : Nat),
    TextOK s → (bytes = true → ∀ c ∈ s, c < 256 ∧ p c = false) → s.length < f →
    unescape bytes q f (s.flatMap (escChar p q) ++ (q :: r)) = some (s, r)
  | [], f + 1, _, _, _ => by simp [unescape]
  | c :: s, f + 1, hs, hb, hf => by
    rw [List.flatMap_cons, List.append_assoc, unescape_escChar hq (hs c (by simp)) (fun h => hb h c (by simp)),
      unescape_text hq r s f (fun x hx => hs x (by simp [hx])) (fun h x hx => hb h x (by simp [hx]))
        (by simp only [List.length_cons] at hf; omega)]
    rfl
  | _, 0, _, _, hf => by omega

theorem escChar_head (p : Nat → Bool) {q : Nat} (hq : q = 39 ∨ q = 34) (c : Nat) : ∃ d r, escChar p q c = d :: r ∧ d ≠ q := by
  have hq92 : ¬ 92 = q := by omega
  unfold escChar
  by_cases h1 : c = q ∨ c = 92
  · rw [if_pos h1]; exact ⟨_, _, rfl, hq92⟩
  rw [if_neg h1]
  have hcq : ¬ c = q := fun e => h1 (Or.inl e)
  repeat' split
  all_goals first | exact ⟨_, _, rfl, hq92⟩ | exact ⟨_, _, rfl, hcq⟩

theorem escChar_len (p : Nat → Bool) {q : Nat} (hq : q = 39 ∨ q = 34) (c : Nat) : 1 ≤ (escChar p q c).length := by
  obtain ⟨d, r, e, _⟩ := escChar_head p hq c
  simp [e]

theorem flatMap_len (p : Nat → Bool) {q : Nat} (hq : q = 39 ∨ q = 34) (s : Text) : s.length ≤ (s.flatMap (escChar p q)).length := by
  induction s with
  | nil => simp
  | cons c s ih =>
    have := escChar_len p hq c
    rw [List.flatMap_cons, List.length_append, List.length_cons]
    omega

theorem quoteOf_cases (s : Text) : quoteOf s = 39 ∨ quoteOf s = 34 := by
  unfold quoteOf; split <;> simp

theorem parseStr_text {p : Nat → Bool} {bytes : Bool} {q : Nat} (hq : q = 39 ∨ q = 34) {s r : Text} (hs : TextOK s)
    (hb : bytes = true → ∀ c ∈ s, c < 256 ∧ p c = false) (hr : Ends r) :
    parseStr bytes q (s.flatMap (escChar p q) ++ (q :: r)) = some (s, r) := by
  unfold parseStr
  rw [if_neg, unescape_text hq r s _ hs hb]
  · have := flatMap_len p hq s
    simp only [List.length_append, List.length_cons]
    omega
  · intro h
    cases s with
    | nil =>
      cases r with
      | nil => simp at h
      | cons d r =>
        simp at h
        have := hr d r rfl
        omega
    | cons c s =>
      obtain ⟨d, t, e, hd⟩ := escChar_head p hq c
      rw [List.flatMap_cons, e] at h
      simp at h
      exact hd h.1

/-! ## numbers -/

theorem digit_of_intText {t : Text} (h : IntText t) : ∃ c d, t = c :: d ∧ isDigit c = true := by
  obtain ⟨c, d, e, h1, h2⟩ := intText_head h
  exact ⟨c, d, e, by simp [isDigit, h1, h2]⟩

theorem parseNumber_int {n : Nat} (h : Short E.digits (n : Int)) {r : Text} (hr : Stops r) :
    parseNumber E (decNat n ++ r) = some (.int n, r) := by
  have h1 : scanInt (decNat n ++ r) = some (decNat n, r) := scanInt_text (Or.inl rfl) (decNat_intText n) hr.noDigit
  have h2 : scanFrac r = ([], r) := scanFrac_none fun c r' e => (hr c r' e).2.1
  have h3 : scanExp r = ([], r) := scanExp_none fun c r' e => ⟨(hr c r' e).2.2.1, (hr c r' e).2.2.2⟩
  have h4 : ¬ (E.digits ≠ 0 ∧ E.digits < (decNat n).length) := by
    unfold Short at h
    simp only [Int.natAbs_natCast] at h
    omega
  simp only [parseNumber, h1, h2, h3, h4, textNat_decNat]
  simp

/-- a float's text without its minus -/
def Unsigned (t : Text) : Prop :=
  ∃ int frac exp : Text, t = int ++ (frac ++ exp) ∧ IntText int ∧
    (frac = [] ∨ ∃ d, frac = 46 :: d ∧ d ≠ [] ∧ ∀ x ∈ d, isDigit x = true) ∧
    (exp = [] ∨ ∃ e sg d, exp = e :: (sg ++ d) ∧ (e = 101 ∨ e = 69) ∧ (sg = [] ∨ sg = [43] ∨ sg = [45]) ∧ d ≠ [] ∧
      ∀ x ∈ d, isDigit x = true) ∧
    (frac ≠ [] ∨ exp ≠ [])

theorem unsigned_of_float {t : Text} (h : IsFloatText t) : Unsigned t ∧ t.head? ≠ some 45 ∨ ∃ u, t = 45 :: u ∧ Unsigned u := by
  obtain ⟨neg, int, frac, exp, rfl, hn, hi, hf, he, hfe⟩ := h
  rcases hn with rfl | rfl
  · refine Or.inl ⟨⟨int, frac, exp, by simp, hi, hf, he, hfe⟩, ?_⟩
    obtain ⟨c, d, rfl, h1, h2⟩ := intText_head hi
    simp
    omega
  · exact Or.inr ⟨int ++ (frac ++ exp), by simp, int, frac, exp, rfl, hi, hf, he, hfe⟩

theorem parseNumber_float {t : Text} (ht : Unsigned t) {r : Text} (hr : Stops r) :
    parseNumber E (t ++ r) = some (.float (E.read t), r) := by
  obtain ⟨int, frac, exp, rfl, hi, hf, he, hfe⟩ := ht
  have hexp : scanExp (exp ++ r) = (exp, r) := by
    rcases he with rfl | ⟨e, sg, d, rfl, h1, h2, h3, h4⟩
    · exact scanExp_none fun c r' h => ⟨(hr c r' h).2.2.1, (hr c r' h).2.2.2⟩
    · exact scanExp_text h1 h2 h3 h4 hr.noDigit
  have hex : ∀ c r', exp ++ r = c :: r' → isDigit c = false ∧ c ≠ 46 := by
    rcases he with rfl | ⟨e, sg, d, rfl, h1, h2, h3, h4⟩
    · exact fun c r' h => ⟨(hr c r' h).1, (hr c r' h).2.1⟩
    · intro c r' h
      cases h
      rcases h1 with rfl | rfl <;> exact ⟨by decide, by decide⟩
  have hfrac : scanFrac (frac ++ (exp ++ r)) = (frac, exp ++ r) := by
    rcases hf with rfl | ⟨d, rfl, h1, h2⟩
    · exact scanFrac_none fun c r' h => (hex c r' h).2
    · exact scanFrac_text h1 h2 fun c r' h => (hex c r' h).1
  have hint : scanInt ([] ++ int ++ (frac ++ (exp ++ r))) = some ([] ++ int, frac ++ (exp ++ r)) := by
    refine scanInt_text (Or.inl rfl) hi ?_
    rcases hf with rfl | ⟨d, rfl, h1, h2⟩
    · exact fun c r' h => (hex c r' h).1
    · intro c r' h; cases h; rfl
  have e : int ++ (frac ++ exp) ++ r = [] ++ int ++ (frac ++ (exp ++ r)) := by simp
  rw [e]
  simp only [parseNumber, hint, hfrac, hexp]
  rw [if_pos hfe]
  simp

theorem digit_of_unsigned {t : Text} (ht : Unsigned t) : ∃ c d, t = c :: d ∧ isDigit c = true := by
  obtain ⟨int, frac, exp, rfl, hi, _⟩ := ht
  obtain ⟨c, d, rfl, h⟩ := digit_of_intText hi
  exact ⟨c, _, rfl, h⟩

end Verif.Lemmas
