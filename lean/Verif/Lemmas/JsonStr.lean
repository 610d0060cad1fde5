import Verif.Model.Json
import Verif.Spec.Json
/-! # JSON strings and numbers, written and read -/
namespace Verif.Lemmas
open Verif Verif.Model Verif.Spec
variable {F : Type}

/-! ## strings -/

theorem hexVal_hexDigit {d : Nat} (h : d < 16) : hexVal (hexDigit d) = some d := by
  have : d = 0 ∨ d = 1 ∨ d = 2 ∨ d = 3 ∨ d = 4 ∨ d = 5 ∨ d = 6 ∨ d = 7 ∨ d = 8 ∨ d = 9 ∨ d = 10 ∨ d = 11 ∨ d = 12 ∨
    d = 13 ∨ d = 14 ∨ d = 15 := by omega
  rcases this with h | h | h | h | h | h | h | h | h | h | h | h | h | h | h | h <;> subst h <;> rfl

theorem uXXXX_hex4 {n : Nat} (h : n < 65536) (r : Text) : uXXXX (hex4 n ++ r) = some (n, r) := by
  simp only [hex4, List.cons_append, List.nil_append, uXXXX, hexVal_hexDigit (Nat.mod_lt _ (by omega : 16 > 0)),
    Option.bind_eq_bind, Option.bind_some, Option.some.injEq, Prod.mk.injEq, and_true]
  omega

theorem joined_cons {a : Nat} (h : ¬ high a) (s : Text) : joined (a :: s) = a :: joined s := by
  cases s with
  | nil => rfl
  | cons b r => rw [joined, if_neg (fun hh => h hh.1)]

theorem joined_cons_low {a b : Nat} (h : ¬ low b) (s : Text) : joined (a :: b :: s) = a :: joined (b :: s) := by
  rw [joined, if_neg (fun hh => h hh.2)]

/-- put a character before the string read -/
def consTo (c : Nat) : Option (Text × Text) → Option (Text × Text) := Option.map fun p => (c :: p.1, p.2)

theorem scanStr_u {f u : Nat} (hu : u < 65536) (h : ¬ high u) (r : Text) :
    scanStr (f + 1) (92 :: 117 :: (hex4 u ++ r)) = consTo u (scanStr f r) := by
  simp only [scanStr, show ¬ (92 : Nat) = 34 by decide, if_false, if_true, uXXXX_hex4 hu]
  have h' : ¬ (55296 ≤ u ∧ u ≤ 56319) := h
  split
  · rw [if_neg h']; rfl
  · rfl

theorem scanStr_u_end {f u : Nat} (hu : u < 65536) (r : Text) (h : ∀ r', r ≠ 92 :: 117 :: r') :
    scanStr (f + 1) (92 :: 117 :: (hex4 u ++ r)) = consTo u (scanStr f r) := by
  simp only [scanStr, show ¬ (92 : Nat) = 34 by decide, if_false, if_true, uXXXX_hex4 hu]
  rfl

theorem scanStr_uu {f u u2 : Nat} (hu : u < 65536) (hu2 : u2 < 65536) (r : Text) :
    scanStr (f + 1) (92 :: 117 :: (hex4 u ++ 92 :: 117 :: (hex4 u2 ++ r))) =
      if high u ∧ low u2 then consTo (pairChar u u2) (scanStr f r)
      else consTo u (scanStr f (92 :: 117 :: (hex4 u2 ++ r))) := by
  by_cases h1 : high u
  · have h1' : 55296 ≤ u ∧ u ≤ 56319 := h1
    simp only [scanStr, show ¬ (92 : Nat) = 34 by decide, if_false, if_true, uXXXX_hex4 hu, uXXXX_hex4 hu2, if_pos h1']
    by_cases h2 : low u2
    · have h2' : 56320 ≤ u2 ∧ u2 ≤ 57343 := h2
      rw [if_pos h2', if_pos ⟨h1, h2⟩]; rfl
    · have h2' : ¬ (56320 ≤ u2 ∧ u2 ≤ 57343) := h2
      rw [if_neg h2', if_neg (fun h => h2 h.2)]; rfl
  · rw [scanStr_u hu h1, if_neg (fun h => h1 h.1)]

/-- the three ways a character is written -/
theorem encChar_cases (c : Nat) (hc : c < 0x110000) :
    (∃ e, encChar c = [92, e] ∧ e ≠ 117 ∧ backslash e = some c ∧ c < 128) ∨
    (encChar c = [c] ∧ 32 ≤ c ∧ c ≤ 126 ∧ c ≠ 34 ∧ c ≠ 92) ∨
    (c < 65536 ∧ encChar c = 92 :: 117 :: hex4 c) ∨
    (65536 ≤ c ∧ ∃ h l, high h ∧ low l ∧ pairChar h l = c ∧ encChar c = 92 :: 117 :: (hex4 h ++ 92 :: 117 :: hex4 l)) := by
  by_cases hs : ∃ e, shortEscape c = some e
  · obtain ⟨e, he⟩ := hs
    refine Or.inl ⟨e, by simp [encChar, he], ?_⟩
    unfold shortEscape at he
    repeat' split at he
    all_goals first
      | (injection he with he; subst he; subst_vars; refine ⟨by decide, by decide, by decide⟩)
      | (cases he)
  · have hn : shortEscape c = none := by
      cases h : shortEscape c with
      | none => rfl
      | some e => exact absurd ⟨e, h⟩ hs
    right
    by_cases h1 : 32 ≤ c ∧ c ≤ 126
    · refine Or.inl ⟨by simp [encChar, hn, h1], h1.1, h1.2, ?_, ?_⟩ <;> (intro h; subst h; revert hn; decide)
    · right
      by_cases h2 : c < 65536
      · exact Or.inl ⟨h2, by simp [encChar, hn, h1, h2]⟩
      · refine Or.inr ⟨by omega, 55296 + (c - 65536) / 1024 % 1024, 56320 + (c - 65536) % 1024, ?_, ?_, ?_, ?_⟩
        · have := Nat.mod_lt ((c - 65536) / 1024) (by omega : 1024 > 0)
          exact ⟨by omega, by omega⟩
        · have := Nat.mod_lt (c - 65536) (by omega : 1024 > 0)
          exact ⟨by omega, by omega⟩
        · unfold pairChar; omega
        · simp [encChar, hn, h1, h2]

theorem encChar_length (c : Nat) : 0 < (encChar c).length := by
  unfold encChar
  split
  · simp
  · split
    · simp
    · split <;> simp

theorem not_high_of_lt {c : Nat} (h : c < 128) : ¬ high c := by unfold high; omega

/-- reading what was written of a string, and nothing after it -/
theorem scanStr_enc (n : Nat) : ∀ (s : Text), s.length ≤ n → TextOK s → ∀ (rest : Text) (f : Nat),
    (s.flatMap encChar).length < f → scanStr f (s.flatMap encChar ++ 34 :: rest) = some (joined s, rest) := by
  induction n with
  | zero =>
    intro s hs _ rest f hf
    have : s = [] := List.length_eq_zero_iff.1 (by omega)
    subst this
    obtain ⟨f, rfl⟩ : ∃ g, f = g + 1 := ⟨f - 1, by simp at hf; omega⟩
    simp [scanStr, joined]
  | succ n ih =>
    intro s hs ht rest f hf
    obtain ⟨f, rfl⟩ : ∃ g, f = g + 1 := ⟨f - 1, by omega⟩
    cases s with
    | nil => simp [scanStr, joined]
    | cons a s =>
      have ha : a < 0x110000 := ht a (by simp)
      have hts : TextOK s := fun c hc => ht c (by simp [hc])
      have hl : s.length ≤ n := by simpa using hs
      simp only [List.flatMap_cons, List.length_append] at hf
      have hp := encChar_length a
      have step := ih s hl hts rest f (by omega)
      simp only [List.flatMap_cons, List.append_assoc]
      rcases encChar_cases a ha with ⟨e, he, h1, h2, h3⟩ | ⟨he, h1, h2, h3, h4⟩ | ⟨h1, he⟩ | ⟨h1, h, l, hh, hlw, hpc, he⟩
      · rw [he, joined_cons (not_high_of_lt h3)]
        simp only [List.cons_append, List.nil_append, scanStr, show ¬ (92 : Nat) = 34 by decide, if_false, if_true, if_neg h1,
          h2, step]
        rfl
      · rw [he, joined_cons (not_high_of_lt (by omega))]
        simp only [List.cons_append, List.nil_append, scanStr, if_neg h3, if_neg h4, if_neg (show ¬ a < 32 by omega), step]
        rfl
      · rw [he]
        by_cases hh : high a
        · -- what follows decides
          cases s with
          | nil =>
            simp only [List.cons_append, List.flatMap_nil, List.nil_append]
            rw [scanStr_u_end h1 _ (by intro r' h; simp at h)]
            simp only [List.flatMap_nil, List.nil_append] at step
            rw [step]; rfl
          | cons b t =>
            have hb : b < 0x110000 := hts b (by simp)
            rcases encChar_cases b hb with ⟨e, he', h1', h2', h3'⟩ | ⟨he', h1', h2', h3', h4'⟩ | ⟨h1', he'⟩ |
                ⟨h1', h, l, hh', hlw, hpc, he'⟩
            · rw [joined_cons_low (by unfold low; omega)]
              simp only [List.cons_append]
              rw [scanStr_u_end h1 _ (by
                intro r' h; simp only [List.flatMap_cons, he', List.cons_append, List.cons.injEq, true_and] at h
                exact h1' h.1), step]; rfl
            · rw [joined_cons_low (by unfold low; omega)]
              simp only [List.cons_append]
              rw [scanStr_u_end h1 _ (by
                intro r' h; simp only [List.flatMap_cons, he', List.cons_append, List.nil_append, List.cons.injEq] at h
                exact h4' h.1), step]; rfl
            · have e2 : (b :: t).flatMap encChar ++ 34 :: rest = 92 :: 117 :: (hex4 b ++ (t.flatMap encChar ++ 34 :: rest)) := by
                simp [he']
              simp only [List.cons_append]
              rw [e2, scanStr_uu h1 h1']
              by_cases hlo : low b
              · rw [if_pos ⟨hh, hlo⟩, ih t (by simp at hl; omega) (fun c hc => hts c (by simp [hc])) rest f (by
                  simp only [List.flatMap_cons, List.length_append] at hf; omega), joined, if_pos ⟨hh, hlo⟩]; rfl
              · rw [if_neg (fun h => hlo h.2), joined_cons_low hlo, ← e2, step]; rfl
            · have hh1 : h < 65536 := by unfold high at hh'; omega
              have e2 : (b :: t).flatMap encChar ++ 34 :: rest =
                  92 :: 117 :: (hex4 h ++ (92 :: 117 :: hex4 l ++ (t.flatMap encChar ++ 34 :: rest))) := by
                simp [he']
              simp only [List.cons_append]
              rw [e2, scanStr_uu h1 hh1, if_neg (fun hx => by have := hx.2; unfold low at this; unfold high at hh'; omega),
                joined_cons_low (by unfold low; omega), ← e2, step]; rfl
        · simp only [List.cons_append]
          rw [scanStr_u h1 hh, step, joined_cons hh]; rfl
      · have hh1 : h < 65536 := by unfold high at hh; omega
        have hl1 : l < 65536 := by unfold low at hlw; omega
        rw [he]
        simp only [List.cons_append, List.append_assoc]
        rw [scanStr_uu hh1 hl1, if_pos ⟨hh, hlw⟩, step, hpc, joined_cons (by unfold high; omega)]; rfl

/-- reading a written string from its opening quote -/
theorem scanStr_encStr {s : Text} (h : TextOK s) (rest : Text) (f : Nat) (hf : (s.flatMap encChar).length < f) :
    scanStr f (s.flatMap encChar ++ 34 :: rest) = some (joined s, rest) := scanStr_enc s.length s (Nat.le_refl _) h rest f hf

/-! ## numbers -/

/-- the text does not begin with a digit -/
def NoDigit (t : Text) : Prop := ∀ c r, t = c :: r → isDigit c = false

/-- the text does not go on with a number -/
def Stops (t : Text) : Prop := ∀ c r, t = c :: r → isDigit c = false ∧ c ≠ 46 ∧ c ≠ 101 ∧ c ≠ 69

theorem Stops.noDigit {t : Text} (h : Stops t) : NoDigit t := fun c r e => (h c r e).1

theorem stops_nil : Stops [] := by intro c r h; cases h

theorem stops_cons {c : Nat} (r : Text) (h : isDigit c = false) (h1 : c ≠ 46) (h2 : c ≠ 101) (h3 : c ≠ 69) : Stops (c :: r) := by
  intro c' r' e; cases e; exact ⟨h, h1, h2, h3⟩

theorem takeWhile_digits {d : Text} (hd : ∀ x ∈ d, isDigit x = true) {r : Text} (hr : NoDigit r) :
    (d ++ r).takeWhile isDigit = d ∧ (d ++ r).dropWhile isDigit = r := by
  induction d with
  | nil =>
    cases r with
    | nil => exact ⟨rfl, rfl⟩
    | cons c r => simp [hr c r rfl]
  | cons a d ih =>
    have ha := hd a (by simp)
    obtain ⟨h1, h2⟩ := ih fun x hx => hd x (by simp [hx])
    simp [ha, h1, h2]

/-- the shape of a whole number without its sign -/
def IntText (t : Text) : Prop := t = [48] ∨ ∃ c d, t = c :: d ∧ 49 ≤ c ∧ c ≤ 57 ∧ ∀ x ∈ d, isDigit x = true

theorem intText_head {t : Text} (h : IntText t) : ∃ c d, t = c :: d ∧ 48 ≤ c ∧ c ≤ 57 := by
  rcases h with rfl | ⟨c, d, rfl, h1, h2, _⟩
  · exact ⟨48, [], rfl, by omega, by omega⟩
  · exact ⟨c, d, rfl, by omega, by omega⟩

theorem scanInt_text {neg int : Text} (hn : neg = [] ∨ neg = [45]) (hi : IntText int) {r : Text} (hr : NoDigit r) :
    scanInt (neg ++ int ++ r) = some (neg ++ int, r) := by
  rcases hn with rfl | rfl <;> rcases hi with rfl | ⟨c, d, rfl, h1, h2, hd⟩
  · rfl
  · obtain ⟨e1, e2⟩ := takeWhile_digits hd hr
    simp only [List.nil_append, List.cons_append, scanInt, if_neg (show ¬ c = 45 by omega), if_neg (show ¬ c = 48 by omega),
      if_pos (And.intro h1 h2), e1, e2]
  · rfl
  · obtain ⟨e1, e2⟩ := takeWhile_digits hd hr
    simp only [List.nil_append, List.cons_append, scanInt, if_true, if_neg (show ¬ c = 48 by omega),
      if_pos (And.intro h1 h2), e1, e2]

theorem scanFrac_none {r : Text} (hr : ∀ c r', r = c :: r' → c ≠ 46) : scanFrac r = ([], r) := by
  cases r with
  | nil => rfl
  | cons c r => simp [scanFrac, hr c r rfl]

theorem scanFrac_text {d : Text} (h : d ≠ []) (hd : ∀ x ∈ d, isDigit x = true) {r : Text} (hr : NoDigit r) :
    scanFrac (46 :: d ++ r) = (46 :: d, r) := by
  obtain ⟨e1, e2⟩ := takeWhile_digits hd hr
  simp [scanFrac, e1, e2, h]

theorem scanExp_none {r : Text} (hr : ∀ c r', r = c :: r' → c ≠ 101 ∧ c ≠ 69) : scanExp r = ([], r) := by
  cases r with
  | nil => rfl
  | cons c r => simp [scanExp, hr c r rfl]

theorem scanExp_text {e : Nat} {sg d : Text} (he : e = 101 ∨ e = 69) (hs : sg = [] ∨ sg = [43] ∨ sg = [45]) (h : d ≠ [])
    (hd : ∀ x ∈ d, isDigit x = true) {r : Text} (hr : NoDigit r) : scanExp (e :: (sg ++ d) ++ r) = (e :: (sg ++ d), r) := by
  obtain ⟨e1, e2⟩ := takeWhile_digits hd hr
  have hsg : scanSign (sg ++ (d ++ r)) = (sg, d ++ r) := by
    rcases hs with rfl | rfl | rfl
    · cases d with
      | nil => exact absurd rfl h
      | cons c d =>
        have hc := hd c (by simp)
        simp only [isDigit, Bool.and_eq_true, decide_eq_true_eq] at hc
        simp only [List.nil_append, List.cons_append, scanSign]
        rw [if_neg (by omega)]
    · rfl
    · rfl
  simp [scanExp, hsg, e1, e2, h, he]

theorem scanNumber_float {FT : Floats F} {lim : Nat} {t : Text} (ht : IsFloatText t) {r : Text} (hr : Stops r) :
    scanNumber FT lim (t ++ r) = .ok (.float (.fin (FT.read t)), r) := by
  obtain ⟨neg, int, frac, exp, rfl, hn, hi, hf, he, hfe⟩ := ht
  have hexp : scanExp (exp ++ r) = (exp, r) := by
    rcases he with rfl | ⟨e, sg, d, rfl, h1, h2, h3, h4⟩
    · exact scanExp_none fun c r' h => ⟨(hr c r' h).2.2.1, (hr c r' h).2.2.2⟩
    · exact scanExp_text h1 h2 h3 h4 hr.noDigit
  have hex : ∀ c r', exp ++ r = c :: r' → isDigit c = false ∧ c ≠ 46 := by
    rcases he with rfl | ⟨e, sg, d, rfl, h1, h2, h3, h4⟩
    · exact fun c r' h => ⟨(hr c r' h).1, (hr c r' h).2.1⟩
    · intro c r' h
      cases h
      rcases h1 with rfl | rfl <;> exact ⟨by decide, by decide⟩
  have hfrac : scanFrac (frac ++ (exp ++ r)) = (frac, exp ++ r) := by
    rcases hf with rfl | ⟨d, rfl, h1, h2⟩
    · exact scanFrac_none fun c r' h => (hex c r' h).2
    · exact scanFrac_text h1 h2 fun c r' h => (hex c r' h).1
  have hint : scanInt (neg ++ int ++ (frac ++ (exp ++ r))) = some (neg ++ int, frac ++ (exp ++ r)) := by
    refine scanInt_text hn hi ?_
    rcases hf with rfl | ⟨d, rfl, h1, h2⟩
    · exact fun c r' h => (hex c r' h).1
    · intro c r' h; cases h; rfl
  have e : neg ++ int ++ frac ++ exp ++ r = neg ++ int ++ (frac ++ (exp ++ r)) := by simp
  rw [e]
  simp only [scanNumber, hint, hfrac, hexp]
  rw [if_pos hfe]

theorem decNat_intText (n : Nat) : IntText (decNat n) := by
  rcases decNat_head n with ⟨_, h⟩ | ⟨c, r, h, h1, h2, h3⟩
  · exact Or.inl h
  · exact Or.inr ⟨c, r, h, h1, h2, h3⟩

theorem intText_ok {lim : Nat} {i : Int} {t : Text} (h : intText lim i = .ok t) : t = decInt i ∧ Short lim i := by
  unfold intText at h
  by_cases hs : lim ≠ 0 ∧ lim < (decNat i.natAbs).length
  · rw [if_pos hs] at h; cases h
  · rw [if_neg hs] at h
    injection h with h
    refine ⟨h.symm, ?_⟩
    unfold Short
    omega

theorem intText_short {lim : Nat} {i : Int} (h : Short lim i) : intText lim i = .ok (decInt i) := by
  unfold intText
  rw [if_neg (by unfold Short at h; omega)]; rfl

theorem readInt_decInt {lim : Nat} {i : Int} (h : Short lim i) : readInt lim (decInt i) = .ok i := by
  have hl : ¬ (lim ≠ 0 ∧ lim < (decNat i.natAbs).length) := by unfold Short at h; omega
  unfold decInt
  by_cases hi : i < 0
  · rw [if_pos hi]
    simp only [readInt, if_true, if_neg hl, textNat_decNat, Except.map]
    exact congrArg Except.ok (by omega)
  · rw [if_neg hi]
    obtain ⟨c, d, e, h1, h2⟩ := intText_head (decNat_intText i.natAbs)
    rw [e] at hl ⊢
    simp only [readInt, if_neg (show ¬ c = 45 by omega), if_neg hl, Except.map]
    rw [← e, textNat_decNat]
    exact congrArg Except.ok (by omega)

theorem scanNumber_int {FT : Floats F} {lim : Nat} {i : Int} (h : Short lim i) {r : Text} (hr : Stops r) :
    scanNumber FT lim (decInt i ++ r) = .ok (.int i, r) := by
  have e : ∃ neg int, decInt i = neg ++ int ∧ (neg = [] ∨ neg = [45]) ∧ IntText int := by
    unfold decInt
    split
    · exact ⟨[45], _, rfl, Or.inr rfl, decNat_intText _⟩
    · exact ⟨[], _, rfl, Or.inl rfl, decNat_intText _⟩
  obtain ⟨neg, int, e, h1, h2⟩ := e
  have hs := scanInt_text h1 h2 hr.noDigit
  rw [← e] at hs
  simp only [scanNumber, hs, scanFrac_none fun c r' h => (hr c r' h).2.1,
    scanExp_none fun c r' h => ⟨(hr c r' h).2.2.1, (hr c r' h).2.2.2⟩]
  rw [if_neg (by simp), readInt_decInt h]; rfl

end Verif.Lemmas
