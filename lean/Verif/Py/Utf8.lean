import Verif.Py.Lit
/-!
# UTF-8

`str.encode()` and `bytes.decode()`. A text with a surrogate cannot be encoded (`UnicodeEncodeError`, a `ValueError`).
-/
namespace Verif

/-- a surrogate code point -/
def isSurrogate (c : Nat) : Bool := 0xD800 ≤ c && c ≤ 0xDFFF

/-- the bytes of a character -/
def utf8Char (c : Nat) : Bytes :=
  if c < 0x80 then [c]
  else if c < 0x800 then [0xC0 + c / 64, 0x80 + c % 64]
  else if c < 0x10000 then [0xE0 + c / 4096, 0x80 + c / 64 % 64, 0x80 + c % 64]
  else [0xF0 + c / 262144, 0x80 + c / 4096 % 64, 0x80 + c / 64 % 64, 0x80 + c % 64]

/-- `text.encode()` -/
def utf8Encode (t : Text) : Except PyErr Bytes :=
  if t.any isSurrogate then .error .valueError else .ok (t.flatMap utf8Char)

/-- a continuation byte -/
def isCont (b : Nat) : Bool := 0x80 ≤ b && b < 0xC0

/-- `blob.decode()`; the number is a bound of the characters -/
def utf8Chars : Nat → Bytes → Except PyErr Text
  | _, [] => .ok []
  | 0, _ :: _ => .error .unicodeDecode
  | f + 1, b :: r =>
    if b < 0x80 then (utf8Chars f r).map (b :: ·)
    else match r with
      | b1 :: r1 =>
        if 0xC2 ≤ b ∧ b < 0xE0 ∧ isCont b1 then (utf8Chars f r1).map (((b - 0xC0) * 64 + (b1 - 0x80)) :: ·)
        else match r1 with
          | b2 :: r2 =>
            if 0xE0 ≤ b ∧ b < 0xF0 ∧ isCont b1 ∧ isCont b2 ∧
                0x800 ≤ (b - 0xE0) * 4096 + (b1 - 0x80) * 64 + (b2 - 0x80) ∧
                isSurrogate ((b - 0xE0) * 4096 + (b1 - 0x80) * 64 + (b2 - 0x80)) = false then
              (utf8Chars f r2).map (((b - 0xE0) * 4096 + (b1 - 0x80) * 64 + (b2 - 0x80)) :: ·)
            else match r2 with
              | b3 :: r3 =>
                if 0xF0 ≤ b ∧ b < 0xF8 ∧ isCont b1 ∧ isCont b2 ∧ isCont b3 ∧
                    0x10000 ≤ (b - 0xF0) * 262144 + (b1 - 0x80) * 4096 + (b2 - 0x80) * 64 + (b3 - 0x80) ∧
                    (b - 0xF0) * 262144 + (b1 - 0x80) * 4096 + (b2 - 0x80) * 64 + (b3 - 0x80) < 0x110000 then
                  (utf8Chars f r3).map (((b - 0xF0) * 262144 + (b1 - 0x80) * 4096 + (b2 - 0x80) * 64 + (b3 - 0x80)) :: ·)
                else .error .unicodeDecode
              | [] => .error .unicodeDecode
          | [] => .error .unicodeDecode
      | [] => .error .unicodeDecode

def utf8Decode (b : Bytes) : Except PyErr Text := utf8Chars b.length b

/-- reading a written character -/
theorem utf8Chars_char {f c : Nat} (hc : c < 0x110000) (hs : isSurrogate c = false) (r : Bytes) :
    utf8Chars (f + 1) (utf8Char c ++ r) = (utf8Chars f r).map (c :: ·) := by
  have cont : ∀ x, x < 64 → isCont (0x80 + x) = true := by
    intro x hx
    simp only [isCont, Bool.and_eq_true, decide_eq_true_eq]
    omega
  unfold utf8Char
  by_cases h1 : c < 0x80
  · rw [if_pos h1]
    simp only [List.cons_append, List.nil_append, utf8Chars, if_pos h1]
  by_cases h2 : c < 0x800
  · rw [if_neg h1, if_pos h2]
    simp only [List.cons_append, List.nil_append, utf8Chars]
    have e : (0xC0 + c / 64 - 0xC0) * 64 + (0x80 + c % 64 - 0x80) = c := by omega
    rw [if_neg (by omega), if_pos ⟨by omega, by omega, cont _ (by omega)⟩, e]
  by_cases h3 : c < 0x10000
  · rw [if_neg h1, if_neg h2, if_pos h3]
    simp only [List.cons_append, List.nil_append, utf8Chars]
    have e : (0xE0 + c / 4096 - 0xE0) * 4096 + (0x80 + c / 64 % 64 - 0x80) * 64 + (0x80 + c % 64 - 0x80) = c := by omega
    rw [if_neg (by omega), if_neg (by omega), e,
      if_pos ⟨by omega, by omega, cont _ (by omega), cont _ (by omega), by omega, hs⟩]
  · rw [if_neg h1, if_neg h2, if_neg h3]
    simp only [List.cons_append, List.nil_append, utf8Chars]
    have e : (0xF0 + c / 262144 - 0xF0) * 262144 + (0x80 + c / 4096 % 64 - 0x80) * 4096 + (0x80 + c / 64 % 64 - 0x80) * 64 +
        (0x80 + c % 64 - 0x80) = c := by omega
    rw [if_neg (by omega), if_neg (by omega), if_neg (by omega), e,
      if_pos ⟨by omega, by omega, cont _ (by omega), cont _ (by omega), cont _ (by omega), by omega, hc⟩]

theorem utf8Char_ne_nil (c : Nat) : utf8Char c ≠ [] := by
  unfold utf8Char
  split
  · simp
  · split
    · simp
    · split <;> simp

/-- what was encoded is decoded -/
theorem utf8Decode_encode {t : Text} {b : Bytes} (ht : ∀ c ∈ t, c < 0x110000) (h : utf8Encode t = .ok b) : utf8Decode b = .ok t := by
  unfold utf8Encode at h
  split at h
  · cases h
  rename_i hs
  injection h with h
  subst h
  have hs' : ∀ c ∈ t, isSurrogate c = false := by
    intro c hc
    cases e : isSurrogate c with
    | false => rfl
    | true => exact absurd (List.any_eq_true.2 ⟨c, hc, e⟩) (by simpa using hs)
  have key : ∀ (t : Text), (∀ c ∈ t, c < 0x110000) → (∀ c ∈ t, isSurrogate c = false) → ∀ f, (t.flatMap utf8Char).length ≤ f →
      utf8Chars f (t.flatMap utf8Char) = .ok t := by
    intro t
    induction t with
    | nil => intro _ _ f _; cases f <;> rfl
    | cons c t ih =>
      intro h1 h2 f hf
      have hl : 0 < (utf8Char c).length := List.length_pos_iff.2 (utf8Char_ne_nil c)
      simp only [List.flatMap_cons, List.length_append] at hf ⊢
      obtain ⟨f, rfl⟩ : ∃ g, f = g + 1 := ⟨f - 1, by omega⟩
      rw [utf8Chars_char (h1 c (by simp)) (h2 c (by simp)), ih (fun d hd => h1 d (by simp [hd])) (fun d hd => h2 d (by simp [hd])) f (by omega)]
      rfl
  exact key t ht hs' _ (Nat.le_refl _)

theorem utf8Encode_iff (t : Text) : (∃ b, utf8Encode t = .ok b) ↔ ∀ c ∈ t, isSurrogate c = false := by
  unfold utf8Encode
  constructor
  · rintro ⟨b, h⟩ c hc
    split at h
    · cases h
    · rename_i hs
      cases e : isSurrogate c with
      | false => rfl
      | true => exact absurd (List.any_eq_true.2 ⟨c, hc, e⟩) (by simpa using hs)
  · intro h
    rw [if_neg]
    · exact ⟨_, rfl⟩
    · intro hs
      obtain ⟨c, hc, e⟩ := List.any_eq_true.1 hs
      rw [h c hc] at e
      cases e

theorem utf8Encode_nonempty {t : Text} {b : Bytes} (h : utf8Encode t = .ok b) (ht : t ≠ []) : b ≠ [] := by
  unfold utf8Encode at h
  split at h
  · cases h
  · injection h with h
    subst h
    cases t with
    | nil => exact absurd rfl ht
    | cons c t =>
      intro e
      rw [List.flatMap_cons] at e
      exact utf8Char_ne_nil c (List.append_eq_nil_iff.1 e).1

end Verif
