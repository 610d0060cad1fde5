import Verif.Model.Label
import Verif.Spec.Label
/-!
# Lemmas about UTF-8 labels
-/
namespace Verif.Lemmas
open Verif Verif.Model Verif.Spec

theorem scalar_of_char (c : Char) : c.toNat < 0x110000 ∧ isSurrogate c.toNat = false := by
  have hv : c.toNat < 55296 ∨ (57343 < c.toNat ∧ c.toNat < 1114112) := by
    have := c.valid
    simpa [UInt32.isValidChar, Nat.isValidChar] using this
  refine ⟨by omega, ?_⟩
  simp only [isSurrogate, Bool.and_eq_false_iff, decide_eq_false_iff_not]
  omega

theorem utf8Bytes_nil : utf8Bytes [] = [] := rfl
theorem utf8Bytes_cons (c : Char) (s : Str) : utf8Bytes (c :: s) = utf8Char c.toNat ++ utf8Bytes s := rfl
theorem utf8Bytes_append (s t : Str) : utf8Bytes (s ++ t) = utf8Bytes s ++ utf8Bytes t := by
  simp [utf8Bytes, codes, List.map_append, List.flatMap_append]

theorem map_ofNat_codes (s : Str) : (codes s).map Char.ofNat = s := by
  simp only [codes, List.map_map]
  conv_rhs => rw [← List.map_id s]
  exact List.map_congr_left fun c _ => Char.ofNat_toNat c

/-- decoding what was encoded, followed by other bytes, given fuel for both -/
theorem utf8Chars_bytes (s : Str) (p : Bytes) : ∀ f, s.length ≤ f →
    utf8Chars f (utf8Bytes s ++ p) = (utf8Chars (f - s.length) p).map (codes s ++ ·) := by
  induction s with
  | nil =>
    intro f _
    simp only [utf8Bytes_nil, List.nil_append, List.length_nil, Nat.sub_zero, codes, List.map_nil]
    cases utf8Chars f p <;> rfl
  | cons c s ih =>
    intro f hf
    obtain ⟨g, rfl⟩ : ∃ g, f = g + 1 := ⟨f - 1, by simp at hf; omega⟩
    have hsc := scalar_of_char c
    rw [utf8Bytes_cons, List.append_assoc, utf8Chars_char hsc.1 hsc.2, ih g (by simp at hf; omega)]
    have : g + 1 - (c :: s).length = g - s.length := by simp
    rw [this]
    cases utf8Chars (g - s.length) p <;> rfl

theorem length_le_bytes (s : Str) : s.length ≤ (utf8Bytes s).length := by
  induction s with
  | nil => simp
  | cons c s ih =>
    have := List.length_pos_iff.2 (utf8Char_ne_nil c.toNat)
    rw [utf8Bytes_cons, List.length_append, List.length_cons]; omega

theorem labelDecode_bytes (s : Str) : labelDecode (utf8Bytes s) = .ok s := by
  have h := utf8Chars_bytes s [] (utf8Bytes s).length (length_le_bytes s)
  rw [List.append_nil] at h
  have h0 : ∀ f, utf8Chars f [] = .ok [] := by intro f; cases f <;> rfl
  rw [h0] at h
  simp only [labelDecode, utf8Decode, h, Except.map, List.append_nil, map_ofNat_codes]

/-- some but not all bytes of a character cannot be decoded -/
theorem utf8Chars_part {c : Nat} {p r : Bytes} (h : utf8Char c = p ++ r) (hp : p ≠ []) (hr : r ≠ [])
    (f : Nat) : utf8Chars f p = .error .unicodeDecode := by
  unfold utf8Char at h
  have nil1 : ∀ {x : Nat} {q : Bytes}, q ≠ [] → [x] = q ++ r → False := by
    intro x q hq h
    cases q with
    | nil => exact hq rfl
    | cons a q =>
      simp only [List.cons_append, List.cons.injEq] at h
      obtain ⟨_, h⟩ := h
      exact hr (List.append_eq_nil_iff.1 h.symm).2
  cases f with
  | zero => cases p with
    | nil => exact absurd rfl hp
    | cons a p => rfl
  | succ f =>
    split at h
    · exact (nil1 hp h).elim
    · rename_i h1
      cases p with
      | nil => exact absurd rfl hp
      | cons a p =>
        split at h
        · rename_i h2
          simp only [List.cons_append, List.cons.injEq] at h
          obtain ⟨rfl, h⟩ := h
          cases p with
          | nil => simp only [utf8Chars]; rw [if_neg (by omega)]
          | cons b p => exact (nil1 (by simp) h).elim
        · rename_i h2
          split at h
          · rename_i h3
            simp only [List.cons_append, List.cons.injEq] at h
            obtain ⟨rfl, h⟩ := h
            cases p with
            | nil => simp only [utf8Chars]; rw [if_neg (by omega)]
            | cons b p =>
              simp only [List.cons_append, List.cons.injEq] at h
              obtain ⟨rfl, h⟩ := h
              cases p with
              | nil => simp only [utf8Chars]; rw [if_neg (by omega), if_neg (by omega)]
              | cons b p => exact (nil1 (by simp) h).elim
          · rename_i h3
            simp only [List.cons_append, List.cons.injEq] at h
            obtain ⟨rfl, h⟩ := h
            cases p with
            | nil => simp only [utf8Chars]; rw [if_neg (by omega)]
            | cons b p =>
              simp only [List.cons_append, List.cons.injEq] at h
              obtain ⟨rfl, h⟩ := h
              cases p with
              | nil => simp only [utf8Chars]; rw [if_neg (by omega), if_neg (by omega)]
              | cons b p =>
                simp only [List.cons_append, List.cons.injEq] at h
                obtain ⟨rfl, h⟩ := h
                cases p with
                | nil =>
                  simp only [utf8Chars]
                  rw [if_neg (by omega), if_neg (by omega), if_neg (by omega)]
                | cons b p => exact (nil1 (by simp) h).elim

/-- the first bytes of a text: some characters, and perhaps part of another -/
theorem take_bytes (s : Str) (n : Nat) : ∃ s' p, s' <+: s ∧ (utf8Bytes s).take n = utf8Bytes s' ++ p ∧
    (p = [] ∨ ∃ c : Char, ∃ r, (s' ++ [c]) <+: s ∧ utf8Char c.toNat = p ++ r ∧ p ≠ [] ∧ r ≠ []) := by
  induction s generalizing n with
  | nil => exact ⟨[], [], List.prefix_refl _, by simp [utf8Bytes_nil], Or.inl rfl⟩
  | cons c s ih =>
    by_cases hn : (utf8Char c.toNat).length ≤ n
    · obtain ⟨s', p, h1, h2, h3⟩ := ih (n - (utf8Char c.toNat).length)
      refine ⟨c :: s', p, List.cons_prefix_cons.2 ⟨rfl, h1⟩, ?_, ?_⟩
      · rw [utf8Bytes_cons, utf8Bytes_cons, List.take_append, h2, List.take_of_length_le hn, List.append_assoc]
      · rcases h3 with h3 | ⟨d, r, h4, h5⟩
        · exact Or.inl h3
        · exact Or.inr ⟨d, r, by rw [List.cons_append]; exact List.cons_prefix_cons.2 ⟨rfl, h4⟩, h5⟩
    · refine ⟨[], (utf8Char c.toNat).take n, List.nil_prefix, ?_, ?_⟩
      · rw [utf8Bytes_cons, List.take_append, utf8Bytes_nil, List.nil_append]
        have : n - (utf8Char c.toNat).length = 0 := by omega
        rw [this, List.take_zero, List.append_nil]
      · by_cases h0 : n = 0
        · left; rw [h0]; rfl
        · right
          refine ⟨c, (utf8Char c.toNat).drop n, ?_, (List.take_append_drop _ _).symm, ?_, ?_⟩
          · exact List.cons_prefix_cons.2 ⟨rfl, List.nil_prefix⟩
          · intro h
            have := congrArg List.length h
            simp only [List.length_take, List.length_nil] at this
            have := List.length_pos_iff.2 (utf8Char_ne_nil c.toNat)
            omega
          · intro h
            have := congrArg List.length h
            simp only [List.length_drop, List.length_nil] at this
            omega

theorem labelDecode_part {s : Str} {c : Nat} {p r : Bytes} (h : utf8Char c = p ++ r) (hp : p ≠ []) (hr : r ≠ []) :
    labelDecode (utf8Bytes s ++ p) = .error .unicodeDecode := by
  have hl := length_le_bytes s
  rw [labelDecode, utf8Decode, utf8Chars_bytes s p _ (by rw [List.length_append]; omega), utf8Chars_part h hp hr]
  rfl

theorem prefix_bytes {s' s : Str} (h : s' <+: s) : utf8Bytes s' <+: utf8Bytes s := by
  obtain ⟨r, rfl⟩ := h
  exact ⟨utf8Bytes r, (utf8Bytes_append _ _).symm⟩

/-- the bytes of a character are one ASCII byte, or none of them is ASCII -/
theorem utf8Char_ascii (c : Nat) : (c < 0x80 ∧ utf8Char c = [c]) ∨ (0x80 ≤ c ∧ ∀ b ∈ utf8Char c, 0x80 ≤ b) := by
  unfold utf8Char
  by_cases h1 : c < 0x80
  · left; simp [h1]
  · right
    refine ⟨by omega, ?_⟩
    simp only [h1, if_false]
    split
    · intro b hb; simp only [List.mem_cons, List.not_mem_nil, or_false] at hb; omega
    · split <;>
      · intro b hb; simp only [List.mem_cons, List.not_mem_nil, or_false] at hb; omega

/-- an ASCII text at the beginning of the bytes is at the beginning of the text -/
theorem ascii_begins (w : Str) (hw : ∀ c ∈ w, c.toNat < 0x80) : ∀ (s : Str) (a : Bytes),
    utf8Bytes s = utf8Bytes w ++ a → ∃ r, s = w ++ r ∧ a = utf8Bytes r := by
  induction w with
  | nil => intro s a h; exact ⟨s, rfl, by simpa [utf8Bytes_nil] using h.symm⟩
  | cons c w ih =>
    intro s a h
    have hc := hw c (by simp)
    have hcb : utf8Char c.toNat = [c.toNat] := by unfold utf8Char; simp [hc]
    rw [utf8Bytes_cons, hcb] at h
    cases s with
    | nil => simp [utf8Bytes_nil] at h
    | cons d s =>
      rw [utf8Bytes_cons] at h
      rcases utf8Char_ascii d.toNat with ⟨hd, hdb⟩ | ⟨hd, hdb⟩
      · rw [hdb] at h
        simp only [List.cons_append, List.nil_append, List.cons.injEq] at h
        obtain ⟨h1, h2⟩ := h
        obtain ⟨r, rfl, hr⟩ := ih (fun c' hc' => hw c' (by simp [hc'])) s a h2
        have : d = c := Char.toNat_inj.1 h1
        exact ⟨r, by rw [this]; rfl, hr⟩
      · exfalso
        cases hx : utf8Char d.toNat with
        | nil => exact utf8Char_ne_nil _ hx
        | cons b bs =>
          rw [hx] at h
          simp only [List.cons_append, List.cons.injEq] at h
          have := hdb b (by rw [hx]; simp)
          omega

/-- UTF-8 is self-synchronizing for ASCII: an ASCII text found in the bytes is found in the text -/
theorem ascii_occurs (w : Str) (hw : ∀ c ∈ w, c.toNat < 0x80) (hne : w ≠ []) (s : Str) : ∀ (b a : Bytes),
    utf8Bytes s = b ++ utf8Bytes w ++ a → ∃ t r, s = t ++ w ++ r ∧ b = utf8Bytes t ∧ a = utf8Bytes r := by
  induction s with
  | nil =>
    intro b a h
    exfalso
    cases w with
    | nil => exact hne rfl
    | cons c w =>
      have := congrArg List.length h
      rw [utf8Bytes_nil, utf8Bytes_cons] at this
      have h2 := List.length_pos_iff.2 (utf8Char_ne_nil c.toNat)
      simp only [List.length_nil, List.length_append] at this
      omega
  | cons d s ih =>
    intro b a h
    cases b with
    | nil =>
      rw [List.nil_append] at h
      obtain ⟨r, hr, ha⟩ := ascii_begins w hw (d :: s) a h
      exact ⟨[], r, by simpa using hr, rfl, ha⟩
    | cons b0 bs =>
      rw [utf8Bytes_cons] at h
      by_cases hl : (utf8Char d.toNat).length ≤ (b0 :: bs).length
      · have hb : ∃ b', b0 :: bs = utf8Char d.toNat ++ b' := by
          refine ⟨(b0 :: bs).drop (utf8Char d.toNat).length, ?_⟩
          have ht := congrArg (List.take (utf8Char d.toNat).length) h
          rw [List.append_assoc, List.take_append_of_le_length hl, List.take_left] at ht
          conv_lhs => rw [← List.take_append_drop (utf8Char d.toNat).length (b0 :: bs)]
          rw [← ht]
        obtain ⟨b', hb'⟩ := hb
        rw [hb', List.append_assoc, List.append_assoc] at h
        have h2 := List.append_cancel_left h
        rw [← List.append_assoc] at h2
        obtain ⟨t, r, rfl, rfl, rfl⟩ := ih b' a h2
        exact ⟨d :: t, r, rfl, by rw [hb', utf8Bytes_cons], rfl⟩
      · exfalso
        rcases utf8Char_ascii d.toNat with ⟨hd, hdb⟩ | ⟨hd, hdb⟩
        · rw [hdb] at hl; simp at hl
        · cases w with
          | nil => exact hne rfl
          | cons c w =>
            have hc := hw c (by simp)
            have hcb : utf8Char c.toNat = [c.toNat] := by unfold utf8Char; simp [hc]
            have hg := congrArg (fun l => l[(b0 :: bs).length]?) h
            rw [List.getElem?_append_left (by omega), List.append_assoc, List.getElem?_append_right (Nat.le_refl _),
              Nat.sub_self, utf8Bytes_cons, hcb] at hg
            simp only [List.cons_append, List.nil_append, List.getElem?_cons_zero] at hg
            have := hdb _ (List.mem_of_getElem? hg)
            omega

theorem endLine_ascii : ∀ c ∈ endLine, c.toNat < 0x80 := by decide
theorem endLine_bytes : utf8Bytes endLine = [69, 78, 68, 13, 10] := by decide

/-- where a label ends in the bytes of a file -/
theorem firstAt_label {t : Str} (h : EndsOnce (t ++ endLine)) (rest : Bytes) :
    FirstAt [69, 78, 68, 13, 10] (utf8Bytes t) (utf8Bytes (t ++ endLine) ++ rest) := by
  refine ⟨⟨rest, by rw [utf8Bytes_append, endLine_bytes]⟩, ?_⟩
  intro b a hba
  by_contra hc
  -- an earlier occurrence lies in the label itself
  have hlen : (b ++ [69, 78, 68, 13, 10]).length ≤ (utf8Bytes (t ++ endLine)).length := by
    rw [utf8Bytes_append, endLine_bytes]; simp at hc ⊢; omega
  have ht := congrArg (List.take (utf8Bytes (t ++ endLine)).length) hba
  rw [List.take_left, List.take_append, List.take_of_length_le hlen, ← endLine_bytes] at ht
  obtain ⟨t', r, he, hb, ha⟩ := ascii_occurs endLine endLine_ascii (by decide) _ _ _ ht
  have hr := h.2 t' r he
  subst hr
  rw [List.append_nil] at he
  have := List.append_cancel_right he
  subst this
  rw [hb] at hc
  omega

end Verif.Lemmas
