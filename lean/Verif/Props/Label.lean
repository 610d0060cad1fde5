import Verif.Lemmas.Label
import Verif.Props.Scrape
/-!
# C121, C122: labels in UTF-8
-/
namespace Verif.Props
open Verif Verif.Model Verif.Spec Verif.Lemmas

/-- **C121**: a limit that is negative or not smaller than the file gives the whole text -/
theorem C121_whole (s : Str) (n : Int) (h : n < 0 ∨ ((utf8Bytes s).length : Int) ≤ n) : labelText (utf8Bytes s) n = .ok s := by
  have : readBytes (utf8Bytes s) n = utf8Bytes s := by
    unfold readBytes
    split
    · rfl
    · exact List.take_of_length_le (by omega)
  rw [labelText, getLabelText, this, labelDecode_bytes]

/-- **C121** (partial: if the limit falls between two characters). Full claim: `get_label_text` of a file in UTF-8
returns the beginning of its text. It does if the first `byte_size` bytes are whole characters; `C121_split` is what
happens otherwise. -/
theorem C121_cut_partial (s : Str) (n : Nat) (s' : Str) (h : CutsAt s n s') : labelText (utf8Bytes s) n = .ok s' := by
  obtain ⟨⟨r, rfl⟩, rfl⟩ := h
  have hr : readBytes (utf8Bytes (s' ++ r)) ((utf8Bytes s').length : Int) = utf8Bytes s' := by
    unfold readBytes
    rw [if_neg (by omega), Int.toNat_natCast, utf8Bytes_append, List.take_left]
  rw [labelText, getLabelText, hr, labelDecode_bytes]

/-- **C121**: a limit inside a character raises `UnicodeDecodeError` -/
theorem C121_split (s : Str) (n : Nat) (hn : n ≤ (utf8Bytes s).length) (h : ¬ ∃ s', CutsAt s n s') :
    labelText (utf8Bytes s) n = .error .unicodeDecode := by
  obtain ⟨s', p, h1, h2, h3⟩ := take_bytes s n
  have hr : readBytes (utf8Bytes s) (n : Int) = utf8Bytes s' ++ p := by
    unfold readBytes
    rw [if_neg (by omega), Int.toNat_natCast, h2]
  rcases h3 with rfl | ⟨c, r, _, h4, h5, h6⟩
  · refine absurd ⟨s', h1, ?_⟩ h
    rw [List.append_nil] at h2
    rw [← h2, List.length_take]; omega
  · rw [labelText, getLabelText, hr]
    exact labelDecode_part h4 h5 h6

/-- **C121**: an ASCII file is cut at any limit -/
theorem C121_ascii (s : Str) (hs : ∀ c ∈ s, c.toNat < 0x80) (n : Nat) : labelText (utf8Bytes s) n = .ok (s.take n) := by
  have hlen : ∀ t : Str, (∀ c ∈ t, c.toNat < 0x80) → (utf8Bytes t).length = t.length := by
    intro t
    induction t with
    | nil => intro _; rfl
    | cons c t ih =>
      intro h
      have hcb : utf8Char c.toNat = [c.toNat] := by unfold utf8Char; simp [h c (by simp)]
      rw [utf8Bytes_cons, hcb, List.length_append, ih fun c' hc' => h c' (by simp [hc'])]
      simp; omega
  by_cases hn : n ≤ s.length
  · refine C121_cut_partial s n _ ⟨List.take_prefix _ _, ?_⟩
    rw [hlen _ fun c hc => hs c (List.mem_of_mem_take hc), List.length_take]; omega
  · rw [C121_whole s n (Or.inr (by rw [hlen s hs]; omega)), List.take_of_length_le (by omega)]

/-- **C121** (full claim false): with the default `byte_size` of 35592, a text whose 35592nd character is not ASCII cannot
be loaded if all before it are -/
theorem C121_full_false (c : Char) (hc : 0x80 ≤ c.toNat) (s : Str) (hs : ∀ d ∈ s, d.toNat < 0x80) (hl : s.length = 35591) :
    labelText (utf8Bytes (s ++ [c])) 35592 = .error .unicodeDecode := by
  have hlen : (utf8Bytes s).length = 35591 := by
    have h1 := C121_ascii s hs 35592
    rw [← hl]
    clear h1 hl
    induction s with
    | nil => rfl
    | cons d s ih =>
      have hcb : utf8Char d.toNat = [d.toNat] := by unfold utf8Char; simp [hs d (by simp)]
      rw [utf8Bytes_cons, hcb, List.length_append, ih fun c' hc' => hs c' (by simp [hc'])]
      simp; omega
  have h2 : 2 ≤ (utf8Char c.toNat).length := by
    unfold utf8Char
    rw [if_neg (by omega)]
    split
    · simp
    · split <;> simp
  cases hx : utf8Char c.toNat with
  | nil => rw [hx] at h2; simp at h2
  | cons b bs =>
    have hbs : bs ≠ [] := by intro h; rw [hx, h] at h2; simp at h2
    have hr : readBytes (utf8Bytes (s ++ [c])) 35592 = utf8Bytes s ++ [b] := by
      unfold readBytes
      rw [if_neg (by omega)]
      have : utf8Bytes [c] = b :: bs := by rw [utf8Bytes_cons, hx, utf8Bytes_nil, List.append_nil]
      rw [utf8Bytes_append, this, List.take_append, List.take_of_length_le (by rw [hlen]; decide), hlen]
      rfl
    rw [labelText, getLabelText, hr]
    exact labelDecode_part (c := c.toNat) (r := bs) hx (by simp) hbs

/-- there are such texts -/
example : labelText (utf8Bytes (List.replicate 35591 'a' ++ ['é'])) 35592 = .error .unicodeDecode := by
  refine C121_full_false 'é' (by decide) _ (fun d hd => ?_) List.length_replicate
  rw [List.eq_of_mem_replicate hd]; decide

/-- "né": two of three bytes are no text, one is -/
example : labelText (utf8Bytes ['n', 'é']) 2 = .error .unicodeDecode ∧ labelText (utf8Bytes ['n', 'é']) 1 = .ok ['n'] :=
  ⟨by rfl, C121_cut_partial _ _ _ ⟨⟨['é'], rfl⟩, by decide⟩⟩

/-- **C122** (partial: if nothing in the label ends in `END\r\n` but its last line). Full claim: `trim_label` of a file
that consists of a label, whose last line is `END`, and of anything else, returns the label. It does if `END\r\n` is
not in the label before and the label is within `max_size`; `C122_early` is what happens otherwise. -/
theorem C122_trim_partial (t : Str) (h : EndsOnce (t ++ endLine)) (rest : Bytes) (n : Int)
    (hn : n < 0 ∨ ((utf8Bytes (t ++ endLine)).length : Int) ≤ n) (rf : Bool) :
    labelTrim (utf8Bytes (t ++ endLine) ++ rest) n rf = .ok (t ++ endLine) := by
  have hr : ∃ rest', readBytes (utf8Bytes (t ++ endLine) ++ rest) n = utf8Bytes (t ++ endLine) ++ rest' := by
    unfold readBytes
    split
    · exact ⟨rest, rfl⟩
    · exact ⟨_, by rw [List.take_append, List.take_of_length_le (by omega)]⟩
  obtain ⟨rest', hr⟩ := hr
  have := (C63_trim_label labelDecode (utf8Bytes (t ++ endLine) ++ rest) n rf _ rfl).1 (utf8Bytes t)
    (by have h' := firstAt_label h rest'; rw [← hr] at h'; exact h')
  rw [labelTrim, this, ← endLine_bytes, ← utf8Bytes_append, labelDecode_bytes]

/-- **C122**: whatever the label, it is cut after the first `END\r\n` in it, be that the end of a longer line -/
theorem C122_early (t r : Str) (h : EndsOnce (t ++ endLine)) (rest : Bytes) (n : Int)
    (hn : n < 0 ∨ ((utf8Bytes (t ++ endLine)).length : Int) ≤ n) (rf : Bool) :
    labelTrim (utf8Bytes (t ++ endLine ++ r) ++ rest) n rf = .ok (t ++ endLine) := by
  rw [utf8Bytes_append, List.append_assoc]
  exact C122_trim_partial t h _ n hn rf

theorem legend_once : EndsOnce ("NOTE = LEG".toList ++ endLine) := by
  refine ⟨⟨_, rfl⟩, fun b a h => ?_⟩
  have hl := congrArg List.length h
  have h1 : ("NOTE = LEG".toList ++ endLine).length = 15 := by decide
  have h2 : endLine.length = 5 := by decide
  simp only [h1, List.length_append, h2] at hl
  by_contra hne
  have ha : 0 < a.length := List.length_pos_iff.2 hne
  have hp : (("NOTE = LEG".toList ++ endLine).drop b.length).take 5 = endLine := by
    rw [h, List.append_assoc, List.drop_left, ← h2, List.take_left]
  have hb : b.length < 10 := by omega
  generalize b.length = m at hp hb
  clear h hl h1 h2 hne ha
  revert hp
  have : ∀ m, m < 10 → (("NOTE = LEG".toList ++ endLine).drop m).take 5 ≠ endLine := by decide
  exact this m hb

/-- **C122** (full claim false): a label that has a line ending in `LEGEND` is cut there -/
theorem C122_full_false (rest : Bytes) (rf : Bool) :
    labelTrim (utf8Bytes ("NOTE = LEG".toList ++ endLine ++ "END\r\n".toList) ++ rest) (500 * 1024) rf =
      .ok "NOTE = LEGEND\r\n".toList :=
  C122_early _ _ legend_once rest _ (Or.inr (by decide)) rf

/-- the hypotheses of `C122_trim_partial` hold of a label with one line, followed by bytes that are no text -/
example : labelTrim (utf8Bytes ("NOTE = LEG".toList ++ endLine) ++ [255, 254, 0, 0, 0, 69, 78, 68, 13, 10]) (-1) true =
    .ok ("NOTE = LEG".toList ++ endLine) := C122_trim_partial _ legend_once _ _ (Or.inl (by decide)) true

/-- **C122**: a text without `END\r\n` and without three NULs in a row is taken up to `max_size`, as by `get_label_text`, or
refused with `ValueError` -/
theorem C122_no_ending (s : Str) (h1 : ∀ b a, s ≠ b ++ endLine ++ a)
    (h2 : ∀ b a, s ≠ b ++ [Char.ofNat 0, Char.ofNat 0, Char.ofNat 0] ++ a) (n : Int) :
    labelTrim (utf8Bytes s) n false = labelText (utf8Bytes s) n ∧
    labelTrim (utf8Bytes s) n true = .error .valueError := by
  have nowhere : ∀ w : Str, (∀ c ∈ w, c.toNat < 0x80) → w ≠ [] → (∀ b a, s ≠ b ++ w ++ a) →
      Nowhere (utf8Bytes w) (readBytes (utf8Bytes s) n) := by
    intro w hw hne hs b a he
    have : ∃ q, utf8Bytes s = readBytes (utf8Bytes s) n ++ q := by
      unfold readBytes
      split
      · exact ⟨[], by simp⟩
      · exact ⟨_, (List.take_append_drop _ _).symm⟩
    obtain ⟨q, hq⟩ := this
    rw [he, List.append_assoc] at hq
    obtain ⟨t, r, ht, _⟩ := ascii_occurs w hw hne s b (a ++ q) hq
    exact hs t r ht
  have hn1 := nowhere endLine endLine_ascii (by decide) h1
  rw [endLine_bytes] at hn1
  have hn2 := nowhere [Char.ofNat 0, Char.ofNat 0, Char.ofNat 0] (by decide) (by simp) h2
  rw [show utf8Bytes [Char.ofNat 0, Char.ofNat 0, Char.ofNat 0] = [0, 0, 0] by decide] at hn2
  refine ⟨?_, ?_⟩
  · exact (C63_trim_label labelDecode (utf8Bytes s) n false _ rfl).2.2 hn1 hn2
  · exact (C63_trim_label labelDecode (utf8Bytes s) n true _ rfl).2.2 hn1 hn2

/-- **C122**: a label whose `END` is followed by a line feed alone is not found; what is not text after it raises
`UnicodeDecodeError` even with `raise_for_failure=False` -/
theorem C122_unix : labelTrim (utf8Bytes "END\n".toList ++ [255]) (500 * 1024) false = .error .unicodeDecode := by rfl

end Verif.Props
