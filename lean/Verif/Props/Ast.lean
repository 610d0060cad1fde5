import Verif.Lemmas.AstEval
import Verif.Lemmas.Pad
/-!
# C103: the AST codec

What `ast_codec_factory`'s `encode` accepts, and what its `decode` makes of it.
-/
namespace Verif.Props
open Verif Verif.Model Verif.Spec Verif.Lemmas
variable {F : Type}

theorem pyStr_notStr {E : PyLits F} {v : PyVal F} (h : NotStr v) : pyStr E v = pyRepr E v := by
  cases v <;> first | rfl | simp [NotStr] at h

theorem encodable_notStr {E : PyLits F} {v : PyVal F} (h : NotStr v) : Encodable E v ↔ Showable E v := by
  cases v <;> first | exact Iff.rfl | simp [NotStr] at h

theorem utf8Encode_back {t : Text} (h : Each Scalar t) : ∃ b, utf8Encode t = .ok b ∧ utf8Decode b = .ok t := by
  obtain ⟨b, hb⟩ := (utf8Encode_iff t).2 fun c hc => (h c hc).2
  exact ⟨b, hb, utf8Decode_encode (fun c hc => (h c hc).1) hb⟩

/-- C103: `encode` accepts a string without surrogates, and every other value whose integers are not of more digits than the
interpreter writes and in which objects of other types are shown without surrogates -/
theorem C103_encodes_iff (E : PyLits F) (hE : LitsOK E) (v : PyVal F) : (∃ b, (astCodec E).encode v = .ok b) ↔ Encodable E v := by
  have key : ∀ v : PyVal F, NotStr v → ((∃ b, (astCodec E).encode v = .ok b) ↔ Encodable E v) := by
    intro v hn
    rw [encodable_notStr hn, ← repr_iff hE]
    simp only [astCodec, pyStr_notStr hn]
    constructor
    · rintro ⟨b, h⟩
      cases ht : pyRepr E v with
      | error e => simp [ht, bind, Except.bind] at h
      | ok t =>
        simp only [ht, bind, Except.bind] at h
        exact ⟨t, rfl, (utf8Encode_iff t).1 ⟨b, h⟩⟩
    · rintro ⟨t, ht, hs⟩
      obtain ⟨b, hb⟩ := (utf8Encode_iff t).2 hs
      exact ⟨b, by simp only [ht, bind, Except.bind]; exact hb⟩
  cases v with
  | str s => exact utf8Encode_iff s
  | _ => exact key _ trivial

/-- C103: other values raise `ValueError` -/
theorem C103_errors (E : PyLits F) (v : PyVal F) (e : PyErr) (h : (astCodec E).encode v = .error e) : e = .valueError := by
  have h2 : ∀ t, utf8Encode t = .error e → e = .valueError := by
    intro t h
    unfold utf8Encode at h
    split at h
    · injection h with h; exact h.symm
    · cases h
  simp only [astCodec] at h
  cases ht : pyStr E v with
  | ok t =>
    simp only [ht, bind, Except.bind] at h
    exact h2 t h
  | error e' =>
    simp only [ht, bind, Except.bind] at h
    injection h with h
    subst h
    cases v with
    | str s => simp [pyStr] at ht
    | _ => exact repr_errors _ _ ht

theorem decode_repr {E : PyLits F} (hE : LitsOK E) {v : PyVal F} (hs : Sound E v) (hd : depth v ≤ E.nesting) {t : Text}
    (ht : pyRepr E v = .ok t) {b : Bytes} (hb : utf8Encode t = .ok b) : Evals (AllFinite v) ((astCodec E).decode b) v := by
  have hu := utf8Decode_encode (fun c hc => (each_repr hE v t hs ht c hc).1) hb
  simp only [astCodec, hu, bind, Except.bind]
  exact literalEval_repr hE hs hd ht

theorem encode_notStr {E : PyLits F} {v : PyVal F} (hn : NotStr v) {b : Bytes} (h : (astCodec E).encode v = .ok b) :
    ∃ t, pyRepr E v = .ok t ∧ utf8Encode t = .ok b := by
  simp only [astCodec, pyStr_notStr hn] at h
  cases ht : pyRepr E v with
  | error e => simp [ht, bind, Except.bind] at h
  | ok t => simp only [ht, bind, Except.bind] at h; exact ⟨t, rfl, h⟩

/-- C103, as far as it holds: a value of the built-in types other than a string, without nan and infinities, not nested deeper
than source code may be, comes back as it was: tuples as tuples, keys of any type as they are, bytes and sets too -/
theorem C103_same_partial (E : PyLits F) (hE : LitsOK E) (v : PyVal F) (hn : NotStr v) (hs : Sound E v) (hf : AllFinite v)
    (hd : depth v ≤ E.nesting) (b : Bytes) (h : (astCodec E).encode v = .ok b) : (astCodec E).decode b = .ok v := by
  obtain ⟨t, ht, hb⟩ := encode_notStr hn h
  exact (decode_repr hE hs hd ht hb).1 hf

/-- C103: a value with nan or an infinity in it is encoded but cannot be decoded: `ValueError` -/
theorem C103_nan_raises (E : PyLits F) (hE : LitsOK E) (v : PyVal F) (hn : NotStr v) (hs : Sound E v) (hf : ¬ AllFinite v)
    (hd : depth v ≤ E.nesting) (b : Bytes) (h : (astCodec E).encode v = .ok b) : (astCodec E).decode b = .error .valueError := by
  obtain ⟨t, ht, hb⟩ := encode_notStr hn h
  exact (decode_repr hE hs hd ht hb).2 hf

/-- C103: a string that is the `repr` of a value comes back as that value -/
theorem C103_strings_evaluated (E : PyLits F) (hE : LitsOK E) (v : PyVal F) (hs : Sound E v) (hf : AllFinite v)
    (hd : depth v ≤ E.nesting) (t : Text) (h : pyRepr E v = .ok t) :
    ∃ b, (astCodec E).encode (.str t) = .ok b ∧ (astCodec E).decode b = .ok v := by
  obtain ⟨b, hb, _⟩ := utf8Encode_back (each_repr hE v t hs h)
  exact ⟨b, hb, (decode_repr hE hs hd h hb).1 hf⟩

theorem reserved_words {t : Text} (h : ∀ w ∈ pyWords, t ≠ codes w.toList) :
    t ≠ noneText ∧ t ≠ pyTrue ∧ t ≠ pyFalse ∧ t ∉ keywords := by
  refine ⟨h "None" (by decide), h "True" (by decide), h "False" (by decide), ?_⟩
  intro hk
  obtain ⟨w, hw, rfl⟩ := List.mem_map.1 hk
  refine h w ?_ rfl
  have : ∀ x ∈ (["and", "as", "assert", "async", "await", "break", "class", "continue", "def", "del", "elif", "else", "except", "finally",
   "for", "from", "global", "if", "import", "in", "is", "lambda", "nonlocal", "not", "or", "pass", "raise", "return", "try",
   "while", "with", "yield"] : List String), x ∈ pyWords := by decide
  exact this w hw

/-- C103: a string that is a word is encoded but cannot be decoded: `ValueError` -/
theorem C103_words_raise (E : PyLits F) (t : Text) (h : IsWord t) :
    ∃ b, (astCodec E).encode (.str t) = .ok b ∧ (astCodec E).decode b = .error .valueError := by
  obtain ⟨c, r, rfl, hc, hr, hw⟩ := h
  have hci : identStart c = true := by
    unfold Letter at hc
    simpa [identStart, or_assoc] using hc
  have hri : ∀ x ∈ r, identChar x = true := by
    intro x hx
    have := hr x hx
    unfold Letter at this
    simp only [identChar, identStart, isDigit, Bool.or_eq_true, Bool.and_eq_true, decide_eq_true_eq, beq_iff_eq]
    omega
  have hp : ParsesAs E E.nesting (c :: r) (.name (c :: r)) :=
    parses_word hci hri fun rest hrest => wordExpr_name hrest (reserved_words hw)
  have he : Each Scalar (c :: r) := by
    refine each_cons (scalar_ascii _ ?_) fun x hx => scalar_ascii _ ?_
    · unfold Letter at hc; omega
    · have := hr x hx; unfold Letter at this; omega
  obtain ⟨b, hb, hu⟩ := utf8Encode_back he
  refine ⟨b, hb, ?_⟩
  simp only [astCodec, hu, bind, Except.bind]
  rw [literalEval_parses hp]
  rfl

/-- C103: a notepad with this codec keeps every such value other than None (which it takes for an absent one) -/
theorem C103_kept_by_notepads (E : PyLits F) (hE : LitsOK E) (isNone : PyVal F → Bool) (v : PyVal F) (hn : NotStr v)
    (hs : Sound E v) (hw : Showable E v) (hf : AllFinite v) (hd : depth v ≤ E.nesting) (h0 : isNone v = false) :
    ∃ b, Stable (astCodec E) isNone v b := by
  obtain ⟨b, hb⟩ := (C103_encodes_iff E hE v).2 ((encodable_notStr hn).2 hw)
  refine ⟨b, hb, ?_, C103_same_partial E hE v hn hs hf hd b hb, h0⟩
  obtain ⟨t, ht, hu⟩ := encode_notStr hn hb
  obtain ⟨c, r, e, _⟩ := (parses_repr hE v _ t hs ht (Nat.le_refl _)).head
  exact utf8Encode_nonempty hu (by rw [e]; simp)

/-- C103, in full: whatever `encode` accepts comes back as it was -/
def C103_full : Prop :=
  ∀ (F : Type) (E : PyLits F), LitsOK E → ∀ v : PyVal F, Sound E v → depth v ≤ E.nesting → ∀ b,
    (astCodec E).encode v = .ok b → (astCodec E).decode b = .ok v

/-! ## examples -/

/-- equality of the keys of the examples -/
def sameKey : PyVal Int → PyVal Int → Bool
  | .int a, .int b => a == b
  | .str a, .str b => a == b
  | .tuple [.int a], .tuple [.int b] => a == b
  | .none, .none => true
  | _, _ => false

/-- floats that are whole numbers, as in C100; the characters from 161 to 0xD7FF are printable; 200 brackets may be open -/
def wholeLits : PyLits Int where
  repr i := decInt i ++ [46, 48]
  read t := .fin (textNat (t.takeWhile (· ≠ 46)) : Nat)
  neg i := -i
  printable c := 160 < c && c < 0xD800
  same := sameKey
  shown _ := codes "<object>".toList
  digits := 4300
  nesting := 200
  elsewhere _ := .error .runtimeError

theorem takeWhile_point {d : Text} (h : ∀ c ∈ d, isDigit c = true) : (d ++ [46, 48]).takeWhile (fun c => decide (c ≠ 46)) = d := by
  rw [List.takeWhile_append_of_pos]
  · simp
  · intro c hc
    have := h c hc
    simp only [decide_eq_true_eq]
    rintro rfl
    revert this; decide

theorem wholeLits_ok : LitsOK wholeLits where
  text i := by
    refine ⟨if i < 0 then [45] else [], decNat i.natAbs, [46, 48], [], ?_, ?_, decNat_intText _, Or.inr ⟨[48], rfl, by simp, by decide⟩,
      Or.inl rfl, Or.inl (by simp)⟩
    · simp only [wholeLits, decInt]
      split <;> simp
    · split <;> simp
  pos i h := by
    by_cases hi : i < 0
    · simp [wholeLits, decInt, hi] at h
    · simp only [wholeLits, decInt, if_neg hi, takeWhile_point (decNat_digits _), textNat_decNat]
      rw [show ((i.natAbs : Nat) : Int) = i by omega]
  neg i t h := by
    by_cases hi : i < 0
    · simp only [wholeLits, decInt, if_pos hi, List.cons_append] at h
      injection h with _ h
      subst h
      refine ⟨(i.natAbs : Nat), ?_, ?_⟩
      · simp only [wholeLits, takeWhile_point (decNat_digits _), textNat_decNat]
      · simp only [wholeLits]; omega
    · simp only [wholeLits, decInt, if_neg hi] at h
      obtain ⟨c, r, e, hc⟩ := digit_of_intText (decNat_intText i.natAbs)
      rw [e] at h
      injection h with h _
      subst h
      exact absurd hc (by decide)
  printable c h := by
    simp only [wholeLits, Bool.and_eq_true, decide_eq_true_eq] at h
    refine ⟨by omega, ?_⟩
    simp [isSurrogate]; omega

/-- `{1: (2, 'ä'), '1': None, (0,): [b'\xff', set(), {-3}, -4.0, True, "it's"]}` -/
def literal : PyVal Int :=
  .dict [(.int 1, .tuple [.int 2, .str [228]]), (.str [49], .none),
    (.tuple [.int 0], .list [.bytes [255], .set [], .set [.int (-3)], .float (.fin (-4)), .bool true, .str (codes "it's".toList)])]

theorem literal_sound : Sound wholeLits literal := by
  simp [literal, Sound, Sounds, SoundItems, CanHash, CanHashAll, TextOK, wholeLits, sameKey, codes]

theorem literal_finite : AllFinite literal := by simp [literal, AllFinite, AllFinites, AllFiniteItems]

theorem literal_writable : Showable wholeLits literal := by
  simp [literal, Showable, ShowableAll, ShowableItems, Short, wholeLits, show (decNat 1).length = 1 from rfl,
    show (decNat 2).length = 1 from rfl, show (decNat 0).length = 1 from rfl, show (decNat 3).length = 1 from rfl]

example : (astCodec wholeLits).encode literal = (utf8Encode
    (codes "{1: (2, 'ä'), '1': None, (0,): [b'\\xff', set(), {-3}, -4.0, True, \"it's\"]}".toList)) := rfl

example : ∃ b, (astCodec wholeLits).encode literal = .ok b ∧ (astCodec wholeLits).decode b = .ok literal := by
  obtain ⟨b, hb⟩ := (C103_encodes_iff wholeLits wholeLits_ok literal).2 literal_writable
  exact ⟨b, hb, C103_same_partial wholeLits wholeLits_ok literal trivial literal_sound literal_finite (by decide) b hb⟩

example : ∃ b, Stable (astCodec wholeLits) (fun _ => false) literal b :=
  C103_kept_by_notepads wholeLits wholeLits_ok _ literal trivial literal_sound literal_writable literal_finite (by decide) rfl

/-- the quotes are CPython's: double ones only if there are single ones inside and no double ones -/
example : (astCodec wholeLits).encode (.list [.str [39], .str [34], .str [39, 34]]) = .ok (codes "[\"'\", '\"', '\\'\"']".toList) := rfl

/-- `[1, nan]` is written and cannot be read -/
example : ∃ b, (astCodec wholeLits).encode (.list [.int 1, .float .nan]) = .ok b ∧ (astCodec wholeLits).decode b = .error .valueError :=
  ⟨_, rfl, C103_nan_raises wholeLits wholeLits_ok (.list [.int 1, .float .nan]) trivial (by simp [Sound, Sounds])
    (by simp [AllFinite, AllFinites]) (by decide) _ rfl⟩

/-- the string `hello` is written and cannot be read -/
example : ∃ b, (astCodec wholeLits).encode (.str (codes "hello".toList)) = .ok b ∧ (astCodec wholeLits).decode b = .error .valueError :=
  C103_words_raise wholeLits _ ⟨104, codes "ello".toList, rfl, by simp [Letter], by simp [Letter, codes], by decide⟩

/-- the string `[1, 2]` comes back as a list -/
example : ∃ b, (astCodec wholeLits).encode (.str (codes "[1, 2]".toList)) = .ok b ∧
    (astCodec wholeLits).decode b = .ok (.list [.int 1, .int 2]) :=
  C103_strings_evaluated wholeLits wholeLits_ok (.list [.int 1, .int 2]) (by simp [Sound, Sounds]) (by simp [AllFinite, AllFinites])
    (by decide) _ rfl

/-- a string with a surrogate is not written alone, but as an element it is -/
example : (astCodec wholeLits).encode (.str [0xD800]) = .error .valueError ∧
    (astCodec wholeLits).encode (.list [.str [0xD800]]) = utf8Encode (codes "['\\ud800']".toList) := ⟨rfl, rfl⟩

example : PyErr.valueError = .valueError := C103_errors wholeLits (.str [0xD800]) _ rfl

theorem convertSet_bad (E : PyLits F) (pre post : List (Expr F)) (e : Expr F) (v : PyVal F) (he : convert E e = .ok v)
    (hv : hashable v = false) (s s' : List (PyVal F)) (hpre : convertSet E s pre = .ok s') :
    convertSet E s (pre ++ e :: post) = .error .typeError := by
  induction pre generalizing s with
  | nil => simp [convertSet, he, hv, bind, Except.bind]
  | cons x t ih =>
    rw [List.cons_append, convertSet]
    rw [convertSet] at hpre
    cases hx : convert E x with
    | error e => rw [hx] at hpre; cases hpre
    | ok y =>
      rw [hx] at hpre
      simp only [bind, Except.bind] at hpre ⊢
      cases hh : hashable y with
      | false => rw [hh] at hpre; cases hpre
      | true => rw [hh] at hpre; exact ih _ hpre

/-- **C103**: a blob that writes a set with a member Python cannot hash (a list, a dict, a set, or a tuple with one of them)
raises `TypeError` -/
theorem C103_unhashable (E : PyLits F) (b : Bytes) (t : Text) (pre post : List (Expr F)) (e : Expr F) (v : PyVal F)
    (s' : List (PyVal F)) (hb : utf8Decode b = .ok t)
    (hp : parseExpr E ((t.dropWhile fun c => c == 32 || c == 9).length + 1) E.nesting (t.dropWhile fun c => c == 32 || c == 9) =
      some (.set (pre ++ e :: post), []))
    (hpre : convertSet E [] pre = .ok s') (he : convert E e = .ok v) (hv : hashable v = false) :
    (astCodec E).decode b = .error .typeError := by
  simp only [astCodec, hb, literalEval, bind, Except.bind]
  rw [hp]
  simp only [convert, convertSet_bad E pre post e v he hv [] s' hpre]
  rfl

/-- `{1, (2, [])}` -/
example : (astCodec wholeLits).decode [123, 49, 44, 32, 40, 50, 44, 32, 91, 93, 41, 125] = .error .typeError :=
  C103_unhashable wholeLits _ [123, 49, 44, 32, 40, 50, 44, 32, 91, 93, 41, 125] [.const (.int 1)] []
    (.tuple [.const (.int 2), .list []]) (.tuple [.int 2, .list []]) [.int 1] (by with_unfolding_all rfl)
    (by with_unfolding_all rfl) (by with_unfolding_all rfl) (by with_unfolding_all rfl) (by with_unfolding_all rfl)


/-- C103: the full statement is false: the string `123` comes back as the number -/
theorem C103_full_false : ¬ C103_full := by
  intro h
  have h1 := h Int wholeLits wholeLits_ok (.str (codes "123".toList)) (by simp [Sound, TextOK, codes]) (by decide) _ rfl
  obtain ⟨b, hb, h2⟩ := C103_strings_evaluated wholeLits wholeLits_ok (.int 123) (by simp [Sound]) (by simp [AllFinite]) (by decide) _ rfl
  have e : b = codes "123".toList := by
    injection hb with hb
    exact hb.symm
  subst e
  have h3 := h1.symm.trans h2
  simp at h3

end Verif.Props
