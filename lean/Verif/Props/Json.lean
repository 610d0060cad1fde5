import Verif.Lemmas.JsonSpec
import Verif.Lemmas.Pad
/-!
# C100: the JSON codec

What `json_codec_factory`'s `encode` accepts, and what its `decode` makes of it.
-/
namespace Verif.Props
open Verif Verif.Model Verif.Spec Verif.Lemmas
variable {F : Type} {FT : Floats F}

/-! ## floats for the examples: the whole numbers, written with `.0` -/

/-- floats that are whole numbers -/
def wholeFloats : Floats Int where
  repr i := decInt i ++ [46, 48]
  read t := match readInt 0 (t.takeWhile (· ≠ 46)) with
    | .ok i => i
    | .error _ => 0

theorem wholeFloats_ok : FloatsOK wholeFloats where
  text i := by
    refine ⟨if i < 0 then [45] else [], decNat i.natAbs, [46, 48], [], ?_, ?_, decNat_intText _, Or.inr ⟨[48], rfl, by simp, by decide⟩,
      Or.inl rfl, Or.inl (by simp)⟩
    · simp only [wholeFloats, decInt]
      split <;> simp
    · split <;> simp
  back i := by
    have h : ∀ c ∈ decInt i, c ≠ 46 := by
      intro c hc
      unfold decInt at hc
      have hd := decNat_digits i.natAbs
      split at hc
      · rcases List.mem_cons.1 hc with rfl | hc
        · decide
        · have := hd c hc
          rintro rfl; revert this; decide
      · have := hd c hc
        rintro rfl; revert this; decide
    have e : (decInt i ++ [46, 48]).takeWhile (fun c => decide (c ≠ 46)) = decInt i := by
      rw [List.takeWhile_append_of_pos (by intro c hc; simpa using h c hc)]
      simp
    have hr : readInt 0 (decInt i) = .ok i := readInt_decInt (Or.inl rfl)
    simp only [wholeFloats, e, hr]

/-! ## C100 -/

/-- C100: `encode` accepts exactly the values made of None, booleans, integers (not of more digits than the interpreter
writes), floats, strings, lists, tuples, and dicts whose keys are strings, integers, floats, booleans or None -/
theorem C100_encodes_iff (FT : Floats F) (lim : Nat) (v : PyVal F) :
    (∃ b, (jsonCodec FT lim).encode v = .ok b) ↔ JsonAble lim v := dumps_iff v 0

theorem intText_errors {lim : Nat} {i : Int} {e : PyErr} (h : intText lim i = .error e) : e = .valueError := by
  simp only [intText] at h
  split at h
  · cases h; rfl
  · cases h

theorem keyText_errors {lim : Nat} {k : PyVal F} {e : PyErr} (h : keyText FT lim k = .error e) :
    e = .typeError ∨ e = .valueError := by
  cases k with
  | int i => exact Or.inr (intText_errors h)
  | bool b => cases b <;> cases h
  | str _ => cases h
  | float _ => cases h
  | none => cases h
  | _ => cases h; exact Or.inl rfl

mutual
theorem dumps_errors {lim : Nat} {L : Layout} : ∀ (v : PyVal F) (lv : Nat) (e : PyErr), dumps FT lim L lv v = .error e →
    e = .typeError ∨ e = .valueError
  | .none, lv, e, h => by simp [dumps] at h
  | .bool b, lv, e, h => by cases b <;> simp [dumps] at h
  | .int i, lv, e, h => by simp only [dumps] at h; exact Or.inr (intText_errors h)
  | .float x, lv, e, h => by simp [dumps] at h
  | .str s, lv, e, h => by simp [dumps] at h
  | .bytes b, lv, e, h => by simp only [dumps] at h; cases h; exact Or.inl rfl
  | .set l, lv, e, h => by simp only [dumps] at h; cases h; exact Or.inl rfl
  | .other n, lv, e, h => by simp only [dumps] at h; cases h; exact Or.inl rfl
  | .list [], lv, e, h => by simp [dumps] at h
  | .list (v :: r), lv, e, h => by
    simp only [dumps] at h
    cases h1 : dumps FT lim L (lv + 1) v with
    | error e' => simp only [h1, bind, Except.bind] at h; cases h; exact dumps_errors v _ _ h1
    | ok a =>
      cases h2 : dumpsRest FT lim L lv r with
      | error e' => simp only [h1, h2, bind, Except.bind] at h; cases h; exact dumpsRest_errors r _ _ h2
      | ok b => simp [h1, h2, bind, Except.bind] at h
  | .tuple [], lv, e, h => by simp [dumps] at h
  | .tuple (v :: r), lv, e, h => by
    simp only [dumps] at h
    cases h1 : dumps FT lim L (lv + 1) v with
    | error e' => simp only [h1, bind, Except.bind] at h; cases h; exact dumps_errors v _ _ h1
    | ok a =>
      cases h2 : dumpsRest FT lim L lv r with
      | error e' => simp only [h1, h2, bind, Except.bind] at h; cases h; exact dumpsRest_errors r _ _ h2
      | ok b => simp [h1, h2, bind, Except.bind] at h
  | .dict [], lv, e, h => by simp [dumps] at h
  | .dict ((k, v) :: r), lv, e, h => by
    simp only [dumps] at h
    cases h0 : keyText FT lim k with
    | error e' => simp only [h0, bind, Except.bind] at h; cases h; exact keyText_errors h0
    | ok kt =>
      cases h1 : dumps FT lim L (lv + 1) v with
      | error e' => simp only [h0, h1, bind, Except.bind] at h; cases h; exact dumps_errors v _ _ h1
      | ok a =>
        cases h2 : dumpsItems FT lim L lv r with
        | error e' => simp only [h0, h1, h2, bind, Except.bind] at h; cases h; exact dumpsItems_errors r _ _ h2
        | ok b => simp [h0, h1, h2, bind, Except.bind] at h
theorem dumpsRest_errors {lim : Nat} {L : Layout} : ∀ (l : List (PyVal F)) (lv : Nat) (e : PyErr),
    dumpsRest FT lim L lv l = .error e → e = .typeError ∨ e = .valueError
  | [], lv, e, h => by simp [dumpsRest] at h
  | v :: r, lv, e, h => by
    simp only [dumpsRest] at h
    cases h1 : dumps FT lim L (lv + 1) v with
    | error e' => simp only [h1, bind, Except.bind] at h; cases h; exact dumps_errors v _ _ h1
    | ok a =>
      cases h2 : dumpsRest FT lim L lv r with
      | error e' => simp only [h1, h2, bind, Except.bind] at h; cases h; exact dumpsRest_errors r _ _ h2
      | ok b => simp [h1, h2, bind, Except.bind] at h
theorem dumpsItems_errors {lim : Nat} {L : Layout} : ∀ (l : List (PyVal F × PyVal F)) (lv : Nat) (e : PyErr),
    dumpsItems FT lim L lv l = .error e → e = .typeError ∨ e = .valueError
  | [], lv, e, h => by simp [dumpsItems] at h
  | (k, v) :: r, lv, e, h => by
    simp only [dumpsItems] at h
    cases h0 : keyText FT lim k with
    | error e' => simp only [h0, bind, Except.bind] at h; cases h; exact keyText_errors h0
    | ok kt =>
      cases h1 : dumps FT lim L (lv + 1) v with
      | error e' => simp only [h0, h1, bind, Except.bind] at h; cases h; exact dumps_errors v _ _ h1
      | ok a =>
        cases h2 : dumpsItems FT lim L lv r with
        | error e' => simp only [h0, h1, h2, bind, Except.bind] at h; cases h; exact dumpsItems_errors r _ _ h2
        | ok b => simp [h0, h1, h2, bind, Except.bind] at h
end

/-- C100: other values raise `TypeError`, or `ValueError` if an integer has too many digits -/
theorem C100_errors (FT : Floats F) (lim : Nat) (v : PyVal F) (e : PyErr) (h : (jsonCodec FT lim).encode v = .error e) :
    (e = .typeError ∨ e = .valueError) ∧ (lim = 0 → ¬ JsonAble 0 v) := by
  refine ⟨dumps_errors v 0 e h, fun hl ha => ?_⟩
  subst hl
  obtain ⟨b, hb⟩ := (C100_encodes_iff FT 0 v).2 ha
  rw [hb] at h
  cases h

/-- C100: what is encoded is never empty and is ASCII without zeros, so that it fits any block and any encoding -/
theorem C100_ascii (FT : Floats F) (hF : FloatsOK FT) (lim : Nat) (v : PyVal F) (b : Bytes)
    (h : (jsonCodec FT lim).encode v = .ok b) : b ≠ [] ∧ ∀ x ∈ b, x < 128 ∧ x ≠ 0 := by
  obtain ⟨c, r, e, _⟩ := dumps_begins hF h
  exact ⟨by rw [e]; simp, dumps_ascii hF compact_ok v 0 b h⟩

/-- C100: whatever `encode` accepted, `decode` gives its image: tuples as lists, keys as strings, items with the same key
string merged into the last, surrogate pairs joined, and all else as it was -/
theorem C100_comes_back (FT : Floats F) (hF : FloatsOK FT) (lim : Nat) (v : PyVal F) (hv : Proper v) (b : Bytes)
    (h : (jsonCodec FT lim).encode v = .ok b) : (jsonCodec FT lim).decode b = .ok (jsonImage FT v) := by
  have ha := (C100_ascii FT hF lim v b h).2
  have h1 : b.all (· < 128) = true := by simpa using fun x hx => (ha x hx).1
  have h2 : 0 ∉ b.take 2 := fun hx => (ha 0 (List.mem_of_mem_take hx)).2 rfl
  simp only [jsonCodec]
  rw [if_pos ⟨h1, h2⟩]
  exact loads_dumps hF compact_ok hv h

/-- C100: it is the value that went in exactly when that has no tuples, only string keys and no surrogate pairs -/
theorem C100_same_iff (FT : Floats F) (hF : FloatsOK FT) (lim : Nat) (v : PyVal F) (hv : Proper v) (b : Bytes)
    (h : (jsonCodec FT lim).encode v = .ok b) : (jsonCodec FT lim).decode b = .ok v ↔ JsonStable v := by
  rw [C100_comes_back FT hF lim v hv b h]
  constructor
  · intro e
    injection e with e
    exact stable_of_image v ((C100_encodes_iff FT lim v).1 ⟨b, h⟩) e
  · intro hs
    rw [image_of_stable v hv hs]

/-- C100: what came back can be encoded again and does not change any more -/
theorem C100_settles (FT : Floats F) (hF : FloatsOK FT) (lim : Nat) (v w : PyVal F) (hv : Proper v) (b : Bytes)
    (h : (jsonCodec FT lim).encode v = .ok b) (hw : (jsonCodec FT lim).decode b = .ok w) :
    ∃ b', (jsonCodec FT lim).encode w = .ok b' ∧ (jsonCodec FT lim).decode b' = .ok w := by
  rw [C100_comes_back FT hF lim v hv b h] at hw
  injection hw with hw
  subst hw
  obtain ⟨h1, h2, h3⟩ := image_good hF v hv ((C100_encodes_iff FT lim v).1 ⟨b, h⟩)
  obtain ⟨b', hb'⟩ := (C100_encodes_iff FT lim _).2 h2
  exact ⟨b', hb', (C100_same_iff FT hF lim _ h1 b' hb').2 h3⟩

/-- C100: a notepad with this codec keeps every such value other than None (which it takes for an absent one) -/
theorem C100_kept_by_notepads (FT : Floats F) (hF : FloatsOK FT) (lim : Nat) (isNone : PyVal F → Bool) (v : PyVal F)
    (hv : Proper v) (ha : JsonAble lim v) (hs : JsonStable v) (hn : isNone v = false) :
    ∃ b, Stable (jsonCodec FT lim) isNone v b := by
  obtain ⟨b, hb⟩ := (C100_encodes_iff FT lim v).2 ha
  exact ⟨b, hb, (C100_ascii FT hF lim v b hb).1, (C100_same_iff FT hF lim v hv b hb).2 hs, hn⟩

/-- C100, as far as it holds: a value of JSON's own types with string keys and no surrogate pairs comes back as it was -/
theorem C100_stable_partial (FT : Floats F) (hF : FloatsOK FT) (lim : Nat) (v : PyVal F) (hv : Proper v) (hs : JsonStable v) (b : Bytes)
    (h : (jsonCodec FT lim).encode v = .ok b) : (jsonCodec FT lim).decode b = .ok v :=
  (C100_same_iff FT hF lim v hv b h).2 hs

theorem dropWhile_all {p : Nat → Bool} : ∀ l : List Nat, l.dropWhile p = [] → ∀ c ∈ l, p c = true
  | [], _, _, hc => (by cases hc)
  | a :: l, h, c, hc => by
    cases ha : p a with
    | false => rw [List.dropWhile_cons, ha] at h; simp at h
    | true =>
      rw [List.dropWhile_cons, ha] at h
      rcases List.mem_cons.1 hc with rfl | hc
      · exact ha
      · exact dropWhile_all l (by simpa using h) c hc

/-- C100: a blob with something after the value: blanks and line ends are passed over, anything else is refused. What follows
must not go on with a number ("1" and "2" make "12"), nor have bytes the model does not cover. -/
theorem C100_followed (FT : Floats F) (hF : FloatsOK FT) (lim : Nat) (v : PyVal F) (hv : Proper v) (b rest : Bytes)
    (h : (jsonCodec FT lim).encode v = .ok b) (hs : Stops rest) (ha : ∀ x ∈ rest, x < 128 ∧ x ≠ 0) :
    (jsonCodec FT lim).decode (b ++ rest) = if rest.all isWs = true then .ok (jsonImage FT v) else .error .valueError := by
  have hb := (C100_ascii FT hF lim v b h).2
  have hall : ∀ x ∈ b ++ rest, x < 128 ∧ x ≠ 0 := fun x hx => (List.mem_append.1 hx).elim (hb x) (ha x)
  have h1 : (b ++ rest).all (· < 128) = true := by
    rw [List.all_eq_true]; intro x hx; simpa using (hall x hx).1
  have h2 : 0 ∉ (b ++ rest).take 2 := fun hx => (hall 0 (List.mem_of_mem_take hx)).2 rfl
  have hr := reads_dumps hF compact_ok v 0 b hv h rest ((b ++ rest).length + 1) hs (by simp only [List.length_append]; omega)
  have hk := (dumps_begins hF h).skip rest
  simp only [jsonCodec]
  rw [if_pos ⟨h1, h2⟩]
  simp only [loads, hk, hr, bind, Except.bind]
  by_cases hw : rest.all isWs = true
  · have : skipWs rest = [] := by
      have := skipWs_ws (fun c hc => List.all_eq_true.1 hw c hc) []
      rw [List.append_nil] at this
      rw [this]; rfl
    rw [if_pos hw, this]
  · rw [if_neg hw]
    cases e : skipWs rest with
    | nil =>
      exfalso
      apply hw
      rw [List.all_eq_true]
      exact dropWhile_all rest e
    | cons c r => rfl

example : Stops [10, 125] ∧ [10, 125].all isWs = false ∧ [10, 32].all isWs = true := by
  refine ⟨fun c r e => ?_, rfl, rfl⟩
  injection e with e _
  subst e
  decide

/-- C100, in full: whatever `encode` accepts comes back as it was -/
def C100_full : Prop :=
  ∀ (F : Type) (FT : Floats F), FloatsOK FT → ∀ (lim : Nat) (v : PyVal F), Proper v → ∀ b,
    (jsonCodec FT lim).encode v = .ok b → (jsonCodec FT lim).decode b = .ok v

/-- `{1: (2, 'ä'), '1': None}` -/
def lossy : PyVal Int := .dict [(.int 1, .tuple [.int 2, .str [228]]), (.str [49], .none)]

theorem lossy_proper : Proper lossy := by
  simp [lossy, Proper, ProperItems, Propers, TextOK]

/-- C100: the full statement is false: `{1: (2, 'ä'), '1': None}` comes back as `{'1': None}` -/
theorem C100_full_false : ¬ C100_full := by
  intro h
  have h1 := h Int wholeFloats wholeFloats_ok 4300 lossy lossy_proper _ rfl
  have h2 := C100_comes_back wholeFloats wholeFloats_ok 4300 lossy lossy_proper _ rfl
  have h3 := h1.symm.trans h2
  injection h3 with h3
  have h4 : jsonImage wholeFloats lossy = .dict [(.str [49], .none)] := rfl
  rw [h4] at h3
  simp [lossy] at h3

/-- a document with every kind of value JSON has: a lone surrogate, a character beyond the BMP, an escape, numbers of both
kinds, nested containers -/
def sampleDoc : PyVal Int :=
  .dict [(.str (codes "a\"\n".toList), .list [.int (-12), .float (.fin 7), .float .nan, .bool true, .none]),
    (.str [0xD800, 0x1F600], .dict [(.str [], .list [])])]

theorem sampleDoc_proper : Proper sampleDoc := by
  simp [sampleDoc, Proper, ProperItems, Propers, TextOK, codes]

theorem sampleDoc_stable : JsonStable sampleDoc := by
  simp [sampleDoc, JsonStable, JsonStableItems, JsonStables, StableKey, NoPair, codes, high, low]

theorem sampleDoc_able : JsonAble 4300 sampleDoc := (C100_encodes_iff wholeFloats 4300 _).1 ⟨_, rfl⟩

example : (jsonCodec wholeFloats 4300).encode sampleDoc =
    .ok (codes "{\"a\\\"\\n\": [-12, 7.0, NaN, true, null], \"\\ud800\\ud83d\\ude00\": {\"\": []}}".toList) := rfl

example : ∃ b, (jsonCodec wholeFloats 4300).encode sampleDoc = .ok b ∧ (jsonCodec wholeFloats 4300).decode b = .ok sampleDoc := by
  obtain ⟨b, hb⟩ := (C100_encodes_iff wholeFloats 4300 _).2 sampleDoc_able
  exact ⟨b, hb, (C100_same_iff wholeFloats wholeFloats_ok 4300 _ sampleDoc_proper b hb).2 sampleDoc_stable⟩

example : ∃ b, (jsonCodec wholeFloats 4300).encode lossy = .ok b ∧
    (jsonCodec wholeFloats 4300).decode b = .ok (.dict [(.str [49], .none)]) ∧
    (jsonCodec wholeFloats 4300).decode b ≠ .ok lossy := by
  refine ⟨_, rfl, C100_comes_back wholeFloats wholeFloats_ok 4300 lossy lossy_proper _ rfl, fun h => ?_⟩
  have := (C100_same_iff wholeFloats wholeFloats_ok 4300 lossy lossy_proper _ rfl).1 h
  simp [lossy, JsonStable, JsonStableItems, StableKey] at this

/-- two code points that make a surrogate pair come back as one character -/
example : (jsonCodec wholeFloats 4300).encode (.str [0xD83D, 0xDE00]) = .ok (codes "\"\\ud83d\\ude00\"".toList) ∧
    jsonImage wholeFloats (.str [0xD83D, 0xDE00]) = .str [0x1F600] := ⟨rfl, rfl⟩

/-- bytes, sets, other objects and other keys raise `TypeError`; an integer of too many digits `ValueError` -/
example : (jsonCodec wholeFloats 4300).encode (.list [.int 1, .bytes [1]]) = .error .typeError ∧
    (jsonCodec wholeFloats 4300).encode (.dict [(.tuple [], .int 1)]) = .error .typeError ∧
    (jsonCodec wholeFloats 3).encode (.list [.int 1000, .set []]) = .error .valueError := ⟨rfl, rfl, rfl⟩

example : (PyErr.typeError = .typeError ∨ PyErr.typeError = .valueError) ∧ (4300 = 0 → ¬ JsonAble 0 (.bytes [1] : PyVal Int)) :=
  C100_errors wholeFloats 4300 _ _ rfl

example (w : PyVal Int) (hw : (jsonCodec wholeFloats 4300).decode (codes "{\"1\": [2, \"\\u00e4\"], \"1\": null}".toList) = .ok w) :
    ∃ b', (jsonCodec wholeFloats 4300).encode w = .ok b' ∧ (jsonCodec wholeFloats 4300).decode b' = .ok w :=
  C100_settles wholeFloats wholeFloats_ok 4300 lossy w lossy_proper _ rfl hw

example : ∃ b, Stable (jsonCodec wholeFloats 4300) (fun _ => false) sampleDoc b :=
  C100_kept_by_notepads wholeFloats wholeFloats_ok 4300 _ _ sampleDoc_proper sampleDoc_able sampleDoc_stable rfl

end Verif.Props
