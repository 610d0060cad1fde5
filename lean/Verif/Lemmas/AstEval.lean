import Verif.Lemmas.Ast
/-! # Python's literals, evaluated -/
namespace Verif.Lemmas
open Verif Verif.Model Verif.Spec
variable {F : Type} {E : PyLits F}

mutual
theorem hashable_of : ∀ v : PyVal F, CanHash v → hashable v = true
  | .none, _ => rfl
  | .bool _, _ => rfl
  | .int _, _ => rfl
  | .float _, _ => rfl
  | .str _, _ => rfl
  | .bytes _, _ => rfl
  | .other _, _ => rfl
  | .list _, h => by simp [CanHash] at h
  | .set _, h => by simp [CanHash] at h
  | .dict _, h => by simp [CanHash] at h
  | .tuple l, h => by simp only [CanHash] at h; simp only [hashable]; exact hashables_of l h
theorem hashables_of : ∀ l : List (PyVal F), CanHashAll l → hashables l = true
  | [], _ => rfl
  | v :: r, h => by
    simp only [CanHashAll] at h
    simp [hashables, hashable_of v h.1, hashables_of r h.2]
end

theorem setAdd_new {s : List (PyVal F)} {v : PyVal F} (h : ∀ x ∈ s, E.same x v = false) : setAdd E s v = s ++ [v] := by
  unfold setAdd
  rw [if_neg]
  simp only [List.any_eq_true, not_exists, not_and]
  intro x hx
  simp [h x hx]

theorem dictAdd_new {k v : PyVal F} : ∀ {d : List (PyVal F × PyVal F)}, (∀ p ∈ d, E.same p.1 k = false) → dictAdd E d k v = d ++ [(k, v)]
  | [], _ => rfl
  | (k', v') :: d, h => by
    have h1 := h (k', v') (by simp)
    simp only [] at h1
    have h2 := dictAdd_new (d := d) (v := v) fun p hp => h p (by simp [hp])
    simp [dictAdd, h1, h2]

/-- the value if it is finite, else `ValueError` -/
def Evals {α : Type} (P : Prop) (x : Except PyErr α) (v : α) : Prop := (P → x = .ok v) ∧ (¬ P → x = .error .valueError)

theorem evals_map {α β : Type} {P : Prop} {x : Except PyErr α} {v : α} (h : Evals P x v) (g : α → β) : Evals P (x.map g) (g v) :=
  ⟨fun hp => by rw [h.1 hp]; rfl, fun hp => by rw [h.2 hp]; rfl⟩

mutual
theorem convert_astOf (hE : LitsOK E) : ∀ v : PyVal F, Sound E v → Evals (AllFinite v) (convert E (astOf E v)) v
  | .none, _ => ⟨fun _ => rfl, fun h => by simp [AllFinite] at h⟩
  | .bool _, _ => ⟨fun _ => rfl, fun h => by simp [AllFinite] at h⟩
  | .int i, _ => by
    refine ⟨fun _ => ?_, fun h => by simp [AllFinite] at h⟩
    simp only [astOf]
    by_cases hi : i < 0
    · rw [if_pos hi]
      simp only [convert]
      rw [show -((i.natAbs : Nat) : Int) = i by omega]
    · rw [if_neg hi]
      simp only [convert]
      rw [show ((i.natAbs : Nat) : Int) = i by omega]
  | .float (.fin f), _ => by
    refine ⟨fun _ => ?_, fun h => by simp [AllFinite] at h⟩
    simp only [astOf]
    by_cases hf : (E.repr f).head? = some 45
    · rw [if_pos hf]
      obtain ⟨t, ht⟩ : ∃ t, E.repr f = 45 :: t := by
        cases h : E.repr f with
        | nil => rw [h] at hf; simp at hf
        | cons c t => rw [h] at hf; simp at hf; exact ⟨t, by rw [hf]⟩
      obtain ⟨g, h1, h2⟩ := hE.neg f t ht
      simp only [ht, List.tail_cons, h1, convert, negFloat, h2]
    · rw [if_neg hf, hE.pos f hf]
      rfl
  | .float .nan, _ => ⟨fun h => by simp [AllFinite] at h, fun _ => rfl⟩
  | .float .inf, _ => ⟨fun h => by simp [AllFinite] at h, fun _ => rfl⟩
  | .float .negInf, _ => ⟨fun h => by simp [AllFinite] at h, fun _ => rfl⟩
  | .str _, _ => ⟨fun _ => rfl, fun h => by simp [AllFinite] at h⟩
  | .bytes _, _ => ⟨fun _ => rfl, fun h => by simp [AllFinite] at h⟩
  | .other _, h => by simp [Sound] at h
  | .list l, h => by
    simp only [Sound] at h
    simp only [AllFinite, astOf, convert]
    exact evals_map (convertAll_asts hE l h) PyVal.list
  | .tuple l, h => by
    simp only [Sound] at h
    simp only [AllFinite, astOf, convert]
    exact evals_map (convertAll_asts hE l h) PyVal.tuple
  | .set [], _ => by
    refine ⟨fun _ => ?_, fun h => by simp [AllFinite, AllFinites] at h⟩
    simp [astOf, convert]
  | .set (v :: r), h => by
    simp only [Sound] at h
    simp only [AllFinite, astOf, convert]
    exact evals_map (convertSet_asts hE (v :: r) [] h.2.2 h.1 h.2.1 (by simp)) PyVal.set
  | .dict d, h => by
    simp only [Sound] at h
    simp only [AllFinite, astOf, convert]
    exact evals_map (convertDict_asts hE d [] h.2.2 h.1 h.2.1 (by simp)) PyVal.dict
theorem convertAll_asts (hE : LitsOK E) : ∀ l : List (PyVal F), Sounds E l → Evals (AllFinites l) (convertAll E (astsOf E l)) l
  | [], _ => ⟨fun _ => rfl, fun h => by simp [AllFinites] at h⟩
  | v :: r, h => by
    simp only [Sounds] at h
    have h1 := convert_astOf hE v h.1
    have h2 := convertAll_asts hE r h.2
    simp only [AllFinites, astsOf, convertAll]
    refine ⟨fun hf => by simp [h1.1 hf.1, h2.1 hf.2, bind, Except.bind], fun hf => ?_⟩
    by_cases hv : AllFinite v
    · simp [h1.1 hv, h2.2 fun hr => hf ⟨hv, hr⟩, bind, Except.bind]
    · simp [h1.2 hv, bind, Except.bind]
theorem convertSet_asts (hE : LitsOK E) : ∀ (l s : List (PyVal F)), Sounds E l → (∀ x ∈ l, CanHash x) →
    l.Pairwise (fun x y => E.same x y = false) → (∀ x ∈ s, ∀ y ∈ l, E.same x y = false) →
    Evals (AllFinites l) (convertSet E s (astsOf E l)) (s ++ l)
  | [], s, _, _, _, _ => ⟨fun _ => by simp [astsOf, convertSet], fun h => by simp [AllFinites] at h⟩
  | v :: r, s, h, hh, hp, hs => by
    simp only [Sounds] at h
    have hp' := List.pairwise_cons.1 hp
    have h1 := convert_astOf hE v h.1
    have hv := hashable_of v (hh v (by simp))
    have ha := setAdd_new (E := E) (s := s) (v := v) fun x hx => hs x hx v (by simp)
    have h2 := convertSet_asts hE r (s ++ [v]) h.2 (fun x hx => hh x (by simp [hx])) hp'.2 (by
      intro x hx y hy
      rcases List.mem_append.1 hx with hx | hx
      · exact hs x hx y (by simp [hy])
      · rw [List.mem_singleton.1 hx]; exact hp'.1 y hy)
    simp only [AllFinites, astsOf, convertSet]
    refine ⟨fun hf => ?_, fun hf => ?_⟩
    · have := h2.1 hf.2
      simp only [List.append_assoc, List.cons_append, List.nil_append] at this
      simp [h1.1 hf.1, hv, ha, this, bind, Except.bind]
    · by_cases hv' : AllFinite v
      · simp [h1.1 hv', hv, ha, h2.2 fun hr => hf ⟨hv', hr⟩, bind, Except.bind]
      · simp [h1.2 hv', bind, Except.bind]
theorem convertDict_asts (hE : LitsOK E) : ∀ (l s : List (PyVal F × PyVal F)), SoundItems E l → (∀ x ∈ l, CanHash x.1) →
    l.Pairwise (fun x y => E.same x.1 y.1 = false) → (∀ x ∈ s, ∀ y ∈ l, E.same x.1 y.1 = false) →
    Evals (AllFiniteItems l) (convertDict E s (astItems E l)) (s ++ l)
  | [], s, _, _, _, _ => ⟨fun _ => by simp [astItems, convertDict], fun h => by simp [AllFiniteItems] at h⟩
  | (k, v) :: r, s, h, hh, hp, hs => by
    simp only [SoundItems] at h
    have hp' := List.pairwise_cons.1 hp
    have h0 := convert_astOf hE k h.1
    have h1 := convert_astOf hE v h.2.1
    have hk := hashable_of k (hh (k, v) (by simp))
    have ha := dictAdd_new (E := E) (d := s) (k := k) (v := v) fun x hx => hs x hx (k, v) (by simp)
    have h2 := convertDict_asts hE r (s ++ [(k, v)]) h.2.2 (fun x hx => hh x (by simp [hx])) hp'.2 (by
      intro x hx y hy
      rcases List.mem_append.1 hx with hx | hx
      · exact hs x hx y (by simp [hy])
      · rw [List.mem_singleton.1 hx]; exact hp'.1 y hy)
    simp only [AllFiniteItems, astItems, convertDict]
    refine ⟨fun hf => ?_, fun hf => ?_⟩
    · have := h2.1 hf.2.2
      simp only [List.append_assoc, List.cons_append, List.nil_append] at this
      simp [h0.1 hf.1, h1.1 hf.2.1, hk, ha, this, bind, Except.bind]
    · by_cases hk' : AllFinite k
      · by_cases hv' : AllFinite v
        · simp [h0.1 hk', h1.1 hv', hk, ha, h2.2 fun hr => hf ⟨hk', hv', hr⟩, bind, Except.bind]
        · simp [h0.1 hk', h1.2 hv', bind, Except.bind]
      · simp [h0.2 hk', bind, Except.bind]
end

theorem dropWhile_head {t : Text} (h : ∃ c r, t = c :: r ∧ c ≠ 32 ∧ c ≠ 9) : (t.dropWhile fun c => c == 32 || c == 9) = t := by
  obtain ⟨c, r, rfl, h1, h2⟩ := h
  simp [h1, h2]

/-- `literal_eval` of a text that is an expression -/
theorem literalEval_parses {t : Text} {e : Expr F} (h : ParsesAs E E.nesting t e) : literalEval E t = convert E e := by
  have h1 := h (t.length + 1) [] ends_nil (by omega)
  obtain ⟨c, r, hcr, _, _, _, h2, h3, _⟩ := h.head
  have h4 := dropWhile_head ⟨c, r, hcr, h2, h3⟩
  rw [List.append_nil] at h1
  simp only [literalEval, h4, h1]

theorem literalEval_repr (hE : LitsOK E) {v : PyVal F} (hs : Sound E v) (hd : depth v ≤ E.nesting) {t : Text} (h : pyRepr E v = .ok t) :
    Evals (AllFinite v) (literalEval E t) v := by
  rw [literalEval_parses (parses_repr hE v _ t hs h hd)]
  exact convert_astOf hE v hs

/-! ## the characters of `repr` -/

/-- what is true of every character of a text -/
def Each (P : Nat → Prop) (t : Text) : Prop := ∀ c ∈ t, P c

theorem each_append {P : Nat → Prop} {a b : Text} (ha : Each P a) (hb : Each P b) : Each P (a ++ b) := by
  intro c hc
  rcases List.mem_append.1 hc with hc | hc
  · exact ha c hc
  · exact hb c hc

theorem each_cons {P : Nat → Prop} {c : Nat} {b : Text} (ha : P c) (hb : Each P b) : Each P (c :: b) := by
  intro x hx
  rcases List.mem_cons.1 hx with rfl | hx
  · exact ha
  · exact hb x hx

theorem each_append_iff {P : Nat → Prop} {a b : Text} : Each P (a ++ b) ↔ Each P a ∧ Each P b :=
  ⟨fun h => ⟨fun c hc => h c (by simp [hc]), fun c hc => h c (by simp [hc])⟩, fun h => each_append h.1 h.2⟩

theorem each_cons_iff {P : Nat → Prop} {c : Nat} {b : Text} : Each P (c :: b) ↔ P c ∧ Each P b :=
  ⟨fun h => ⟨h c (by simp), fun x hx => h x (by simp [hx])⟩, fun h => each_cons h.1 h.2⟩

theorem hexDigit_small (n : Nat) (h : n < 16) : hexDigit n < 127 := by
  have : n = 0 ∨ n = 1 ∨ n = 2 ∨ n = 3 ∨ n = 4 ∨ n = 5 ∨ n = 6 ∨ n = 7 ∨ n = 8 ∨ n = 9 ∨ n = 10 ∨ n = 11 ∨ n = 12 ∨
    n = 13 ∨ n = 14 ∨ n = 15 := by omega
  rcases this with h | h | h | h | h | h | h | h | h | h | h | h | h | h | h | h <;> subst h <;> decide

theorem each_hex2 {P : Nat → Prop} (hP : ∀ c, c < 128 → P c) (n : Nat) : Each P (hex2 n) := by
  intro c hc
  simp only [hex2, List.mem_cons, List.not_mem_nil, or_false] at hc
  rcases hc with rfl | rfl <;> exact hP _ (by have := hexDigit_small (n % 16) (by omega); have := hexDigit_small (n / 16 % 16) (by omega); omega)

theorem each_hex4 {P : Nat → Prop} (hP : ∀ c, c < 128 → P c) (n : Nat) : Each P (hex4 n) := by
  intro c hc
  simp only [hex4, List.mem_cons, List.not_mem_nil, or_false] at hc
  rcases hc with rfl | rfl | rfl | rfl <;> refine hP _ (Nat.lt_succ_of_lt (hexDigit_small _ ?_)) <;> omega

/-- a property of ASCII characters and of the printable ones of a string is one of the string's `repr` -/
theorem each_escChar {P : Nat → Prop} (hP : ∀ c, c < 128 → P c) {p : Nat → Bool} {q c : Nat} (hq : q = 39 ∨ q = 34)
    (hp : p c = true → P c) : Each P (escChar p q c) := by
  unfold escChar
  by_cases h1 : c = q ∨ c = 92
  · rw [if_pos h1]; exact each_cons (hP _ (by omega)) (each_cons (hP _ (by omega)) (by simp [Each]))
  rw [if_neg h1]
  by_cases h2 : c = 9
  · rw [if_pos h2]; exact each_cons (hP _ (by omega)) (each_cons (hP _ (by omega)) (by simp [Each]))
  rw [if_neg h2]
  by_cases h2 : c = 10
  · rw [if_pos h2]; exact each_cons (hP _ (by omega)) (each_cons (hP _ (by omega)) (by simp [Each]))
  rw [if_neg h2]
  by_cases h2 : c = 13
  · rw [if_pos h2]; exact each_cons (hP _ (by omega)) (each_cons (hP _ (by omega)) (by simp [Each]))
  rw [if_neg h2]
  by_cases h2 : c < 32 ∨ c = 127
  · rw [if_pos h2]; exact each_cons (hP _ (by omega)) (each_cons (hP _ (by omega)) (each_hex2 hP _))
  rw [if_neg h2]
  by_cases h2 : c < 127
  · rw [if_pos h2]; exact each_cons (hP _ (by omega)) (by simp [Each])
  rw [if_neg h2]
  by_cases h2 : p c = true
  · rw [if_pos h2]; exact each_cons (hp h2) (by simp [Each])
  rw [if_neg h2]
  split
  · exact each_cons (hP _ (by omega)) (each_cons (hP _ (by omega)) (each_hex2 hP _))
  split
  · exact each_cons (hP _ (by omega)) (each_cons (hP _ (by omega)) (each_hex4 hP _))
  · exact each_cons (hP _ (by omega)) (each_cons (hP _ (by omega)) (each_append (each_hex4 hP _) (each_hex4 hP _)))

theorem each_strRepr {P : Nat → Prop} (hP : ∀ c, c < 128 → P c) {p : Nat → Bool} {s : Text}
    (hp : ∀ c ∈ s, p c = true → P c) : Each P (strRepr p s) := by
  have hq := quoteOf_cases s
  have hqP : P (quoteOf s) := hP _ (by omega)
  refine each_cons hqP (each_append ?_ (each_cons hqP (by simp [Each])))
  intro x hx
  obtain ⟨c, hc, hx⟩ := List.mem_flatMap.1 hx
  exact each_escChar hP hq (hp c hc) x hx

theorem each_digits {P : Nat → Prop} (hP : ∀ c, c < 128 → P c) {d : Text} (h : ∀ x ∈ d, isDigit x = true) : Each P d := by
  intro x hx
  have := h x hx
  simp [isDigit] at this
  exact hP x (by omega)

theorem each_intText {P : Nat → Prop} (hP : ∀ c, c < 128 → P c) {lim : Nat} {i : Int} {t : Text} (h : intText lim i = .ok t) : Each P t := by
  obtain ⟨rfl, _⟩ := intText_ok h
  unfold decInt
  split
  · exact each_cons (hP _ (by omega)) (each_digits hP (decNat_digits _))
  · exact each_digits hP (decNat_digits _)

theorem each_floatText {P : Nat → Prop} (hP : ∀ c, c < 128 → P c) {t : Text} (h : IsFloatText t) : Each P t := by
  obtain ⟨neg, int, frac, exp, rfl, hn, hi, hf, he, _⟩ := h
  refine each_append (each_append (each_append ?_ ?_) ?_) ?_
  · rcases hn with rfl | rfl
    · simp [Each]
    · exact each_cons (hP _ (by omega)) (by simp [Each])
  · rcases hi with rfl | ⟨c, d, rfl, h1, h2, h3⟩
    · exact each_cons (hP _ (by omega)) (by simp [Each])
    · exact each_cons (hP _ (by omega)) (each_digits hP h3)
  · rcases hf with rfl | ⟨d, rfl, _, h3⟩
    · simp [Each]
    · exact each_cons (hP _ (by omega)) (each_digits hP h3)
  · rcases he with rfl | ⟨e, sg, d, rfl, h1, h2, _, h3⟩
    · simp [Each]
    · refine each_cons (hP _ (by omega)) (each_append ?_ (each_digits hP h3))
      rcases h2 with rfl | rfl | rfl
      · simp [Each]
      · exact each_cons (hP _ (by omega)) (by simp [Each])
      · exact each_cons (hP _ (by omega)) (by simp [Each])

theorem each_ascii {P : Nat → Prop} (hP : ∀ c, c < 128 → P c) {t : Text} (h : t.all (· < 128) = true) : Each P t := by
  intro c hc
  simp only [List.all_eq_true, decide_eq_true_eq] at h
  exact hP c (h c hc)

theorem repr_list {v : PyVal F} {r : List (PyVal F)} {t : Text} (h : pyRepr E (.list (v :: r)) = .ok t) :
    ∃ a b, pyRepr E v = .ok a ∧ reprRest E r = .ok b ∧ t = 91 :: (a ++ (b ++ [93])) := by
  simp only [pyRepr] at h
  cases h1 : pyRepr E v with
  | error e => simp [h1, bind, Except.bind] at h
  | ok a =>
    cases h2 : reprRest E r with
    | error e => simp [h1, h2, bind, Except.bind] at h
    | ok b => simp only [h1, h2, bind, Except.bind] at h; injection h with h; exact ⟨a, b, rfl, rfl, h.symm⟩

theorem repr_tuple {v : PyVal F} {r : List (PyVal F)} {t : Text} (h : pyRepr E (.tuple (v :: r)) = .ok t) :
    ∃ a b, pyRepr E v = .ok a ∧ reprRest E r = .ok b ∧ t = 40 :: (a ++ ((if r.isEmpty then [44] else b) ++ [41])) := by
  simp only [pyRepr] at h
  cases h1 : pyRepr E v with
  | error e => simp [h1, bind, Except.bind] at h
  | ok a =>
    cases h2 : reprRest E r with
    | error e => simp [h1, h2, bind, Except.bind] at h
    | ok b => simp only [h1, h2, bind, Except.bind] at h; injection h with h; exact ⟨a, b, rfl, rfl, h.symm⟩

theorem repr_set {v : PyVal F} {r : List (PyVal F)} {t : Text} (h : pyRepr E (.set (v :: r)) = .ok t) :
    ∃ a b, pyRepr E v = .ok a ∧ reprRest E r = .ok b ∧ t = 123 :: (a ++ (b ++ [125])) := by
  simp only [pyRepr] at h
  cases h1 : pyRepr E v with
  | error e => simp [h1, bind, Except.bind] at h
  | ok a =>
    cases h2 : reprRest E r with
    | error e => simp [h1, h2, bind, Except.bind] at h
    | ok b => simp only [h1, h2, bind, Except.bind] at h; injection h with h; exact ⟨a, b, rfl, rfl, h.symm⟩

theorem repr_dict {k v : PyVal F} {r : List (PyVal F × PyVal F)} {t : Text} (h : pyRepr E (.dict ((k, v) :: r)) = .ok t) :
    ∃ kt a b, pyRepr E k = .ok kt ∧ pyRepr E v = .ok a ∧ reprItems E r = .ok b ∧ t = 123 :: (kt ++ 58 :: 32 :: (a ++ (b ++ [125]))) := by
  simp only [pyRepr] at h
  cases h0 : pyRepr E k with
  | error e => simp [h0, bind, Except.bind] at h
  | ok kt =>
    cases h1 : pyRepr E v with
    | error e => simp [h0, h1, bind, Except.bind] at h
    | ok a =>
      cases h2 : reprItems E r with
      | error e => simp [h0, h1, h2, bind, Except.bind] at h
      | ok b => simp only [h0, h1, h2, bind, Except.bind] at h; injection h with h; exact ⟨kt, a, b, rfl, rfl, rfl, h.symm⟩

/-- what is true of a character of a text that can be written -/
def Scalar (c : Nat) : Prop := c < 0x110000 ∧ isSurrogate c = false

theorem scalar_ascii (c : Nat) (h : c < 128) : Scalar c := by
  refine ⟨by omega, ?_⟩
  simp [isSurrogate]; omega

mutual
/-- `repr` of values of the built-in types has no surrogates -/
theorem each_repr (hE : LitsOK E) : ∀ (v : PyVal F) (t : Text), Sound E v → pyRepr E v = .ok t → Each Scalar t
  | .none, t, _, h => by simp only [pyRepr] at h; injection h with h; subst h; exact each_ascii scalar_ascii (by decide)
  | .bool true, t, _, h => by simp only [pyRepr] at h; injection h with h; subst h; exact each_ascii scalar_ascii (by decide)
  | .bool false, t, _, h => by simp only [pyRepr] at h; injection h with h; subst h; exact each_ascii scalar_ascii (by decide)
  | .int i, t, _, h => by simp only [pyRepr] at h; exact each_intText scalar_ascii h
  | .float (.fin f), t, _, h => by
    simp only [pyRepr] at h; injection h with h; subst h; exact each_floatText scalar_ascii (hE.text f)
  | .float .nan, t, _, h => by simp only [pyRepr] at h; injection h with h; subst h; exact each_ascii scalar_ascii (by decide)
  | .float .inf, t, _, h => by simp only [pyRepr] at h; injection h with h; subst h; exact each_ascii scalar_ascii (by decide)
  | .float .negInf, t, _, h => by simp only [pyRepr] at h; injection h with h; subst h; exact each_ascii scalar_ascii (by decide)
  | .str s, t, _, h => by
    simp only [pyRepr] at h; injection h with h; subst h; exact each_strRepr scalar_ascii fun c _ hp => hE.printable c hp
  | .bytes b, t, _, h => by
    simp only [pyRepr] at h; injection h with h; subst h
    exact each_cons (scalar_ascii _ (by omega)) (each_strRepr scalar_ascii fun c _ hp => by cases hp)
  | .other n, t, hs, _ => by simp [Sound] at hs
  | .list [], t, _, h => by simp only [pyRepr] at h; injection h with h; subst h; exact each_ascii scalar_ascii (by decide)
  | .list (v :: r), t, hs, h => by
    simp only [Sound, Sounds] at hs
    obtain ⟨a, b, h1, h2, rfl⟩ := repr_list h
    exact each_cons (scalar_ascii _ (by omega)) (each_append (each_repr hE v a hs.1 h1)
      (each_append (each_rest hE r b hs.2 h2) (each_ascii scalar_ascii (by decide))))
  | .tuple [], t, _, h => by simp only [pyRepr] at h; injection h with h; subst h; exact each_ascii scalar_ascii (by decide)
  | .tuple (v :: r), t, hs, h => by
    simp only [Sound, Sounds] at hs
    obtain ⟨a, b, h1, h2, rfl⟩ := repr_tuple h
    refine each_cons (scalar_ascii _ (by omega)) (each_append (each_repr hE v a hs.1 h1)
      (each_append ?_ (each_ascii scalar_ascii (by decide))))
    split
    · exact each_ascii scalar_ascii (by decide)
    · exact each_rest hE r b hs.2 h2
  | .set [], t, _, h => by simp only [pyRepr] at h; injection h with h; subst h; exact each_ascii scalar_ascii (by decide)
  | .set (v :: r), t, hs, h => by
    simp only [Sound, Sounds] at hs
    obtain ⟨a, b, h1, h2, rfl⟩ := repr_set h
    exact each_cons (scalar_ascii _ (by omega)) (each_append (each_repr hE v a hs.2.2.1 h1)
      (each_append (each_rest hE r b hs.2.2.2 h2) (each_ascii scalar_ascii (by decide))))
  | .dict [], t, _, h => by simp only [pyRepr] at h; injection h with h; subst h; exact each_ascii scalar_ascii (by decide)
  | .dict ((k, v) :: r), t, hs, h => by
    simp only [Sound, SoundItems] at hs
    obtain ⟨kt, a, b, h0, h1, h2, rfl⟩ := repr_dict h
    exact each_cons (scalar_ascii _ (by omega)) (each_append (each_repr hE k kt hs.2.2.1 h0)
      (each_cons (scalar_ascii _ (by omega)) (each_cons (scalar_ascii _ (by omega)) (each_append (each_repr hE v a hs.2.2.2.1 h1)
        (each_append (each_items hE r b hs.2.2.2.2 h2) (each_ascii scalar_ascii (by decide)))))))
theorem each_rest (hE : LitsOK E) : ∀ (r : List (PyVal F)) (t : Text), Sounds E r → reprRest E r = .ok t → Each Scalar t
  | [], t, _, h => by simp only [reprRest] at h; injection h with h; subst h; simp [Each]
  | v :: r, t, hs, h => by
    simp only [Sounds] at hs
    obtain ⟨a, b, h1, h2, rfl⟩ := reprRest_cons h
    exact each_cons (scalar_ascii _ (by omega)) (each_cons (scalar_ascii _ (by omega)) (each_append (each_repr hE v a hs.1 h1)
      (each_rest hE r b hs.2 h2)))
theorem each_items (hE : LitsOK E) : ∀ (r : List (PyVal F × PyVal F)) (t : Text), SoundItems E r → reprItems E r = .ok t → Each Scalar t
  | [], t, _, h => by simp only [reprItems] at h; injection h with h; subst h; simp [Each]
  | (k, v) :: r, t, hs, h => by
    simp only [SoundItems] at hs
    obtain ⟨kt, a, b, h0, h1, h2, rfl⟩ := reprItems_cons h
    exact each_cons (scalar_ascii _ (by omega)) (each_cons (scalar_ascii _ (by omega)) (each_append (each_repr hE k kt hs.1 h0)
      (each_cons (scalar_ascii _ (by omega)) (each_cons (scalar_ascii _ (by omega)) (each_append (each_repr hE v a hs.2.1 h1)
        (each_items hE r b hs.2.2 h2))))))
end

/-! ## what can be written -/

/-- no surrogate -/
abbrev NS (c : Nat) : Prop := isSurrogate c = false

theorem ns_ascii (c : Nat) (h : c < 128) : NS c := (scalar_ascii c h).2

theorem ns_small {t : Text} (h : t.all (· < 128) = true) : Each NS t := each_ascii ns_ascii h

theorem intText_iff (lim : Nat) (i : Int) : (∃ t, intText lim i = .ok t) ↔ Short lim i := by
  constructor
  · rintro ⟨t, h⟩; exact (intText_ok h).2
  · intro h
    unfold intText
    rw [if_neg]
    · exact ⟨_, rfl⟩
    · unfold Short at h; omega

mutual
theorem repr_iff (hE : LitsOK E) : ∀ v : PyVal F, (∃ t, pyRepr E v = .ok t ∧ Each NS t) ↔ Showable E v
  | .none => ⟨fun _ => by simp [Showable], fun _ => ⟨_, rfl, ns_small (by decide)⟩⟩
  | .bool true => ⟨fun _ => by simp [Showable], fun _ => ⟨_, rfl, ns_small (by decide)⟩⟩
  | .bool false => ⟨fun _ => by simp [Showable], fun _ => ⟨_, rfl, ns_small (by decide)⟩⟩
  | .int i => by
    simp only [pyRepr, Showable, ← intText_iff]
    exact ⟨fun ⟨t, h, _⟩ => ⟨t, h⟩, fun ⟨t, h⟩ => ⟨t, h, each_intText ns_ascii h⟩⟩
  | .float (.fin f) => ⟨fun _ => by simp [Showable], fun _ => ⟨_, rfl, each_floatText ns_ascii (hE.text f)⟩⟩
  | .float .nan => ⟨fun _ => by simp [Showable], fun _ => ⟨_, rfl, ns_small (by decide)⟩⟩
  | .float .inf => ⟨fun _ => by simp [Showable], fun _ => ⟨_, rfl, ns_small (by decide)⟩⟩
  | .float .negInf => ⟨fun _ => by simp [Showable], fun _ => ⟨_, rfl, ns_small (by decide)⟩⟩
  | .str s => ⟨fun _ => by simp [Showable], fun _ => ⟨_, rfl, each_strRepr ns_ascii fun c _ hp => (hE.printable c hp).2⟩⟩
  | .bytes b => ⟨fun _ => by simp [Showable], fun _ => ⟨_, rfl, each_cons (ns_ascii _ (by omega))
      (each_strRepr ns_ascii fun c _ hp => by cases hp)⟩⟩
  | .other n => by
    simp only [pyRepr, Showable]
    exact ⟨fun ⟨t, h, ht⟩ => by injection h with h; subst h; exact ht, fun h => ⟨_, rfl, h⟩⟩
  | .list [] => ⟨fun _ => by simp [Showable, ShowableAll], fun _ => ⟨_, rfl, ns_small (by decide)⟩⟩
  | .list (v :: r) => by
    have i1 := repr_iff hE v
    have i2 := rest_iff hE r
    simp only [Showable, ShowableAll, ← i1, ← i2]
    constructor
    · rintro ⟨t, h, ht⟩
      obtain ⟨a, b, h1, h2, rfl⟩ := repr_list h
      simp only [each_cons_iff, each_append_iff] at ht
      exact ⟨⟨a, h1, ht.2.1⟩, b, h2, ht.2.2.1⟩
    · rintro ⟨⟨a, h1, ha⟩, b, h2, hb⟩
      refine ⟨91 :: (a ++ (b ++ [93])), by simp only [pyRepr, h1, h2, bind, Except.bind], ?_⟩
      exact each_cons (ns_ascii _ (by omega)) (each_append ha (each_append hb (ns_small (by decide))))
  | .tuple [] => ⟨fun _ => by simp [Showable, ShowableAll], fun _ => ⟨_, rfl, ns_small (by decide)⟩⟩
  | .tuple (v :: r) => by
    have i1 := repr_iff hE v
    have i2 := rest_iff hE r
    simp only [Showable, ShowableAll, ← i1, ← i2]
    constructor
    · rintro ⟨t, h, ht⟩
      obtain ⟨a, b, h1, h2, rfl⟩ := repr_tuple h
      simp only [each_cons_iff, each_append_iff] at ht
      refine ⟨⟨a, h1, ht.2.1⟩, b, h2, ?_⟩
      cases r with
      | nil => simp only [reprRest] at h2; injection h2 with h2; subst h2; simp [Each]
      | cons w r => exact ht.2.2.1
    · rintro ⟨⟨a, h1, ha⟩, b, h2, hb⟩
      refine ⟨40 :: (a ++ ((if r.isEmpty then [44] else b) ++ [41])), by simp only [pyRepr, h1, h2, bind, Except.bind], ?_⟩
      refine each_cons (ns_ascii _ (by omega)) (each_append ha (each_append ?_ (ns_small (by decide))))
      split
      · exact ns_small (by decide)
      · exact hb
  | .set [] => ⟨fun _ => by simp [Showable, ShowableAll], fun _ => ⟨_, rfl, ns_small (by decide)⟩⟩
  | .set (v :: r) => by
    have i1 := repr_iff hE v
    have i2 := rest_iff hE r
    simp only [Showable, ShowableAll, ← i1, ← i2]
    constructor
    · rintro ⟨t, h, ht⟩
      obtain ⟨a, b, h1, h2, rfl⟩ := repr_set h
      simp only [each_cons_iff, each_append_iff] at ht
      exact ⟨⟨a, h1, ht.2.1⟩, b, h2, ht.2.2.1⟩
    · rintro ⟨⟨a, h1, ha⟩, b, h2, hb⟩
      refine ⟨123 :: (a ++ (b ++ [125])), by simp only [pyRepr, h1, h2, bind, Except.bind], ?_⟩
      exact each_cons (ns_ascii _ (by omega)) (each_append ha (each_append hb (ns_small (by decide))))
  | .dict [] => ⟨fun _ => by simp [Showable, ShowableItems], fun _ => ⟨_, rfl, ns_small (by decide)⟩⟩
  | .dict ((k, v) :: r) => by
    have i0 := repr_iff hE k
    have i1 := repr_iff hE v
    have i2 := items_iff hE r
    simp only [Showable, ShowableItems, ← i0, ← i1, ← i2]
    constructor
    · rintro ⟨t, h, ht⟩
      obtain ⟨kt, a, b, h0, h1, h2, rfl⟩ := repr_dict h
      simp only [each_cons_iff, each_append_iff] at ht
      exact ⟨⟨kt, h0, ht.2.1⟩, ⟨a, h1, ht.2.2.2.2.1⟩, b, h2, ht.2.2.2.2.2.1⟩
    · rintro ⟨⟨kt, h0, hk⟩, ⟨a, h1, ha⟩, b, h2, hb⟩
      refine ⟨123 :: (kt ++ 58 :: 32 :: (a ++ (b ++ [125]))), by simp only [pyRepr, h0, h1, h2, bind, Except.bind], ?_⟩
      exact each_cons (ns_ascii _ (by omega)) (each_append hk (each_cons (ns_ascii _ (by omega)) (each_cons (ns_ascii _ (by omega))
        (each_append ha (each_append hb (ns_small (by decide)))))))
theorem rest_iff (hE : LitsOK E) : ∀ r : List (PyVal F), (∃ t, reprRest E r = .ok t ∧ Each NS t) ↔ ShowableAll E r
  | [] => ⟨fun _ => by simp [ShowableAll], fun _ => ⟨_, rfl, by simp [Each]⟩⟩
  | v :: r => by
    have i1 := repr_iff hE v
    have i2 := rest_iff hE r
    simp only [ShowableAll, ← i1, ← i2]
    constructor
    · rintro ⟨t, h, ht⟩
      obtain ⟨a, b, h1, h2, rfl⟩ := reprRest_cons h
      simp only [each_cons_iff, each_append_iff] at ht
      exact ⟨⟨a, h1, ht.2.2.1⟩, b, h2, ht.2.2.2⟩
    · rintro ⟨⟨a, h1, ha⟩, b, h2, hb⟩
      refine ⟨44 :: 32 :: (a ++ b), by simp only [reprRest, h1, h2, bind, Except.bind], ?_⟩
      exact each_cons (ns_ascii _ (by omega)) (each_cons (ns_ascii _ (by omega)) (each_append ha hb))
theorem items_iff (hE : LitsOK E) : ∀ r : List (PyVal F × PyVal F), (∃ t, reprItems E r = .ok t ∧ Each NS t) ↔ ShowableItems E r
  | [] => ⟨fun _ => by simp [ShowableItems], fun _ => ⟨_, rfl, by simp [Each]⟩⟩
  | (k, v) :: r => by
    have i0 := repr_iff hE k
    have i1 := repr_iff hE v
    have i2 := items_iff hE r
    simp only [ShowableItems, ← i0, ← i1, ← i2]
    constructor
    · rintro ⟨t, h, ht⟩
      obtain ⟨kt, a, b, h0, h1, h2, rfl⟩ := reprItems_cons h
      simp only [each_cons_iff, each_append_iff] at ht
      exact ⟨⟨kt, h0, ht.2.2.1⟩, ⟨a, h1, ht.2.2.2.2.2.1⟩, b, h2, ht.2.2.2.2.2.2⟩
    · rintro ⟨⟨kt, h0, hk⟩, ⟨a, h1, ha⟩, b, h2, hb⟩
      refine ⟨44 :: 32 :: (kt ++ 58 :: 32 :: (a ++ b)), by simp only [reprItems, h0, h1, h2, bind, Except.bind], ?_⟩
      exact each_cons (ns_ascii _ (by omega)) (each_cons (ns_ascii _ (by omega)) (each_append hk (each_cons (ns_ascii _ (by omega))
        (each_cons (ns_ascii _ (by omega)) (each_append ha hb)))))
end

mutual
theorem repr_errors : ∀ (v : PyVal F) (e : PyErr), pyRepr E v = .error e → e = .valueError
  | .none, e, h => by simp [pyRepr] at h
  | .bool true, e, h => by simp [pyRepr] at h
  | .bool false, e, h => by simp [pyRepr] at h
  | .int i, e, h => by
    simp only [pyRepr, intText] at h
    split at h
    · injection h with h; exact h.symm
    · cases h
  | .float (.fin f), e, h => by simp [pyRepr] at h
  | .float .nan, e, h => by simp [pyRepr] at h
  | .float .inf, e, h => by simp [pyRepr] at h
  | .float .negInf, e, h => by simp [pyRepr] at h
  | .str s, e, h => by simp [pyRepr] at h
  | .bytes b, e, h => by simp [pyRepr] at h
  | .other n, e, h => by simp [pyRepr] at h
  | .list [], e, h => by simp [pyRepr] at h
  | .tuple [], e, h => by simp [pyRepr] at h
  | .set [], e, h => by simp [pyRepr] at h
  | .dict [], e, h => by simp [pyRepr] at h
  | .list (v :: r), e, h => by
    have i1 := repr_errors v
    have i2 := rest_errors r
    simp only [pyRepr] at h
    cases h1 : pyRepr E v with
    | error e' => simp only [h1, bind, Except.bind] at h; injection h with h; subst h; exact i1 _ h1
    | ok a =>
      cases h2 : reprRest E r with
      | error e' => simp only [h1, h2, bind, Except.bind] at h; injection h with h; subst h; exact i2 _ h2
      | ok b => simp [h1, h2, bind, Except.bind] at h
  | .tuple (v :: r), e, h => by
    have i1 := repr_errors v
    have i2 := rest_errors r
    simp only [pyRepr] at h
    cases h1 : pyRepr E v with
    | error e' => simp only [h1, bind, Except.bind] at h; injection h with h; subst h; exact i1 _ h1
    | ok a =>
      cases h2 : reprRest E r with
      | error e' => simp only [h1, h2, bind, Except.bind] at h; injection h with h; subst h; exact i2 _ h2
      | ok b => simp [h1, h2, bind, Except.bind] at h
  | .set (v :: r), e, h => by
    have i1 := repr_errors v
    have i2 := rest_errors r
    simp only [pyRepr] at h
    cases h1 : pyRepr E v with
    | error e' => simp only [h1, bind, Except.bind] at h; injection h with h; subst h; exact i1 _ h1
    | ok a =>
      cases h2 : reprRest E r with
      | error e' => simp only [h1, h2, bind, Except.bind] at h; injection h with h; subst h; exact i2 _ h2
      | ok b => simp [h1, h2, bind, Except.bind] at h
  | .dict ((k, v) :: r), e, h => by
    have i0 := repr_errors k
    have i1 := repr_errors v
    have i2 := items_errors r
    simp only [pyRepr] at h
    cases h0 : pyRepr E k with
    | error e' => simp only [h0, bind, Except.bind] at h; injection h with h; subst h; exact i0 _ h0
    | ok kt =>
      cases h1 : pyRepr E v with
      | error e' => simp only [h0, h1, bind, Except.bind] at h; injection h with h; subst h; exact i1 _ h1
      | ok a =>
        cases h2 : reprItems E r with
        | error e' => simp only [h0, h1, h2, bind, Except.bind] at h; injection h with h; subst h; exact i2 _ h2
        | ok b => simp [h0, h1, h2, bind, Except.bind] at h
theorem rest_errors : ∀ (r : List (PyVal F)) (e : PyErr), reprRest E r = .error e → e = .valueError
  | [], e, h => by simp [reprRest] at h
  | v :: r, e, h => by
    have i1 := repr_errors v
    have i2 := rest_errors r
    simp only [reprRest] at h
    cases h1 : pyRepr E v with
    | error e' => simp only [h1, bind, Except.bind] at h; injection h with h; subst h; exact i1 _ h1
    | ok a =>
      cases h2 : reprRest E r with
      | error e' => simp only [h1, h2, bind, Except.bind] at h; injection h with h; subst h; exact i2 _ h2
      | ok b => simp [h1, h2, bind, Except.bind] at h
theorem items_errors : ∀ (r : List (PyVal F × PyVal F)) (e : PyErr), reprItems E r = .error e → e = .valueError
  | [], e, h => by simp [reprItems] at h
  | (k, v) :: r, e, h => by
    have i0 := repr_errors k
    have i1 := repr_errors v
    have i2 := items_errors r
    simp only [reprItems] at h
    cases h0 : pyRepr E k with
    | error e' => simp only [h0, bind, Except.bind] at h; injection h with h; subst h; exact i0 _ h0
    | ok kt =>
      cases h1 : pyRepr E v with
      | error e' => simp only [h0, h1, bind, Except.bind] at h; injection h with h; subst h; exact i1 _ h1
      | ok a =>
        cases h2 : reprItems E r with
        | error e' => simp only [h0, h1, h2, bind, Except.bind] at h; injection h with h; subst h; exact i2 _ h2
        | ok b => simp [h0, h1, h2, bind, Except.bind] at h
end

end Verif.Lemmas
