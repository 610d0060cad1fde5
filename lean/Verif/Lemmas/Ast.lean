import Verif.Lemmas.AstStr
/-! # Python's literals, written and read -/
namespace Verif.Lemmas
open Verif Verif.Model Verif.Spec
variable {F : Type} {E : PyLits F}

mutual
/-- the expression that is `repr(v)` -/
def astOf (E : PyLits F) : PyVal F → Expr F
  | .int i => if i < 0 then .neg (.const (.int (i.natAbs : Nat))) else .const (.int (i.natAbs : Nat))
  | .float (.fin f) => if (E.repr f).head? = some 45 then .neg (.const (.float (E.read (E.repr f).tail))) else .const (.float (E.read (E.repr f)))
  | .float .nan => .name nanText
  | .float .inf => .name infText
  | .float .negInf => .neg (.name infText)
  | .list l => .list (astsOf E l)
  | .tuple l => .tuple (astsOf E l)
  | .set [] => .call setText
  | .set (v :: r) => .set (astOf E v :: astsOf E r)
  | .dict d => .dict (astItems E d)
  | v => .const v
def astsOf (E : PyLits F) : List (PyVal F) → List (Expr F)
  | [] => []
  | v :: r => astOf E v :: astsOf E r
def astItems (E : PyLits F) : List (PyVal F × PyVal F) → List (Expr F × Expr F)
  | [] => []
  | (k, v) :: r => (astOf E k, astOf E v) :: astItems E r
end

/-- a text is an expression, whatever comes after it -/
def ParsesAs (E : PyLits F) (lv : Nat) (t : Text) (e : Expr F) : Prop :=
  ∀ f rest, Ends rest → t.length < f → parseExpr E f lv (t ++ rest) = some (e, rest)

theorem parseExpr_head {f lv c : Nat} {r : Text} {p : Expr F × Text} (h : parseExpr E f lv (c :: r) = some p) :
    c ≠ 93 ∧ c ≠ 41 ∧ c ≠ 125 ∧ c ≠ 32 ∧ c ≠ 9 ∧ c ≠ 44 := by
  cases f with
  | zero => simp [parseExpr] at h
  | succ f =>
    refine ⟨?_, ?_, ?_, ?_, ?_, ?_⟩ <;> rintro rfl <;> simp [parseExpr, isDigit, identStart] at h

theorem ParsesAs.head {lv : Nat} {t : Text} {e : Expr F} (h : ParsesAs E lv t e) :
    ∃ c r, t = c :: r ∧ c ≠ 93 ∧ c ≠ 41 ∧ c ≠ 125 ∧ c ≠ 32 ∧ c ≠ 9 ∧ c ≠ 44 := by
  have h1 := h (t.length + 1) [] ends_nil (by omega)
  cases t with
  | nil => simp [parseExpr] at h1
  | cons c r => exact ⟨c, r, rfl, parseExpr_head h1⟩

theorem parses_str {lv : Nat} {s : Text} (hs : TextOK s) : ParsesAs E lv (strRepr E.printable s) (.const (.str s)) := by
  intro f rest hr hf
  cases f with
  | zero => omega
  | succ f =>
    have h := parseStr_text (p := E.printable) (bytes := false) (quoteOf_cases s) hs (by simp) hr
    simp only [strRepr, List.cons_append, List.append_assoc, List.nil_append, parseExpr, h]
    rw [if_pos (quoteOf_cases s)]
    rfl

theorem parses_bytes {lv : Nat} {b : Bytes} (hb : ∀ x ∈ b, x < 256) : ParsesAs E lv (bytesRepr b) (.const (.bytes b)) := by
  intro f rest hr hf
  cases f with
  | zero => omega
  | succ f =>
    have h := parseStr_text (p := fun _ => false) (bytes := true) (s := b) (quoteOf_cases b)
      (fun x hx => by have := hb x hx; omega) (fun _ x hx => ⟨hb x hx, rfl⟩) hr
    have h1 : ¬ ((98 : Nat) = 39 ∨ (98 : Nat) = 34) := by decide
    have h2 : quoteOf b = 39 ∨ quoteOf b = 34 := quoteOf_cases b
    have hd : isDigit 98 = false := by decide
    have hi : identStart 98 = true := by decide
    have h39 : (quoteOf b :: ([] : Text) = [39] ∨ quoteOf b :: ([] : Text) = [34]) := by simpa using h2
    simp only [bytesRepr, strRepr, List.cons_append, List.append_assoc, List.nil_append, parseExpr, hd, hi, if_true,
      List.take_succ_cons, List.take_zero, List.headD_cons, List.drop_succ_cons, List.drop_zero]
    rw [if_neg h1, if_neg (by decide), if_neg (by decide), if_neg (by decide), if_neg (by decide), if_neg (by decide),
      if_pos ⟨trivial, h39⟩, h]
    rfl

theorem parses_neg {lv : Nat} {t : Text} {e : Expr F} (h : ParsesAs E lv t e) : ParsesAs E lv (45 :: t) (.neg e) := by
  intro f rest hr hf
  cases f with
  | zero => omega
  | succ f =>
    have h1 := h f rest hr (by simpa using hf)
    simp [parseExpr, h1]

theorem parses_digits {lv : Nat} {t : Text} {v : PyVal F} (hd : ∃ c d, t = c :: d ∧ isDigit c = true)
    (h : ∀ rest, Stops rest → parseNumber E (t ++ rest) = some (v, rest)) : ParsesAs E lv t (.const v) := by
  intro f rest hr hf
  cases f with
  | zero => omega
  | succ f =>
    have h1 := h rest hr.stops
    obtain ⟨c, d, rfl, hc⟩ := hd
    have hc' : 48 ≤ c ∧ c ≤ 57 := by simpa [isDigit] using hc
    simp only [List.cons_append] at h1 ⊢
    simp only [parseExpr, hc, if_true, h1]
    rw [if_neg (by omega), if_neg (by omega)]
    rfl

theorem parses_int {lv : Nat} {i : Int} {t : Text} (h : intText E.digits i = .ok t) : ParsesAs E lv t (astOf E (.int i)) := by
  obtain ⟨rfl, hs⟩ := intText_ok h
  have h1 : ParsesAs E lv (decNat i.natAbs) (.const (.int (i.natAbs : Nat))) := by
    refine parses_digits (digit_of_intText (decNat_intText _)) fun rest hr => parseNumber_int ?_ hr
    simpa [Short] using hs
  simp only [decInt, astOf]
  split
  · exact parses_neg h1
  · exact h1

theorem parses_float {lv : Nat} (hE : LitsOK E) (f : F) : ParsesAs E lv (E.repr f) (astOf E (.float (.fin f))) := by
  simp only [astOf]
  rcases unsigned_of_float (hE.text f) with ⟨hu, hh⟩ | ⟨u, e, hu⟩
  · rw [if_neg hh]
    exact parses_digits (digit_of_unsigned hu) fun rest hr => parseNumber_float hu hr
  · rw [e, if_pos (by simp)]
    exact parses_neg (parses_digits (digit_of_unsigned hu) fun rest hr => parseNumber_float hu hr)

theorem identChar_ends {rest : Text} (h : Ends rest) : rest.takeWhile identChar = [] ∧ rest.dropWhile identChar = rest := by
  cases rest with
  | nil => exact ⟨rfl, rfl⟩
  | cons c r => rcases h c r rfl with rfl | rfl | rfl | rfl | rfl <;> exact ⟨rfl, rfl⟩

/-- a word that is no bytes literal -/
theorem parseExpr_word {f lv c : Nat} {w rest : Text} (hc : identStart c = true) (hw : ∀ x ∈ w, identChar x = true)
    (h0 : rest.takeWhile identChar = [] ∧ rest.dropWhile identChar = rest)
    (hb : ¬ (c = 98 ∧ ((w ++ rest).take 1 = [39] ∨ (w ++ rest).take 1 = [34]))) :
    parseExpr E (f + 1) lv (c :: w ++ rest) = wordExpr lv (c :: w) rest := by
  have hcc : 65 ≤ c ∧ c ≤ 90 ∨ 97 ≤ c ∧ c ≤ 122 ∨ c = 95 := by
    simpa [identStart, or_assoc] using hc
  have hd : isDigit c = false := by
    simp [isDigit]; omega
  have hall : ∀ x ∈ c :: w, identChar x = true := by
    intro x hx
    rcases List.mem_cons.1 hx with rfl | hx
    · simp [identChar, hc]
    · exact hw x hx
  have h1 : (c :: (w ++ rest)).takeWhile identChar = c :: w := by
    have := List.takeWhile_append_of_pos (p := identChar) (l₁ := c :: w) (l₂ := rest) hall
    rw [h0.1, List.append_nil] at this
    exact this
  have h2 : (c :: (w ++ rest)).dropWhile identChar = rest := by
    have := List.dropWhile_append_of_pos (p := identChar) (l₁ := c :: w) (l₂ := rest) hall
    rw [h0.2] at this
    exact this
  simp only [List.cons_append, parseExpr, hd, hc, if_true, h1, h2]
  rw [if_neg (by omega), if_neg (by omega), if_neg (by simp), if_neg (by omega), if_neg (by omega), if_neg (by omega), if_neg hb]

theorem parses_word {lv c : Nat} {w : Text} {e : Expr F} (hc : identStart c = true) (hw : ∀ x ∈ w, identChar x = true)
    (he : ∀ rest, Ends rest → wordExpr lv (c :: w) rest = some (e, rest)) : ParsesAs E lv (c :: w) e := by
  intro f rest hr hf
  cases f with
  | zero => omega
  | succ f =>
    rw [parseExpr_word hc hw (identChar_ends hr), he rest hr]
    rintro ⟨_, h⟩
    cases w with
    | nil =>
      cases rest with
      | nil => simp at h
      | cons d r =>
        have := hr d r rfl
        simp at h
        omega
    | cons x w =>
      have hx := hw x (by simp)
      simp at h
      rcases h with rfl | rfl <;> revert hx <;> decide

theorem wordExpr_name {lv : Nat} {w rest : Text} (hr : Ends rest) (h : w ≠ noneText ∧ w ≠ pyTrue ∧ w ≠ pyFalse ∧ w ∉ keywords) :
    wordExpr (F := F) lv w rest = some (.name w, rest) := by
  unfold wordExpr
  rw [if_neg h.1, if_neg h.2.1, if_neg h.2.2.1, if_neg h.2.2.2, if_neg]
  intro h
  cases rest with
  | nil => simp at h
  | cons d r =>
    have := hr d r rfl
    simp at h
    omega

theorem parses_nan {lv : Nat} : ParsesAs E lv nanText (.name nanText) :=
  parses_word (c := 110) (w := codes "an".toList) (by decide) (by decide) fun _ hr => wordExpr_name hr (by decide)

theorem parses_inf {lv : Nat} : ParsesAs E lv infText (.name infText) :=
  parses_word (c := 105) (w := codes "nf".toList) (by decide) (by decide) fun _ hr => wordExpr_name hr (by decide)

/-- what `repr` of elements leaves to read -/
theorem ends_rest {b rest : Text} {close : Nat} (hc : close = 93 ∨ close = 41 ∨ close = 125) (hb : b = [] ∨ ∃ t, b = 44 :: t) :
    Ends (b ++ close :: rest) := by
  rcases hb with rfl | ⟨t, rfl⟩
  · exact ends_cons _ (by omega)
  · exact ends_cons _ (by omega)

theorem reprRest_cons {v : PyVal F} {r : List (PyVal F)} {b : Text} (h : reprRest E (v :: r) = .ok b) :
    ∃ a b', pyRepr E v = .ok a ∧ reprRest E r = .ok b' ∧ b = 44 :: 32 :: (a ++ b') := by
  simp only [reprRest] at h
  cases h1 : pyRepr E v with
  | error e => simp [h1, bind, Except.bind] at h
  | ok a =>
    cases h2 : reprRest E r with
    | error e => simp [h1, h2, bind, Except.bind] at h
    | ok b' =>
      simp only [h1, h2, bind, Except.bind] at h
      injection h with h
      exact ⟨a, b', rfl, rfl, h.symm⟩

theorem reprItems_cons {k v : PyVal F} {r : List (PyVal F × PyVal F)} {b : Text} (h : reprItems E ((k, v) :: r) = .ok b) :
    ∃ kt a b', pyRepr E k = .ok kt ∧ pyRepr E v = .ok a ∧ reprItems E r = .ok b' ∧ b = 44 :: 32 :: (kt ++ 58 :: 32 :: (a ++ b')) := by
  simp only [reprItems] at h
  cases h0 : pyRepr E k with
  | error e => simp [h0, bind, Except.bind] at h
  | ok kt =>
    cases h1 : pyRepr E v with
    | error e => simp [h0, h1, bind, Except.bind] at h
    | ok a =>
      cases h2 : reprItems E r with
      | error e => simp [h0, h1, h2, bind, Except.bind] at h
      | ok b' =>
        simp only [h0, h1, h2, bind, Except.bind] at h
        injection h with h
        exact ⟨kt, a, b', rfl, rfl, rfl, h.symm⟩

theorem reprRest_shape {r : List (PyVal F)} {b : Text} (h : reprRest E r = .ok b) : (r = [] ∧ b = []) ∨ (r ≠ [] ∧ ∃ t, b = 44 :: 32 :: t) := by
  cases r with
  | nil => simp only [reprRest] at h; injection h with h; exact Or.inl ⟨rfl, h.symm⟩
  | cons v r =>
    obtain ⟨a, b', _, _, e⟩ := reprRest_cons h
    exact Or.inr ⟨by simp, _, e⟩

theorem reprItems_shape {r : List (PyVal F × PyVal F)} {b : Text} (h : reprItems E r = .ok b) :
    (r = [] ∧ b = []) ∨ (r ≠ [] ∧ ∃ t, b = 44 :: 32 :: t) := by
  cases r with
  | nil => simp only [reprItems] at h; injection h with h; exact Or.inl ⟨rfl, h.symm⟩
  | cons p r =>
    obtain ⟨k, v⟩ := p
    obtain ⟨kt, a, b', _, _, _, e⟩ := reprItems_cons h
    exact Or.inr ⟨by simp, _, e⟩

theorem shape_ends {α : Type} {r : List α} {b : Text} (h : (r = [] ∧ b = []) ∨ (r ≠ [] ∧ ∃ t, b = 44 :: 32 :: t)) :
    b = [] ∨ ∃ t, b = 44 :: t := by
  rcases h with ⟨_, h⟩ | ⟨_, t, h⟩
  · exact Or.inl h
  · exact Or.inr ⟨_, h⟩

mutual
theorem parses_repr (hE : LitsOK E) : ∀ (v : PyVal F) (lv : Nat) (t : Text), Sound E v → pyRepr E v = .ok t → depth v ≤ lv →
    ParsesAs E lv t (astOf E v)
  | .none, lv, t, _, h, _ => by
    simp only [pyRepr] at h; injection h with h; subst h
    exact parses_word (c := 78) (w := codes "one".toList) (by decide) (by decide) fun _ _ => rfl
  | .bool true, lv, t, _, h, _ => by
    simp only [pyRepr] at h; injection h with h; subst h
    exact parses_word (c := 84) (w := codes "rue".toList) (by decide) (by decide) fun _ _ => rfl
  | .bool false, lv, t, _, h, _ => by
    simp only [pyRepr] at h; injection h with h; subst h
    exact parses_word (c := 70) (w := codes "alse".toList) (by decide) (by decide) fun _ _ => rfl
  | .int i, lv, t, _, h, _ => by simp only [pyRepr] at h; exact parses_int h
  | .float (.fin f), lv, t, _, h, _ => by
    simp only [pyRepr] at h; injection h with h; subst h; exact parses_float hE f
  | .float .nan, lv, t, _, h, _ => by
    simp only [pyRepr] at h; injection h with h; subst h; exact parses_nan
  | .float .inf, lv, t, _, h, _ => by
    simp only [pyRepr] at h; injection h with h; subst h; exact parses_inf
  | .float .negInf, lv, t, _, h, _ => by
    simp only [pyRepr] at h; injection h with h; subst h; exact parses_neg parses_inf
  | .str s, lv, t, hs, h, _ => by
    simp only [pyRepr] at h; injection h with h; subst h
    simp only [Sound] at hs
    exact parses_str hs
  | .bytes b, lv, t, hs, h, _ => by
    simp only [pyRepr] at h; injection h with h; subst h
    simp only [Sound] at hs
    exact parses_bytes hs
  | .other n, lv, t, hs, _, _ => by simp [Sound] at hs
  | .list [], lv, t, _, h, hd => by
    simp only [pyRepr] at h; injection h with h; subst h
    intro f rest hr hf
    simp only [depth, depths] at hd
    obtain ⟨f, rfl⟩ : ∃ g, f = g + 1 := ⟨f - 1, by simp at hf; omega⟩
    obtain ⟨lv, rfl⟩ : ∃ g, lv = g + 1 := ⟨lv - 1, by omega⟩
    simp [parseExpr, isDigit, astOf, astsOf]
  | .list (v :: r), lv, t, hs, h, hd => by
    simp only [Sound, Sounds] at hs
    simp only [depth, depths] at hd
    obtain ⟨lv, rfl⟩ : ∃ g, lv = g + 1 := ⟨lv - 1, by omega⟩
    simp only [pyRepr] at h
    cases h1 : pyRepr E v with
    | error e => simp [h1, bind, Except.bind] at h
    | ok a =>
      cases h2 : reprRest E r with
      | error e => simp [h1, h2, bind, Except.bind] at h
      | ok b =>
        simp only [h1, h2, bind, Except.bind] at h
        injection h with h
        subst h
        have pv := parses_repr hE v lv a hs.1 h1 (by omega)
        have pr := parses_rest hE r lv b hs.2 h2 (by omega) _ _ pv
        intro f rest hr hf
        simp at hf
        obtain ⟨f, rfl⟩ : ∃ g, f = g + 1 := ⟨f - 1, by omega⟩
        have e := pr f 93 rest (Or.inl rfl) (by omega)
        obtain ⟨c, a', rfl, hc1, hc2, hc3, hc4, hc5, hc6⟩ := pv.head
        simp only [List.cons_append, List.append_assoc, List.nil_append] at e ⊢
        simp [parseExpr, isDigit, hc1, e, astOf, astsOf]
  | .tuple [], lv, t, _, h, hd => by
    simp only [pyRepr] at h; injection h with h; subst h
    intro f rest hr hf
    simp only [depth, depths] at hd
    obtain ⟨f, rfl⟩ : ∃ g, f = g + 1 := ⟨f - 1, by simp at hf; omega⟩
    obtain ⟨lv, rfl⟩ : ∃ g, lv = g + 1 := ⟨lv - 1, by omega⟩
    simp [parseExpr, isDigit, astOf, astsOf]
  | .tuple (v :: []), lv, t, hs, h, hd => by
    simp only [Sound, Sounds] at hs
    simp only [depth, depths] at hd
    obtain ⟨lv, rfl⟩ : ∃ g, lv = g + 1 := ⟨lv - 1, by omega⟩
    simp only [pyRepr, reprRest] at h
    cases h1 : pyRepr E v with
    | error e => simp [h1, bind, Except.bind] at h
    | ok a =>
      simp only [h1, bind, Except.bind] at h
      injection h with h
      subst h
      have pv := parses_repr hE v lv a hs.1 h1 (by omega)
      intro f rest hr hf
      simp at hf
      obtain ⟨f, rfl⟩ : ∃ g, f = g + 1 := ⟨f - 1, by omega⟩
      have e := pv f (44 :: 41 :: rest) (ends_cons _ (by omega)) (by omega)
      obtain ⟨c, a', rfl, hc1, hc2, hc3, hc4, hc5, hc6⟩ := pv.head
      simp only [List.cons_append] at e ⊢
      simp [parseExpr, isDigit, hc2, e, astOf, astsOf]
  | .tuple (v :: w :: r), lv, t, hs, h, hd => by
    simp only [Sound, Sounds] at hs
    simp only [depth, depths] at hd
    obtain ⟨lv, rfl⟩ : ∃ g, lv = g + 1 := ⟨lv - 1, by omega⟩
    simp only [pyRepr] at h
    cases h1 : pyRepr E v with
    | error e => simp [h1, bind, Except.bind] at h
    | ok a =>
      cases h2 : reprRest E (w :: r) with
      | error e => simp [h1, h2, bind, Except.bind] at h
      | ok b =>
        simp only [h1, h2, bind, Except.bind] at h
        injection h with h
        subst h
        obtain ⟨a2, b2, h3, h4, rfl⟩ := reprRest_cons h2
        have pv := parses_repr hE v lv a hs.1 h1 (by omega)
        have pw := parses_repr hE w lv a2 hs.2.1 h3 (by omega)
        have pr := parses_rest hE r lv b2 hs.2.2 h4 (by omega) _ _ pw
        intro f rest hr hf
        simp at hf
        obtain ⟨f, rfl⟩ : ∃ g, f = g + 1 := ⟨f - 1, by omega⟩
        have e := pv f (44 :: 32 :: (a2 ++ (b2 ++ 41 :: rest))) (ends_cons _ (by omega)) (by omega)
        have e2 := pr f 41 rest (by omega) (by omega)
        obtain ⟨c, a', rfl, hc1, hc2, hc3, hc4, hc5, hc6⟩ := pv.head
        simp only [List.cons_append] at e ⊢
        simp [parseExpr, isDigit, hc2, e, e2, astOf, astsOf]
  | .set [], lv, t, _, h, hd => by
    simp only [pyRepr] at h; injection h with h; subst h
    intro f rest hr hf
    simp only [depth, depths] at hd
    obtain ⟨f, rfl⟩ : ∃ g, f = g + 1 := ⟨f - 1, by simp at hf; omega⟩
    obtain ⟨lv, rfl⟩ : ∃ g, lv = g + 1 := ⟨lv - 1, by omega⟩
    have e := parseExpr_word (E := E) (f := f) (lv := lv + 1) (c := 115) (w := codes "et".toList) (rest := 40 :: 41 :: rest)
      (by decide) (by decide) ⟨rfl, rfl⟩ (fun h => absurd h.1 (by decide))
    have e' : setText ++ [40, 41] ++ rest = 115 :: codes "et".toList ++ 40 :: 41 :: rest := by
      simp [setText, codes]
    rw [e', e]
    simp [wordExpr, noneText, pyTrue, pyFalse, codes, keywords, astOf, setText]
  | .set (v :: []), lv, t, hs, h, hd => by
    simp only [Sound, Sounds] at hs
    simp only [depth, depths] at hd
    obtain ⟨lv, rfl⟩ : ∃ g, lv = g + 1 := ⟨lv - 1, by omega⟩
    simp only [pyRepr, reprRest] at h
    cases h1 : pyRepr E v with
    | error e => simp [h1, bind, Except.bind] at h
    | ok a =>
      simp only [h1, bind, Except.bind] at h
      injection h with h
      subst h
      have pv := parses_repr hE v lv a hs.2.2.1 h1 (by omega)
      intro f rest hr hf
      simp at hf
      obtain ⟨f, rfl⟩ : ∃ g, f = g + 1 := ⟨f - 1, by omega⟩
      have e := pv f (125 :: rest) (ends_cons _ (by omega)) (by omega)
      obtain ⟨c, a', rfl, hc1, hc2, hc3, hc4, hc5, hc6⟩ := pv.head
      simp only [List.cons_append] at e ⊢
      simp [parseExpr, isDigit, hc3, e, astOf, astsOf]
  | .set (v :: w :: r), lv, t, hs, h, hd => by
    simp only [Sound, Sounds] at hs
    simp only [depth, depths] at hd
    obtain ⟨lv, rfl⟩ : ∃ g, lv = g + 1 := ⟨lv - 1, by omega⟩
    simp only [pyRepr] at h
    cases h1 : pyRepr E v with
    | error e => simp [h1, bind, Except.bind] at h
    | ok a =>
      cases h2 : reprRest E (w :: r) with
      | error e => simp [h1, h2, bind, Except.bind] at h
      | ok b =>
        simp only [h1, h2, bind, Except.bind] at h
        injection h with h
        subst h
        obtain ⟨a2, b2, h3, h4, rfl⟩ := reprRest_cons h2
        have pv := parses_repr hE v lv a hs.2.2.1 h1 (by omega)
        have pw := parses_repr hE w lv a2 hs.2.2.2.1 h3 (by omega)
        have pr := parses_rest hE r lv b2 hs.2.2.2.2 h4 (by omega) _ _ pw
        intro f rest hr hf
        simp at hf
        obtain ⟨f, rfl⟩ : ∃ g, f = g + 1 := ⟨f - 1, by omega⟩
        have e := pv f (44 :: 32 :: (a2 ++ (b2 ++ 125 :: rest))) (ends_cons _ (by omega)) (by omega)
        have e2 := pr f 125 rest (by omega) (by omega)
        obtain ⟨c, a', rfl, hc1, hc2, hc3, hc4, hc5, hc6⟩ := pv.head
        simp only [List.cons_append] at e ⊢
        simp [parseExpr, isDigit, hc3, e, e2, astOf, astsOf]
  | .dict [], lv, t, _, h, hd => by
    simp only [pyRepr] at h; injection h with h; subst h
    intro f rest hr hf
    simp only [depth, depthItems] at hd
    obtain ⟨f, rfl⟩ : ∃ g, f = g + 1 := ⟨f - 1, by simp at hf; omega⟩
    obtain ⟨lv, rfl⟩ : ∃ g, lv = g + 1 := ⟨lv - 1, by omega⟩
    simp [parseExpr, isDigit, astOf, astItems]
  | .dict ((k, v) :: r), lv, t, hs, h, hd => by
    simp only [Sound, SoundItems] at hs
    simp only [depth, depthItems] at hd
    obtain ⟨lv, rfl⟩ : ∃ g, lv = g + 1 := ⟨lv - 1, by omega⟩
    simp only [pyRepr] at h
    cases h0 : pyRepr E k with
    | error e => simp [h0, bind, Except.bind] at h
    | ok kt =>
      cases h1 : pyRepr E v with
      | error e => simp [h0, h1, bind, Except.bind] at h
      | ok a =>
        cases h2 : reprItems E r with
        | error e => simp [h0, h1, h2, bind, Except.bind] at h
        | ok b =>
          simp only [h0, h1, h2, bind, Except.bind] at h
          injection h with h
          subst h
          have pk := parses_repr hE k lv kt hs.2.2.1 h0 (by omega)
          have pv := parses_repr hE v lv a hs.2.2.2.1 h1 (by omega)
          have pr := parses_items hE r lv b hs.2.2.2.2 h2 (by omega) (astOf E k) _ _ pv
          intro f rest hr hf
          simp at hf
          obtain ⟨f, rfl⟩ : ∃ g, f = g + 1 := ⟨f - 1, by omega⟩
          have e := pk f (58 :: 32 :: (a ++ (b ++ 125 :: rest))) (ends_cons _ (by omega)) (by omega)
          have e2 := pr f rest (by omega)
          obtain ⟨c, k', rfl, hc1, hc2, hc3, hc4, hc5, hc6⟩ := pk.head
          simp only [List.cons_append] at e ⊢
          simp [parseExpr, isDigit, hc3, e, e2, astOf, astItems]
theorem parses_rest (hE : LitsOK E) : ∀ (r : List (PyVal F)) (lv : Nat) (b : Text), Sounds E r → reprRest E r = .ok b →
    depths r ≤ lv → ∀ a e, ParsesAs E lv a e → ∀ (f close : Nat) (rest : Text), close = 93 ∨ close = 41 ∨ close = 125 →
    a.length + b.length + 1 < f → parseElems E f lv close (a ++ (b ++ close :: rest)) = some (e :: astsOf E r, rest)
  | [], lv, b, _, h, _, a, e, ha, f, close, rest, hc, hf => by
    simp only [reprRest] at h; injection h with h; subst h
    obtain ⟨f, rfl⟩ : ∃ g, f = g + 1 := ⟨f - 1, by omega⟩
    have h1 := ha f (close :: rest) (ends_cons _ (by omega)) (by simp at hf; omega)
    simp [parseElems, h1, astsOf]
  | v :: r, lv, b, hs, h, hd, a, e, ha, f, close, rest, hc, hf => by
    simp only [Sounds] at hs
    simp only [depths] at hd
    obtain ⟨a2, b2, h3, h4, rfl⟩ := reprRest_cons h
    have pv := parses_repr hE v lv a2 hs.1 h3 (by omega)
    have pr := parses_rest hE r lv b2 hs.2 h4 (by omega) _ _ pv
    obtain ⟨f, rfl⟩ : ∃ g, f = g + 1 := ⟨f - 1, by omega⟩
    simp at hf
    have e1 := ha f (44 :: 32 :: (a2 ++ (b2 ++ close :: rest))) (ends_cons _ (by omega)) (by omega)
    have e2 := pr f close rest hc (by omega)
    have hc' : ¬ 44 = close := by omega
    simp [parseElems, e1, e2, hc', astsOf]
theorem parses_items (hE : LitsOK E) : ∀ (r : List (PyVal F × PyVal F)) (lv : Nat) (b : Text), SoundItems E r → reprItems E r = .ok b →
    depthItems r ≤ lv → ∀ k a e, ParsesAs E lv a e → ∀ (f : Nat) (rest : Text),
    a.length + b.length + 1 < f → parseItems E f lv k (a ++ (b ++ 125 :: rest)) = some ((k, e) :: astItems E r, rest)
  | [], lv, b, _, h, _, k, a, e, ha, f, rest, hf => by
    simp only [reprItems] at h; injection h with h; subst h
    obtain ⟨f, rfl⟩ : ∃ g, f = g + 1 := ⟨f - 1, by omega⟩
    have h1 := ha f (125 :: rest) (ends_cons _ (by omega)) (by simp at hf; omega)
    simp [parseItems, h1, astItems]
  | (k2, v) :: r, lv, b, hs, h, hd, k, a, e, ha, f, rest, hf => by
    simp only [SoundItems] at hs
    simp only [depthItems] at hd
    obtain ⟨kt, a2, b2, h0, h3, h4, rfl⟩ := reprItems_cons h
    have pk := parses_repr hE k2 lv kt hs.1 h0 (by omega)
    have pv := parses_repr hE v lv a2 hs.2.1 h3 (by omega)
    have pr := parses_items hE r lv b2 hs.2.2 h4 (by omega) (astOf E k2) _ _ pv
    obtain ⟨f, rfl⟩ : ∃ g, f = g + 1 := ⟨f - 1, by omega⟩
    simp at hf
    have e1 := ha f (44 :: 32 :: (kt ++ 58 :: 32 :: (a2 ++ (b2 ++ 125 :: rest)))) (ends_cons _ (by omega)) (by omega)
    have e2 := pk f (58 :: 32 :: (a2 ++ (b2 ++ 125 :: rest))) (ends_cons _ (by omega)) (by omega)
    have e3 := pr f rest (by omega)
    simp [parseItems, e1, e2, e3, astItems]
end

end Verif.Lemmas
