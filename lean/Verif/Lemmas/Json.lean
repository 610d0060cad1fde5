import Verif.Lemmas.JsonStr
/-! # JSON documents, written and read -/
namespace Verif.Lemmas
open Verif Verif.Model Verif.Spec
variable {F : Type} {FT : Floats F} {lim : Nat} {L : Layout}

/-! ## `dict(pairs)` -/

theorem keys_merged_mem {α : Type} (l : List (Text × α)) (k : Text) : k ∈ Dict.keys (merged l) ↔ k ∈ Dict.keys l := by
  induction l with
  | nil => simp [merged]
  | cons x r ih =>
    obtain ⟨k', v⟩ := x
    simp only [Dict.keys] at ih
    simp only [merged, Dict.keys, List.map_cons, List.mem_cons, ← ih, List.mem_map, List.mem_filter, decide_eq_true_eq]
    constructor
    · rintro (h | ⟨p, ⟨hp, _⟩, rfl⟩)
      · exact Or.inl h
      · exact Or.inr ⟨p, hp, rfl⟩
    · rintro (h | ⟨p, hp, rfl⟩)
      · exact Or.inl h
      · by_cases hk : p.1 = k'
        · exact Or.inl hk
        · exact Or.inr ⟨p, ⟨hp, hk⟩, rfl⟩

theorem wf_merged {α : Type} (l : List (Text × α)) : Dict.WF (merged l) := by
  induction l with
  | nil => simp [merged, Dict.WF, Dict.keys]
  | cons x r ih =>
    obtain ⟨k, v⟩ := x
    simp only [merged, Dict.WF, Dict.keys, List.map_cons, List.nodup_cons]
    refine ⟨?_, ?_⟩
    · simp
    · exact List.Nodup.sublist (List.Sublist.map _ List.filter_sublist) ih

theorem get?_filter_ne {α : Type} (d : List (Text × α)) {k k' : Text} (h : k' ≠ k) :
    Dict.get? (d.filter fun p => p.1 ≠ k) k' = Dict.get? d k' := by
  induction d with
  | nil => rfl
  | cons x r ih =>
    obtain ⟨a, v⟩ := x
    by_cases ha : a = k
    · subst ha
      rw [List.filter_cons_of_neg (by simp), ih, Dict.get?_cons, if_neg (fun e => h e.symm)]
    · rw [List.filter_cons_of_pos (by simp [ha]), Dict.get?_cons, Dict.get?_cons, ih]

/-- reading a merged list: the last value -/
theorem get?_merged_cons {α : Type} (k : Text) (v : α) (r : List (Text × α)) (k' : Text) :
    Dict.get? (merged ((k, v) :: r)) k' = if k' = k then some ((Dict.get? (merged r) k).getD v) else Dict.get? (merged r) k' := by
  rw [merged, Dict.get?_cons]
  by_cases h : k = k'
  · subst h; simp
  · rw [if_neg h, if_neg (fun e => h e.symm), get?_filter_ne _ (fun e => h e.symm)]

/-- `update` one item after the other, as one merge -/
theorem update_eq_merged {α : Type} (l : List (Text × α)) : ∀ d : Dict Text α, Dict.WF d →
    Dict.update d l = (d.map fun p => (p.1, (Dict.get? (merged l) p.1).getD p.2)) ++
      (merged l).filter (fun p => p.1 ∉ Dict.keys d) := by
  induction l with
  | nil =>
    intro d _
    simp [merged, Dict.update]
  | cons x r ih =>
    intro d wf
    obtain ⟨k, v⟩ := x
    rw [Dict.update_cons, ih _ (Dict.wf_set wf k v)]
    by_cases hk : k ∈ Dict.keys d
    · -- the key stays where it is
      have hks : Dict.keys (Dict.set d k v) = Dict.keys d := Dict.set_of_mem k v hk
      have e1 : (Dict.set d k v).map (fun p => (p.1, (Dict.get? (merged r) p.1).getD p.2)) =
          d.map fun p => (p.1, (Dict.get? (merged ((k, v) :: r)) p.1).getD p.2) := by
        apply Dict.ext_of_keys
        · show ((List.map _ (Dict.set d k v)).map Prod.fst).Nodup
          rw [List.map_map]
          exact Dict.wf_set wf k v
        · simp only [Dict.keys, List.map_map]
          exact hks
        · intro k'
          have hm : ∀ (g : Text → α → α) (d : Dict Text α), Dict.get? (d.map fun p => (p.1, g p.1 p.2)) k' =
              (Dict.get? d k').map (g k') := by
            intro g d
            induction d with
            | nil => rfl
            | cons y d ih2 =>
              obtain ⟨a, b⟩ := y
              simp only [List.map_cons, Dict.get?_cons, ih2]
              split
              · rename_i h; rw [h]; rfl
              · rfl
          rw [hm fun a b => (Dict.get? (merged r) a).getD b, hm fun a b => (Dict.get? (merged ((k, v) :: r)) a).getD b,
            Dict.get?_set, get?_merged_cons]
          by_cases he : k' = k
          · subst he
            have : (Dict.get? d k').isSome := Dict.get?_isSome.2 hk
            obtain ⟨o, ho⟩ := Option.isSome_iff_exists.1 this
            simp [ho]
          · rw [if_neg (fun e => he e.symm), if_neg he]
      rw [e1, hks, merged, List.filter_cons_of_neg (by simp [hk]), List.filter_filter]
      congr 1
      apply List.filter_congr
      intro p _
      by_cases hp : p.1 = k
      · simp [hp, hk]
      · simp [hp]
    · -- the key is new
      rw [Dict.set_of_not_mem k v hk, List.map_append, merged, List.filter_cons_of_pos (by simp [hk]), List.append_assoc]
      congr 1
      · apply List.map_congr_left
        intro p hp
        have hpk : p.1 ≠ k := fun e => hk (e ▸ List.mem_map_of_mem hp)
        have := get?_merged_cons k v r p.1
        rw [merged, if_neg hpk] at this
        rw [this]
      · simp only [List.map_cons, List.map_nil, List.cons_append, List.nil_append, List.filter_filter]
        congr 1
        apply List.filter_congr
        intro p _
        by_cases h1 : p.1 = k
        · simp [Dict.keys, h1]
        · by_cases h2 : p.1 ∈ List.map Prod.fst d
          · simp [Dict.keys, h1, h2]
          · simp only [List.mem_map] at h2
            simp [Dict.keys, h1, List.mem_append, h2]

/-- `dict(pairs)` merges equal keys -/
theorem update_nil_eq_merged {α : Type} (l : List (Text × α)) : Dict.update [] l = merged l := by
  rw [update_eq_merged l [] Dict.wf_nil]
  simp [Dict.keys]

/-! ## white space -/

/-- a layout puts white space only -/
structure LayoutOK (L : Layout) : Prop where
  opens : ∀ lv, ∀ c ∈ L.opens lv, isWs c = true
  seps : ∀ lv, ∀ c ∈ L.seps lv, isWs c = true
  closes : ∀ lv, ∀ c ∈ L.closes lv, isWs c = true

theorem compact_ok : LayoutOK compact := ⟨by simp [compact], by simp [compact, isWs], by simp [compact]⟩

theorem lineBreak_ws (n lv : Nat) : ∀ c ∈ lineBreak n lv, isWs c = true := by
  intro c hc
  simp only [lineBreak, List.mem_cons, List.mem_replicate] at hc
  rcases hc with rfl | ⟨_, rfl⟩ <;> rfl

theorem indented_ok (n : Nat) : LayoutOK (indented n) :=
  ⟨fun lv => lineBreak_ws n _, fun lv => lineBreak_ws n _, fun lv => lineBreak_ws n _⟩

theorem skipWs_ws {w : Text} (hw : ∀ c ∈ w, isWs c = true) (t : Text) : skipWs (w ++ t) = skipWs t := by
  induction w with
  | nil => rfl
  | cons a w ih =>
    have := ih fun c hc => hw c (by simp [hc])
    simp only [skipWs] at this ⊢
    simp [hw a (by simp), this]

theorem skipWs_cons {c : Nat} (h : isWs c = false) (t : Text) : skipWs (c :: t) = c :: t := by simp [skipWs, h]

/-- how a value can begin -/
def Begins (t : Text) : Prop := ∃ c r, t = c :: r ∧ isWs c = false ∧ c ≠ 93 ∧ c ≠ 125

theorem Begins.skip {t : Text} (h : Begins t) (r : Text) : skipWs (t ++ r) = t ++ r := by
  obtain ⟨c, t', rfl, h, _⟩ := h
  rw [List.cons_append, skipWs_cons h]

theorem begins_digits {t : Text} (h : IntText t) (r : Text) : Begins (t ++ r) := by
  obtain ⟨c, d, rfl, h1, h2⟩ := intText_head h
  refine ⟨c, d ++ r, rfl, ?_, by omega, by omega⟩
  simp only [isWs, Bool.or_eq_false_iff, beq_eq_false_iff_ne]
  omega

theorem begins_decInt (i : Int) : Begins (decInt i) := by
  unfold decInt
  split
  · exact ⟨45, _, rfl, rfl, by decide, by decide⟩
  · have := begins_digits (decNat_intText i.natAbs) []
    simpa using this

theorem begins_float {t : Text} (h : IsFloatText t) : Begins t := by
  obtain ⟨neg, int, frac, exp, rfl, hn, hi, _⟩ := h
  rcases hn with rfl | rfl
  · have := begins_digits hi (frac ++ exp)
    simpa using this
  · exact ⟨45, int ++ frac ++ exp, by simp, rfl, by decide, by decide⟩

/-- a written value begins as a value -/
theorem dumps_begins (hF : FloatsOK FT) {lv : Nat} {v : PyVal F} {t : Text} (h : dumps FT lim L lv v = .ok t) : Begins t := by
  cases v with
  | none => simp only [dumps] at h; cases h; exact ⟨110, _, rfl, rfl, by decide, by decide⟩
  | bool b => cases b <;> (simp only [dumps] at h; cases h; exact ⟨_, _, rfl, rfl, by decide, by decide⟩)
  | int i =>
    simp only [dumps] at h
    rw [(intText_ok h).1]
    exact begins_decInt i
  | float x =>
    simp only [dumps] at h
    cases h
    cases x with
    | fin f => exact begins_float (hF.text f)
    | nan => exact ⟨_, _, rfl, rfl, by decide, by decide⟩
    | inf => exact ⟨_, _, rfl, rfl, by decide, by decide⟩
    | negInf => exact ⟨_, _, rfl, rfl, by decide, by decide⟩
  | str s => simp only [dumps] at h; cases h; exact ⟨34, _, rfl, rfl, by decide, by decide⟩
  | bytes b => simp [dumps] at h
  | list l =>
    cases l with
    | nil => simp only [dumps] at h; cases h; exact ⟨91, _, rfl, rfl, by decide, by decide⟩
    | cons v r =>
      simp only [dumps] at h
      cases h1 : dumps FT lim L (lv + 1) v with
      | error e => simp [h1, bind, Except.bind] at h
      | ok a =>
        cases h2 : dumpsRest FT lim L lv r with
        | error e => simp [h1, h2, bind, Except.bind] at h
        | ok b =>
          simp only [h1, h2, bind, Except.bind] at h
          cases h; exact ⟨91, _, rfl, rfl, by decide, by decide⟩
  | tuple l =>
    cases l with
    | nil => simp only [dumps] at h; cases h; exact ⟨91, _, rfl, rfl, by decide, by decide⟩
    | cons v r =>
      simp only [dumps] at h
      cases h1 : dumps FT lim L (lv + 1) v with
      | error e => simp [h1, bind, Except.bind] at h
      | ok a =>
        cases h2 : dumpsRest FT lim L lv r with
        | error e => simp [h1, h2, bind, Except.bind] at h
        | ok b =>
          simp only [h1, h2, bind, Except.bind] at h
          cases h; exact ⟨91, _, rfl, rfl, by decide, by decide⟩
  | set l => simp [dumps] at h
  | dict d =>
    cases d with
    | nil => simp only [dumps] at h; cases h; exact ⟨123, _, rfl, rfl, by decide, by decide⟩
    | cons x r =>
      obtain ⟨k, v⟩ := x
      simp only [dumps] at h
      cases h0 : keyText FT lim k with
      | error e => simp [h0, bind, Except.bind] at h
      | ok kt =>
        cases h1 : dumps FT lim L (lv + 1) v with
        | error e => simp [h0, h1, bind, Except.bind] at h
        | ok a =>
          cases h2 : dumpsItems FT lim L lv r with
          | error e => simp [h0, h1, h2, bind, Except.bind] at h
          | ok b =>
            simp only [h0, h1, h2, bind, Except.bind] at h
            cases h; exact ⟨123, _, rfl, rfl, by decide, by decide⟩
  | other n => simp [dumps] at h

/-! ## values -/

theorem textOK_ascii {t : Text} (h : ∀ c ∈ t, c < 128) : TextOK t := fun c hc => by have := h c hc; omega

theorem digits_ascii {t : Text} (h : ∀ x ∈ t, isDigit x = true) : ∀ c ∈ t, c < 128 := by
  intro c hc
  have := h c hc
  simp only [isDigit, Bool.and_eq_true, decide_eq_true_eq] at this
  omega

theorem decInt_ascii (i : Int) : ∀ c ∈ decInt i, c < 128 ∧ c ≠ 0 := by
  intro c hc
  have hd : ∀ c ∈ decNat i.natAbs, c < 128 ∧ c ≠ 0 := by
    intro c hc
    have := decNat_digits _ c hc
    simp only [isDigit, Bool.and_eq_true, decide_eq_true_eq] at this
    omega
  unfold decInt at hc
  split at hc
  · rcases List.mem_cons.1 hc with rfl | h
    · exact ⟨by decide, by decide⟩
    · exact hd c h
  · exact hd c hc

theorem floatText_ascii (hF : FloatsOK FT) (x : PyFloat F) : ∀ c ∈ floatText FT x, c < 128 ∧ c ≠ 0 := by
  have hdig : ∀ (d : Text), (∀ x ∈ d, isDigit x = true) → ∀ c ∈ d, c < 128 ∧ c ≠ 0 := by
    intro d hd c hc
    have := hd c hc
    simp only [isDigit, Bool.and_eq_true, decide_eq_true_eq] at this
    omega
  cases x with
  | fin f =>
    obtain ⟨neg, int, frac, exp, e, hn, hi, hf, he, _⟩ := hF.text f
    intro c hc
    simp only [floatText, e, List.mem_append] at hc
    rcases hc with ((hc | hc) | hc) | hc
    · rcases hn with rfl | rfl <;> simp at hc
      omega
    · rcases hi with rfl | ⟨a, d, rfl, h1, h2, h3⟩
      · simp at hc; omega
      · rcases List.mem_cons.1 hc with rfl | hc
        · omega
        · exact hdig d h3 c hc
    · rcases hf with rfl | ⟨d, rfl, _, h3⟩
      · simp at hc
      · rcases List.mem_cons.1 hc with rfl | hc
        · omega
        · exact hdig d h3 c hc
    · rcases he with rfl | ⟨a, sg, d, rfl, h1, h2, _, h3⟩
      · simp at hc
      · rcases List.mem_cons.1 hc with rfl | hc
        · omega
        · rcases List.mem_append.1 hc with hc | hc
          · rcases h2 with rfl | rfl | rfl <;> simp at hc <;> omega
          · exact hdig d h3 c hc
  | nan => simp only [floatText]; decide
  | inf => simp only [floatText]; decide
  | negInf => simp only [floatText]; decide

/-- a key's text, and that it is one -/
theorem keyText_ok (hF : FloatsOK FT) {k : PyVal F} {t : Text} (hk : Proper k) (h : keyText FT lim k = .ok t) :
    t = keyString FT k ∧ TextOK t ∧ JsonKey lim k := by
  cases k with
  | str s => cases h; exact ⟨rfl, hk, trivial⟩
  | float x =>
    cases h
    refine ⟨?_, textOK_ascii fun c hc => (floatText_ascii hF x c hc).1, trivial⟩
    cases x <;> rfl
  | bool b => cases b <;> (cases h; exact ⟨rfl, by unfold TextOK; decide, trivial⟩)
  | none => cases h; exact ⟨rfl, by unfold TextOK; decide, trivial⟩
  | int i =>
    obtain ⟨e, hs⟩ := intText_ok h
    exact ⟨e, by rw [e]; exact textOK_ascii fun c hc => (decInt_ascii i c hc).1, hs⟩
  | bytes _ => cases h
  | list _ => cases h
  | tuple _ => cases h
  | set _ => cases h
  | dict _ => cases h
  | other _ => cases h

theorem after_append (p t : Text) : after p (p ++ t) = some t := by
  induction p with
  | nil => rfl
  | cons a p ih => simp [after, ih]

theorem stops_ws {w : Text} (hw : ∀ c ∈ w, isWs c = true) {c : Nat} (r : Text) (hc : Stops (c :: r)) : Stops (w ++ c :: r) := by
  cases w with
  | nil => exact hc
  | cons a w =>
    have ha := hw a (by simp)
    simp only [isWs, Bool.or_eq_true, beq_iff_eq] at ha
    refine stops_cons _ ?_ (by omega) (by omega) (by omega)
    have : a = 32 ∨ a = 9 ∨ a = 10 ∨ a = 13 := by omega
    rcases this with rfl | rfl | rfl | rfl <;> rfl

theorem scanOnce_number {f : Nat} {t : Text} {o : PyVal F × Text} (hb : ∃ c r, t = c :: r ∧ (c = 45 ∨ isDigit c = true))
    (h : scanNumber FT lim t = .ok o) : scanOnce FT lim (f + 1) t = .ok o := by
  obtain ⟨c, r, rfl, hc⟩ := hb
  have hc' : c ≠ 34 ∧ c ≠ 123 ∧ c ≠ 91 ∧ 110 ≠ c ∧ 116 ≠ c ∧ 102 ≠ c := by
    simp only [isDigit, Bool.and_eq_true, decide_eq_true_eq] at hc
    omega
  obtain ⟨h1, h2, h3, h4, h5, h6⟩ := hc'
  simp only [scanOnce, if_neg h1, if_neg h2, if_neg h3, nullText, trueText, falseText, after, if_neg h4, if_neg h5, if_neg h6]
  exact h

theorem floatText_starts {t : Text} (h : IsFloatText t) (r : Text) : ∃ c r', t ++ r = c :: r' ∧ (c = 45 ∨ isDigit c = true) := by
  obtain ⟨neg, int, frac, exp, rfl, hn, hi, _⟩ := h
  rcases hn with rfl | rfl
  · obtain ⟨c, d, rfl, h1, h2⟩ := intText_head hi
    exact ⟨c, d ++ frac ++ exp ++ r, by simp, Or.inr (by simp [isDigit, h1, h2])⟩
  · exact ⟨45, int ++ frac ++ exp ++ r, by simp, Or.inl rfl⟩

theorem decInt_starts (i : Int) (r : Text) : ∃ c r', decInt i ++ r = c :: r' ∧ (c = 45 ∨ isDigit c = true) := by
  unfold decInt
  split
  · exact ⟨45, _, rfl, Or.inl rfl⟩
  · obtain ⟨c, d, e, h1, h2⟩ := intText_head (decNat_intText i.natAbs)
    exact ⟨c, d ++ r, by rw [e]; rfl, Or.inr (by simp [isDigit, h1, h2])⟩

/-- `text` is read as `v`, whatever follows that does not go on with a number -/
def ReadsAs (FT : Floats F) (lim : Nat) (text : Text) (v : PyVal F) : Prop :=
  ∀ rest f, Stops rest → text.length < f → scanOnce FT lim f (text ++ rest) = .ok (v, rest)

theorem reads_float (hF : FloatsOK FT) (x : PyFloat F) : ReadsAs FT lim (floatText FT x) (.float x) := by
  intro rest f hr hf
  obtain ⟨f, rfl⟩ : ∃ g, f = g + 1 := ⟨f - 1, by omega⟩
  cases x with
  | fin y =>
    refine scanOnce_number (floatText_starts (hF.text y) rest) ?_
    have := scanNumber_float (FT := FT) (lim := lim) (hF.text y) hr
    rw [hF.back] at this
    exact this
  | nan => rfl
  | inf => rfl
  | negInf => exact scanOnce_number ⟨45, _, rfl, Or.inl rfl⟩ rfl

theorem reads_str {s : Text} (h : TextOK s) : ReadsAs FT lim (encStr s) (.str (joined s)) := by
  intro rest f _ hf
  obtain ⟨f, rfl⟩ : ∃ g, f = g + 1 := ⟨f - 1, by omega⟩
  have e : encStr s ++ rest = 34 :: (s.flatMap encChar ++ 34 :: rest) := by simp [encStr]
  rw [e]
  simp only [scanOnce, if_true]
  rw [scanStr_encStr h rest _ (by simp; omega)]

theorem stops_after (hL : LayoutOK L) {lv : Nat} {c : Nat} (hc : Stops [c]) {b : Text} (hb : b = [] ∨ ∃ b', b = 44 :: b')
    (rest : Text) : Stops (b ++ (L.closes lv ++ c :: rest)) := by
  have hc' : Stops (c :: rest) := by
    obtain ⟨h1, h2, h3, h4⟩ := hc c [] rfl
    exact stops_cons _ h1 h2 h3 h4
  rcases hb with rfl | ⟨b', rfl⟩
  · exact stops_ws (hL.closes lv) rest hc'
  · exact stops_cons _ rfl (by decide) (by decide) (by decide)

theorem dumpsRest_shape {lv : Nat} {l : List (PyVal F)} {b : Text} (h : dumpsRest FT lim L lv l = .ok b) :
    b = [] ∨ ∃ b', b = 44 :: b' := by
  cases l with
  | nil => simp only [dumpsRest] at h; cases h; exact Or.inl rfl
  | cons v r =>
    simp only [dumpsRest] at h
    cases h1 : dumps FT lim L (lv + 1) v with
    | error e => simp [h1, bind, Except.bind] at h
    | ok a =>
      cases h2 : dumpsRest FT lim L lv r with
      | error e => simp [h1, h2, bind, Except.bind] at h
      | ok b' => simp only [h1, h2, bind, Except.bind] at h; cases h; exact Or.inr ⟨_, rfl⟩

theorem dumpsItems_shape {lv : Nat} {l : List (PyVal F × PyVal F)} {b : Text} (h : dumpsItems FT lim L lv l = .ok b) :
    b = [] ∨ ∃ b', b = 44 :: b' := by
  cases l with
  | nil => simp only [dumpsItems] at h; cases h; exact Or.inl rfl
  | cons x r =>
    obtain ⟨k, v⟩ := x
    simp only [dumpsItems] at h
    cases h0 : keyText FT lim k with
    | error e => simp [h0, bind, Except.bind] at h
    | ok kt =>
      cases h1 : dumps FT lim L (lv + 1) v with
      | error e => simp [h0, h1, bind, Except.bind] at h
      | ok a =>
        cases h2 : dumpsItems FT lim L lv r with
        | error e => simp [h0, h1, h2, bind, Except.bind] at h
        | ok b' => simp only [h0, h1, h2, bind, Except.bind] at h; cases h; exact Or.inr ⟨_, rfl⟩

/-- one element and the rest, read by the loop of arrays -/
theorem elems_step (hL : LayoutOK L) {lv : Nat} {v : PyVal F} {vs : List (PyVal F)} {a b : Text} (ha : ReadsAs FT lim a v)
    (hb : b = [] ∨ ∃ b', b = 44 :: b') {rest : Text} {f : Nat} (hf : a.length + b.length + 1 < f)
    (h : (b = [] ∧ vs = []) ∨ ∃ b', b = 44 :: b' ∧ ∀ g, a.length + b.length + 1 < g + 1 →
      scanElems FT lim g (skipWs (b' ++ (L.closes lv ++ 93 :: rest))) = .ok (vs, rest)) :
    scanElems FT lim f (a ++ (b ++ (L.closes lv ++ 93 :: rest))) = .ok (v :: vs, rest) := by
  obtain ⟨f, rfl⟩ : ∃ g, f = g + 1 := ⟨f - 1, by omega⟩
  simp only [scanElems]
  rw [ha _ f (stops_after hL (stops_cons _ rfl (by decide) (by decide) (by decide)) hb rest) (by omega)]
  simp only [bind, Except.bind]
  rcases h with ⟨rfl, rfl⟩ | ⟨b', rfl, h⟩
  · rw [List.nil_append, skipWs_ws (hL.closes lv), skipWs_cons rfl]
    rfl
  · rw [List.cons_append, skipWs_cons rfl]
    simp only [show ¬ (44 : Nat) = 93 by decide, if_false, ne_eq, not_true_eq_false]
    rw [h f hf]

/-- one item and the rest, read by the loop of objects -/
theorem items_step (hL : LayoutOK L) {lv : Nat} {k : Text} (hk : TextOK k) {v : PyVal F} {ps : List (Text × PyVal F)} {a b : Text}
    (ha : ReadsAs FT lim a v) (hbeg : Begins a) (hb : b = [] ∨ ∃ b', b = 44 :: b') {rest : Text} {f : Nat}
    (hf : a.length + b.length + 1 < f)
    (h : (b = [] ∧ ps = []) ∨ ∃ b' b'', b = 44 :: b' ∧ skipWs (b' ++ (L.closes lv ++ 125 :: rest)) = 34 :: b'' ∧
      ∀ g, a.length + b.length + 1 < g + 1 → scanItems FT lim g b'' = .ok (ps, rest)) :
    scanItems FT lim f (k.flatMap encChar ++ 34 :: 58 :: 32 :: (a ++ (b ++ (L.closes lv ++ 125 :: rest)))) =
      .ok ((joined k, v) :: ps, rest) := by
  obtain ⟨f, rfl⟩ : ∃ g, f = g + 1 := ⟨f - 1, by omega⟩
  simp only [scanItems]
  rw [scanStr_encStr hk _ _ (by simp; omega)]
  simp only [skipWs_cons (show isWs 58 = false from rfl), ne_eq, not_true_eq_false, if_false]
  have e1 : skipWs (32 :: (a ++ (b ++ (L.closes lv ++ 125 :: rest)))) = a ++ (b ++ (L.closes lv ++ 125 :: rest)) := by
    have := skipWs_ws (w := [32]) (by simp [isWs]) (a ++ (b ++ (L.closes lv ++ 125 :: rest)))
    rw [hbeg.skip] at this
    exact this
  rw [e1, ha _ f (stops_after hL (stops_cons _ rfl (by decide) (by decide) (by decide)) hb rest) (by omega)]
  simp only [bind, Except.bind]
  rcases h with ⟨rfl, rfl⟩ | ⟨b', b'', rfl, hs, h⟩
  · rw [List.nil_append, skipWs_ws (hL.closes lv), skipWs_cons rfl]
    rfl
  · rw [List.cons_append, skipWs_cons rfl]
    simp only [show ¬ (44 : Nat) = 125 by decide, if_false, not_true_eq_false]
    rw [hs]
    simp only [not_true_eq_false, if_false]
    rw [h f hf]

mutual
/-- what was written of a value is read as its image -/
theorem reads_dumps (hF : FloatsOK FT) (hL : LayoutOK L) : ∀ (v : PyVal F) (lv : Nat) (t : Text), Proper v →
    dumps FT lim L lv v = .ok t → ReadsAs FT lim t (jsonImage FT v)
  | .none, lv, t, _, h => by
    simp only [dumps] at h; cases h
    intro rest f _ hf
    obtain ⟨f, rfl⟩ : ∃ g, f = g + 1 := ⟨f - 1, by omega⟩
    rfl
  | .bool b, lv, t, _, h => by
    cases b <;>
    · simp only [dumps] at h; cases h
      intro rest f _ hf
      obtain ⟨f, rfl⟩ : ∃ g, f = g + 1 := ⟨f - 1, by omega⟩
      rfl
  | .int i, lv, t, _, h => by
    simp only [dumps] at h
    obtain ⟨rfl, hs⟩ := intText_ok h
    intro rest f hr hf
    obtain ⟨f, rfl⟩ : ∃ g, f = g + 1 := ⟨f - 1, by omega⟩
    exact scanOnce_number (decInt_starts i rest) (scanNumber_int hs hr)
  | .float x, lv, t, _, h => by
    simp only [dumps] at h; cases h
    exact reads_float hF x
  | .str s, lv, t, hp, h => by
    simp only [dumps] at h; cases h
    exact reads_str hp
  | .bytes b, lv, t, _, h => by simp [dumps] at h
  | .list [], lv, t, _, h => by
    simp only [dumps] at h; cases h
    intro rest f _ hf
    obtain ⟨f, rfl⟩ : ∃ g, f = g + 1 := ⟨f - 1, by omega⟩
    rfl
  | .list (v :: r), lv, t, hp, h => by
    simp only [Proper, Propers] at hp
    simp only [dumps] at h
    cases h1 : dumps FT lim L (lv + 1) v with
    | error e => simp [h1, bind, Except.bind] at h
    | ok a =>
      cases h2 : dumpsRest FT lim L lv r with
      | error e => simp [h1, h2, bind, Except.bind] at h
      | ok b =>
        simp only [h1, h2, bind, Except.bind] at h
        cases h
        have hv := reads_dumps hF hL v (lv + 1) a hp.1 h1
        have hr := reads_rest hF hL r lv b hp.2 h2
        intro rest f _ hf
        obtain ⟨f, rfl⟩ : ∃ g, f = g + 1 := ⟨f - 1, by omega⟩
        simp only [List.length_cons, List.length_append, List.length_nil] at hf
        have hs := hr a _ hv rest f (by omega)
        have hbeg := dumps_begins hF h1
        have e : 91 :: (L.opens lv ++ a ++ b ++ L.closes lv ++ [93]) ++ rest =
            91 :: (L.opens lv ++ (a ++ (b ++ (L.closes lv ++ 93 :: rest)))) := by simp
        have e2 : skipWs (L.opens lv ++ (a ++ (b ++ (L.closes lv ++ 93 :: rest)))) = a ++ (b ++ (L.closes lv ++ 93 :: rest)) := by
          rw [skipWs_ws (hL.opens lv), hbeg.skip]
        rw [e]
        simp only [scanOnce, show ¬ (91 : Nat) = 34 by decide, show ¬ (91 : Nat) = 123 by decide, if_false, if_true]
        rw [e2]
        obtain ⟨c, a', rfl, _, hc, _⟩ := hbeg
        simp only [List.cons_append, if_neg hc] at hs ⊢
        rw [hs]
        rfl
  | .tuple [], lv, t, _, h => by
    simp only [dumps] at h; cases h
    intro rest f _ hf
    obtain ⟨f, rfl⟩ : ∃ g, f = g + 1 := ⟨f - 1, by omega⟩
    rfl
  | .tuple (v :: r), lv, t, hp, h => by
    simp only [Proper, Propers] at hp
    simp only [dumps] at h
    cases h1 : dumps FT lim L (lv + 1) v with
    | error e => simp [h1, bind, Except.bind] at h
    | ok a =>
      cases h2 : dumpsRest FT lim L lv r with
      | error e => simp [h1, h2, bind, Except.bind] at h
      | ok b =>
        simp only [h1, h2, bind, Except.bind] at h
        cases h
        have hv := reads_dumps hF hL v (lv + 1) a hp.1 h1
        have hr := reads_rest hF hL r lv b hp.2 h2
        intro rest f _ hf
        obtain ⟨f, rfl⟩ : ∃ g, f = g + 1 := ⟨f - 1, by omega⟩
        simp only [List.length_cons, List.length_append, List.length_nil] at hf
        have hs := hr a _ hv rest f (by omega)
        have hbeg := dumps_begins hF h1
        have e : 91 :: (L.opens lv ++ a ++ b ++ L.closes lv ++ [93]) ++ rest =
            91 :: (L.opens lv ++ (a ++ (b ++ (L.closes lv ++ 93 :: rest)))) := by simp
        have e2 : skipWs (L.opens lv ++ (a ++ (b ++ (L.closes lv ++ 93 :: rest)))) = a ++ (b ++ (L.closes lv ++ 93 :: rest)) := by
          rw [skipWs_ws (hL.opens lv), hbeg.skip]
        rw [e]
        simp only [scanOnce, show ¬ (91 : Nat) = 34 by decide, show ¬ (91 : Nat) = 123 by decide, if_false, if_true]
        rw [e2]
        obtain ⟨c, a', rfl, _, hc, _⟩ := hbeg
        simp only [List.cons_append, if_neg hc] at hs ⊢
        rw [hs]
        rfl
  | .set l, lv, t, _, h => by simp [dumps] at h
  | .dict [], lv, t, _, h => by
    simp only [dumps] at h; cases h
    intro rest f _ hf
    obtain ⟨f, rfl⟩ : ∃ g, f = g + 1 := ⟨f - 1, by omega⟩
    rfl
  | .dict ((k, v) :: r), lv, t, hp, h => by
    simp only [Proper, ProperItems] at hp
    simp only [dumps] at h
    cases h0 : keyText FT lim k with
    | error e => simp [h0, bind, Except.bind] at h
    | ok kt =>
      cases h1 : dumps FT lim L (lv + 1) v with
      | error e => simp [h0, h1, bind, Except.bind] at h
      | ok a =>
        cases h2 : dumpsItems FT lim L lv r with
        | error e => simp [h0, h1, h2, bind, Except.bind] at h
        | ok b =>
          simp only [h0, h1, h2, bind, Except.bind] at h
          cases h
          obtain ⟨hke, hkt, _⟩ := keyText_ok hF hp.2.1 h0
          have hv := reads_dumps hF hL v (lv + 1) a hp.2.2.1 h1
          have hr := reads_items hF hL r lv b hp.2.2.2 h2
          intro rest f _ hf
          obtain ⟨f, rfl⟩ : ∃ g, f = g + 1 := ⟨f - 1, by omega⟩
          simp only [encStr, List.length_cons, List.length_append, List.length_nil] at hf
          have hbeg := dumps_begins hF h1
          have hs := hr kt hkt a _ hv hbeg rest f (by omega)
          have e : 123 :: (L.opens lv ++ encStr kt ++ [58, 32] ++ a ++ b ++ L.closes lv ++ [125]) ++ rest =
              123 :: (L.opens lv ++ 34 :: (kt.flatMap encChar ++ 34 :: 58 :: 32 :: (a ++ (b ++ (L.closes lv ++ 125 :: rest))))) := by
            simp [encStr]
          rw [e]
          simp only [scanOnce, show ¬ (123 : Nat) = 34 by decide, if_false, if_true]
          rw [skipWs_ws (hL.opens lv), skipWs_cons rfl]
          simp only [show ¬ (34 : Nat) = 125 by decide, if_false, if_true, hs, bind, Except.bind, update_nil_eq_merged, ← hke,
            jsonImage, jsonPairs]
  | .other n, lv, t, _, h => by simp [dumps] at h
/-- the same for the elements after the first -/
theorem reads_rest (hF : FloatsOK FT) (hL : LayoutOK L) : ∀ (l : List (PyVal F)) (lv : Nat) (b : Text), Propers l →
    dumpsRest FT lim L lv l = .ok b → ∀ (a : Text) (v : PyVal F), ReadsAs FT lim a v → ∀ rest f, a.length + b.length + 1 < f →
      scanElems FT lim f (a ++ (b ++ (L.closes lv ++ 93 :: rest))) = .ok (v :: jsonImages FT l, rest)
  | [], lv, b, _, h => by
    simp only [dumpsRest] at h; cases h
    intro a v ha rest f hf
    exact elems_step hL ha (Or.inl rfl) hf (Or.inl ⟨rfl, rfl⟩)
  | w :: r, lv, b, hp, h => by
    simp only [Propers] at hp
    have hb := dumpsRest_shape h
    simp only [dumpsRest] at h
    cases h1 : dumps FT lim L (lv + 1) w with
    | error e => simp [h1, bind, Except.bind] at h
    | ok a' =>
      cases h2 : dumpsRest FT lim L lv r with
      | error e => simp [h1, h2, bind, Except.bind] at h
      | ok b' =>
        simp only [h1, h2, bind, Except.bind] at h
        cases h
        have hw := reads_dumps hF hL w (lv + 1) a' hp.1 h1
        have hr := reads_rest hF hL r lv b' hp.2 h2
        intro a v ha rest f hf
        refine elems_step hL ha hb hf (Or.inr ⟨_, rfl, fun g hg => ?_⟩)
        have e : L.seps lv ++ a' ++ b' ++ (L.closes lv ++ 93 :: rest) =
            L.seps lv ++ (a' ++ (b' ++ (L.closes lv ++ 93 :: rest))) := by simp
        rw [e, skipWs_ws (hL.seps lv), (dumps_begins hF h1).skip]
        simp only [List.length_cons, List.length_append] at hg
        exact hr a' _ hw rest g (by omega)
/-- the same for the items after the first -/
theorem reads_items (hF : FloatsOK FT) (hL : LayoutOK L) : ∀ (l : List (PyVal F × PyVal F)) (lv : Nat) (b : Text), ProperItems l →
    dumpsItems FT lim L lv l = .ok b → ∀ (k : Text), TextOK k → ∀ (a : Text) (v : PyVal F), ReadsAs FT lim a v → Begins a →
      ∀ rest f, a.length + b.length + 1 < f →
      scanItems FT lim f (k.flatMap encChar ++ 34 :: 58 :: 32 :: (a ++ (b ++ (L.closes lv ++ 125 :: rest)))) =
        .ok ((joined k, v) :: jsonPairs FT l, rest)
  | [], lv, b, _, h => by
    simp only [dumpsItems] at h; cases h
    intro k hk a v ha hbeg rest f hf
    exact items_step hL hk ha hbeg (Or.inl rfl) hf (Or.inl ⟨rfl, rfl⟩)
  | (j, w) :: r, lv, b, hp, h => by
    simp only [ProperItems] at hp
    have hb := dumpsItems_shape h
    simp only [dumpsItems] at h
    cases h0 : keyText FT lim j with
    | error e => simp [h0, bind, Except.bind] at h
    | ok jt =>
      cases h1 : dumps FT lim L (lv + 1) w with
      | error e => simp [h0, h1, bind, Except.bind] at h
      | ok a' =>
        cases h2 : dumpsItems FT lim L lv r with
        | error e => simp [h0, h1, h2, bind, Except.bind] at h
        | ok b' =>
          simp only [h0, h1, h2, bind, Except.bind] at h
          cases h
          obtain ⟨hje, hjt, _⟩ := keyText_ok hF hp.1 h0
          have hw := reads_dumps hF hL w (lv + 1) a' hp.2.1 h1
          have hr := reads_items hF hL r lv b' hp.2.2 h2
          intro k hk a v ha hbeg rest f hf
          have e : L.seps lv ++ encStr jt ++ [58, 32] ++ a' ++ b' ++ (L.closes lv ++ 125 :: rest) =
              L.seps lv ++ 34 :: (jt.flatMap encChar ++ 34 :: 58 :: 32 :: (a' ++ (b' ++ (L.closes lv ++ 125 :: rest)))) := by
            simp [encStr]
          refine items_step hL hk ha hbeg hb hf (Or.inr ⟨_,
            jt.flatMap encChar ++ 34 :: 58 :: 32 :: (a' ++ (b' ++ (L.closes lv ++ 125 :: rest))), rfl, ?_, fun g hg => ?_⟩)
          · rw [e, skipWs_ws (hL.seps lv), skipWs_cons rfl]
          · simp only [encStr, List.length_cons, List.length_append] at hg
            rw [jsonPairs, ← hje]
            exact hr jt hjt a' _ hw (dumps_begins hF h1) rest g (by omega)
end

/-- the whole document -/
theorem loads_dumps (hF : FloatsOK FT) (hL : LayoutOK L) {v : PyVal F} {lv : Nat} {t : Text} (hp : Proper v)
    (h : dumps FT lim L lv v = .ok t) : loads FT lim t = .ok (jsonImage FT v) := by
  have hb := (dumps_begins hF h).skip []
  have hr := reads_dumps hF hL v lv t hp h [] (t.length + 1) stops_nil (by omega)
  rw [List.append_nil] at hb hr
  simp only [loads, hb, hr, bind, Except.bind]
  rfl

end Verif.Lemmas
