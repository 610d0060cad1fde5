import Verif.Lemmas.Json
/-! # Which values JSON writes, and which come back as they were -/
namespace Verif.Lemmas
open Verif Verif.Model Verif.Spec
variable {F : Type} {FT : Floats F} {lim : Nat} {L : Layout}

/-! ## what can be written -/

theorem keyText_iff (k : PyVal F) : (∃ t, keyText FT lim k = .ok t) ↔ JsonKey lim k := by
  have hi : ∀ i : Int, (∃ t, intText lim i = .ok t) ↔ Short lim i := fun i =>
    ⟨fun ⟨t, h⟩ => (intText_ok h).2, fun h => ⟨_, intText_short h⟩⟩
  cases k with
  | int i => exact hi i
  | bool b => cases b <;> simp [keyText, JsonKey]
  | _ => simp [keyText, JsonKey]

mutual
/-- exactly the JSON values are written -/
theorem dumps_iff : ∀ (v : PyVal F) (lv : Nat), (∃ t, dumps FT lim L lv v = .ok t) ↔ JsonAble lim v
  | .none, lv => by simp [dumps, JsonAble]
  | .bool b, lv => by cases b <;> simp [dumps, JsonAble]
  | .int i, lv => by
    simp only [dumps, JsonAble]
    exact ⟨fun ⟨t, h⟩ => (intText_ok h).2, fun h => ⟨_, intText_short h⟩⟩
  | .float x, lv => by simp [dumps, JsonAble]
  | .str s, lv => by simp [dumps, JsonAble]
  | .bytes b, lv => by simp [dumps, JsonAble]
  | .set l, lv => by simp [dumps, JsonAble]
  | .other n, lv => by simp [dumps, JsonAble]
  | .list [], lv => by simp [dumps, JsonAble, JsonAbles]
  | .list (v :: r), lv => by
    have h1 := dumps_iff v (lv + 1)
    have h2 := dumpsRest_iff r lv
    simp only [JsonAble, JsonAbles, ← h1, ← h2]
    constructor
    · rintro ⟨t, h⟩
      simp only [dumps] at h
      cases e1 : dumps FT lim L (lv + 1) v with
      | error e => simp [e1, bind, Except.bind] at h
      | ok a =>
        cases e2 : dumpsRest FT lim L lv r with
        | error e => simp [e1, e2, bind, Except.bind] at h
        | ok b => exact ⟨⟨a, rfl⟩, b, rfl⟩
    · rintro ⟨⟨a, e1⟩, b, e2⟩
      exact ⟨_, by simp only [dumps, e1, e2, bind, Except.bind]; rfl⟩
  | .tuple [], lv => by simp [dumps, JsonAble, JsonAbles]
  | .tuple (v :: r), lv => by
    have h1 := dumps_iff v (lv + 1)
    have h2 := dumpsRest_iff r lv
    simp only [JsonAble, JsonAbles, ← h1, ← h2]
    constructor
    · rintro ⟨t, h⟩
      simp only [dumps] at h
      cases e1 : dumps FT lim L (lv + 1) v with
      | error e => simp [e1, bind, Except.bind] at h
      | ok a =>
        cases e2 : dumpsRest FT lim L lv r with
        | error e => simp [e1, e2, bind, Except.bind] at h
        | ok b => exact ⟨⟨a, rfl⟩, b, rfl⟩
    · rintro ⟨⟨a, e1⟩, b, e2⟩
      exact ⟨_, by simp only [dumps, e1, e2, bind, Except.bind]; rfl⟩
  | .dict [], lv => by simp [dumps, JsonAble, JsonAbleItems]
  | .dict ((k, v) :: r), lv => by
    have h0 := keyText_iff (FT := FT) (lim := lim) k
    have h1 := dumps_iff v (lv + 1)
    have h2 := dumpsItems_iff r lv
    simp only [JsonAble, JsonAbleItems, ← h0, ← h1, ← h2]
    constructor
    · rintro ⟨t, h⟩
      simp only [dumps] at h
      cases e0 : keyText FT lim k with
      | error e => simp [e0, bind, Except.bind] at h
      | ok kt =>
        cases e1 : dumps FT lim L (lv + 1) v with
        | error e => simp [e0, e1, bind, Except.bind] at h
        | ok a =>
          cases e2 : dumpsItems FT lim L lv r with
          | error e => simp [e0, e1, e2, bind, Except.bind] at h
          | ok b => exact ⟨⟨kt, rfl⟩, ⟨a, rfl⟩, b, rfl⟩
    · rintro ⟨⟨kt, e0⟩, ⟨a, e1⟩, b, e2⟩
      exact ⟨_, by simp only [dumps, e0, e1, e2, bind, Except.bind]; rfl⟩
theorem dumpsRest_iff : ∀ (l : List (PyVal F)) (lv : Nat), (∃ t, dumpsRest FT lim L lv l = .ok t) ↔ JsonAbles lim l
  | [], lv => by simp [dumpsRest, JsonAbles]
  | v :: r, lv => by
    have h1 := dumps_iff v (lv + 1)
    have h2 := dumpsRest_iff r lv
    simp only [JsonAbles, ← h1, ← h2]
    constructor
    · rintro ⟨t, h⟩
      simp only [dumpsRest] at h
      cases e1 : dumps FT lim L (lv + 1) v with
      | error e => simp [e1, bind, Except.bind] at h
      | ok a =>
        cases e2 : dumpsRest FT lim L lv r with
        | error e => simp [e1, e2, bind, Except.bind] at h
        | ok b => exact ⟨⟨a, rfl⟩, b, rfl⟩
    · rintro ⟨⟨a, e1⟩, b, e2⟩
      exact ⟨_, by simp only [dumpsRest, e1, e2, bind, Except.bind]; rfl⟩
theorem dumpsItems_iff : ∀ (l : List (PyVal F × PyVal F)) (lv : Nat),
    (∃ t, dumpsItems FT lim L lv l = .ok t) ↔ JsonAbleItems lim l
  | [], lv => by simp [dumpsItems, JsonAbleItems]
  | (k, v) :: r, lv => by
    have h0 := keyText_iff (FT := FT) (lim := lim) k
    have h1 := dumps_iff v (lv + 1)
    have h2 := dumpsItems_iff r lv
    simp only [JsonAbleItems, ← h0, ← h1, ← h2]
    constructor
    · rintro ⟨t, h⟩
      simp only [dumpsItems] at h
      cases e0 : keyText FT lim k with
      | error e => simp [e0, bind, Except.bind] at h
      | ok kt =>
        cases e1 : dumps FT lim L (lv + 1) v with
        | error e => simp [e0, e1, bind, Except.bind] at h
        | ok a =>
          cases e2 : dumpsItems FT lim L lv r with
          | error e => simp [e0, e1, e2, bind, Except.bind] at h
          | ok b => exact ⟨⟨kt, rfl⟩, ⟨a, rfl⟩, b, rfl⟩
    · rintro ⟨⟨kt, e0⟩, ⟨a, e1⟩, b, e2⟩
      exact ⟨_, by simp only [dumpsItems, e0, e1, e2, bind, Except.bind]; rfl⟩
end

/-! ## what is written is ASCII -/

/-- only ASCII characters, and no zero -/
def Ascii (t : Text) : Prop := ∀ c ∈ t, c < 128 ∧ c ≠ 0

theorem ascii_nil : Ascii [] := by intro c hc; cases hc
theorem ascii_cons {c : Nat} {t : Text} (h1 : c < 128) (h2 : c ≠ 0) (h : Ascii t) : Ascii (c :: t) := by
  intro d hd
  rcases List.mem_cons.1 hd with rfl | hd
  · exact ⟨h1, h2⟩
  · exact h d hd
theorem ascii_append {s t : Text} (hs : Ascii s) (ht : Ascii t) : Ascii (s ++ t) := by
  intro d hd
  rcases List.mem_append.1 hd with hd | hd
  · exact hs d hd
  · exact ht d hd

theorem ascii_hex4 (n : Nat) : Ascii (hex4 n) := by
  have hd : ∀ d, d < 16 → hexDigit d < 128 ∧ hexDigit d ≠ 0 := by
    intro d h; unfold hexDigit; split <;> omega
  intro c hc
  simp only [hex4, List.mem_cons, List.not_mem_nil, or_false] at hc
  rcases hc with rfl | rfl | rfl | rfl <;> exact hd _ (Nat.mod_lt _ (by omega))

theorem ascii_encChar (c : Nat) : Ascii (encChar c) := by
  unfold encChar
  split
  · rename_i e he
    unfold shortEscape at he
    repeat' split at he
    all_goals first
      | (injection he with he; subst he; exact ascii_cons (by omega) (by omega) (ascii_cons (by omega) (by omega) ascii_nil))
      | (cases he)
  · split
    · exact ascii_cons (by omega) (by omega) ascii_nil
    · split
      · exact ascii_cons (by omega) (by omega) (ascii_cons (by omega) (by omega) (ascii_hex4 _))
      · exact ascii_append (ascii_cons (by omega) (by omega) (ascii_cons (by omega) (by omega) (ascii_hex4 _)))
          (ascii_cons (by omega) (by omega) (ascii_cons (by omega) (by omega) (ascii_hex4 _)))

theorem ascii_encStr (s : Text) : Ascii (encStr s) := by
  refine ascii_cons (by omega) (by omega) (ascii_append ?_ (ascii_cons (by omega) (by omega) ascii_nil))
  intro c hc
  obtain ⟨d, _, hd⟩ := List.mem_flatMap.1 hc
  exact ascii_encChar d c hd

theorem ascii_ws {w : Text} (h : ∀ c ∈ w, isWs c = true) : Ascii w := by
  intro c hc
  have := h c hc
  simp only [isWs, Bool.or_eq_true, beq_iff_eq] at this
  omega

mutual
theorem dumps_ascii (hF : FloatsOK FT) (hL : LayoutOK L) : ∀ (v : PyVal F) (lv : Nat) (t : Text), dumps FT lim L lv v = .ok t → Ascii t
  | .none, lv, t, h => by simp only [dumps] at h; cases h; unfold Ascii; decide
  | .bool b, lv, t, h => by cases b <;> (simp only [dumps] at h; cases h; unfold Ascii; decide)
  | .int i, lv, t, h => by
    simp only [dumps] at h
    rw [(intText_ok h).1]
    exact decInt_ascii i
  | .float x, lv, t, h => by simp only [dumps] at h; cases h; exact floatText_ascii hF x
  | .str s, lv, t, h => by simp only [dumps] at h; cases h; exact ascii_encStr s
  | .bytes b, lv, t, h => by simp [dumps] at h
  | .set l, lv, t, h => by simp [dumps] at h
  | .other n, lv, t, h => by simp [dumps] at h
  | .list [], lv, t, h => by simp only [dumps] at h; cases h; unfold Ascii; decide
  | .list (v :: r), lv, t, h => by
    simp only [dumps] at h
    cases e1 : dumps FT lim L (lv + 1) v with
    | error e => simp [e1, bind, Except.bind] at h
    | ok a =>
      cases e2 : dumpsRest FT lim L lv r with
      | error e => simp [e1, e2, bind, Except.bind] at h
      | ok b =>
        simp only [e1, e2, bind, Except.bind] at h
        cases h
        exact ascii_cons (by omega) (by omega) (ascii_append (ascii_append (ascii_append (ascii_append (ascii_ws (hL.opens lv))
          (dumps_ascii hF hL v _ a e1)) (dumpsRest_ascii hF hL r lv b e2)) (ascii_ws (hL.closes lv)))
          (ascii_cons (by omega) (by omega) ascii_nil))
  | .tuple [], lv, t, h => by simp only [dumps] at h; cases h; unfold Ascii; decide
  | .tuple (v :: r), lv, t, h => by
    simp only [dumps] at h
    cases e1 : dumps FT lim L (lv + 1) v with
    | error e => simp [e1, bind, Except.bind] at h
    | ok a =>
      cases e2 : dumpsRest FT lim L lv r with
      | error e => simp [e1, e2, bind, Except.bind] at h
      | ok b =>
        simp only [e1, e2, bind, Except.bind] at h
        cases h
        exact ascii_cons (by omega) (by omega) (ascii_append (ascii_append (ascii_append (ascii_append (ascii_ws (hL.opens lv))
          (dumps_ascii hF hL v _ a e1)) (dumpsRest_ascii hF hL r lv b e2)) (ascii_ws (hL.closes lv)))
          (ascii_cons (by omega) (by omega) ascii_nil))
  | .dict [], lv, t, h => by simp only [dumps] at h; cases h; unfold Ascii; decide
  | .dict ((k, v) :: r), lv, t, h => by
    simp only [dumps] at h
    cases e0 : keyText FT lim k with
    | error e => simp [e0, bind, Except.bind] at h
    | ok kt =>
      cases e1 : dumps FT lim L (lv + 1) v with
      | error e => simp [e0, e1, bind, Except.bind] at h
      | ok a =>
        cases e2 : dumpsItems FT lim L lv r with
        | error e => simp [e0, e1, e2, bind, Except.bind] at h
        | ok b =>
          simp only [e0, e1, e2, bind, Except.bind] at h
          cases h
          exact ascii_cons (by omega) (by omega) (ascii_append (ascii_append (ascii_append (ascii_append (ascii_append
            (ascii_append (ascii_ws (hL.opens lv)) (ascii_encStr kt))
            (ascii_cons (by omega) (by omega) (ascii_cons (by omega) (by omega) ascii_nil)))
            (dumps_ascii hF hL v _ a e1)) (dumpsItems_ascii hF hL r lv b e2)) (ascii_ws (hL.closes lv)))
            (ascii_cons (by omega) (by omega) ascii_nil))
theorem dumpsRest_ascii (hF : FloatsOK FT) (hL : LayoutOK L) : ∀ (l : List (PyVal F)) (lv : Nat) (t : Text),
    dumpsRest FT lim L lv l = .ok t → Ascii t
  | [], lv, t, h => by simp only [dumpsRest] at h; cases h; exact ascii_nil
  | v :: r, lv, t, h => by
    simp only [dumpsRest] at h
    cases e1 : dumps FT lim L (lv + 1) v with
    | error e => simp [e1, bind, Except.bind] at h
    | ok a =>
      cases e2 : dumpsRest FT lim L lv r with
      | error e => simp [e1, e2, bind, Except.bind] at h
      | ok b =>
        simp only [e1, e2, bind, Except.bind] at h
        cases h
        exact ascii_cons (by omega) (by omega) (ascii_append (ascii_append (ascii_ws (hL.seps lv))
          (dumps_ascii hF hL v _ a e1)) (dumpsRest_ascii hF hL r lv b e2))
theorem dumpsItems_ascii (hF : FloatsOK FT) (hL : LayoutOK L) : ∀ (l : List (PyVal F × PyVal F)) (lv : Nat) (t : Text),
    dumpsItems FT lim L lv l = .ok t → Ascii t
  | [], lv, t, h => by simp only [dumpsItems] at h; cases h; exact ascii_nil
  | (k, v) :: r, lv, t, h => by
    simp only [dumpsItems] at h
    cases e0 : keyText FT lim k with
    | error e => simp [e0, bind, Except.bind] at h
    | ok kt =>
      cases e1 : dumps FT lim L (lv + 1) v with
      | error e => simp [e0, e1, bind, Except.bind] at h
      | ok a =>
        cases e2 : dumpsItems FT lim L lv r with
        | error e => simp [e0, e1, e2, bind, Except.bind] at h
        | ok b =>
          simp only [e0, e1, e2, bind, Except.bind] at h
          cases h
          exact ascii_cons (by omega) (by omega) (ascii_append (ascii_append (ascii_append (ascii_append
            (ascii_ws (hL.seps lv)) (ascii_encStr kt))
            (ascii_cons (by omega) (by omega) (ascii_cons (by omega) (by omega) ascii_nil)))
            (dumps_ascii hF hL v _ a e1)) (dumpsItems_ascii hF hL r lv b e2))
end

/-! ## texts -/

theorem joined_length (n : Nat) : ∀ s : Text, s.length ≤ n → (joined s).length ≤ s.length := by
  induction n with
  | zero => intro s hs; have : s = [] := List.length_eq_zero_iff.1 (by omega); subst this; simp [joined]
  | succ n ih =>
    intro s hs
    match s, hs with
    | [], _ => simp [joined]
    | [c], _ => simp [joined]
    | a :: b :: r, hs =>
      rw [joined]
      simp only [List.length_cons] at hs
      split
      · have := ih r (by omega)
        simp only [List.length_cons]; omega
      · have := ih (b :: r) (by simp; omega)
        simp only [List.length_cons] at this ⊢; omega

/-- a text stays as it is exactly when it has no surrogate pairs -/
theorem joined_eq_iff (s : Text) : joined s = s ↔ NoPair s := by
  match s with
  | [] => simp [joined, NoPair]
  | [c] => simp [joined, NoPair]
  | a :: b :: r =>
    have ih := joined_eq_iff (b :: r)
    rw [joined, NoPair]
    by_cases h : high a ∧ low b
    · rw [if_pos h]
      constructor
      · intro e
        have := congrArg List.length e
        have hl := joined_length r.length r (Nat.le_refl _)
        simp only [List.length_cons] at this
        omega
      · intro e; exact absurd h e.1
    · rw [if_neg h, ← ih]
      simp [h]
termination_by s.length

theorem joined_head (b : Nat) (r : Text) : ∃ c t, joined (b :: r) = c :: t ∧ (c = b ∨ 0x10000 ≤ c) := by
  cases r with
  | nil => exact ⟨b, [], rfl, Or.inl rfl⟩
  | cons d r =>
    rw [joined]
    split
    · exact ⟨_, _, rfl, Or.inr (by unfold pairChar; omega)⟩
    · exact ⟨_, _, rfl, Or.inl rfl⟩

theorem noPair_cons {a : Nat} {t : Text} (h : ∀ b r, t = b :: r → ¬ (high a ∧ low b)) (ht : NoPair t) : NoPair (a :: t) := by
  cases t with
  | nil => trivial
  | cons b r => exact ⟨h b r rfl, ht⟩

/-- a joined text has no surrogate pairs left -/
theorem noPair_joined (s : Text) : NoPair (joined s) := by
  match s with
  | [] => simp [joined, NoPair]
  | [c] => simp [joined, NoPair]
  | a :: b :: r =>
    rw [joined]
    split
    · refine noPair_cons ?_ (noPair_joined r)
      intro b' r' _ hh
      have := hh.1
      unfold high pairChar at this
      omega
    · rename_i h
      refine noPair_cons ?_ (noPair_joined (b :: r))
      intro b' r' e hh
      obtain ⟨c, t, e', hc⟩ := joined_head b r
      rw [e'] at e
      cases e
      rcases hc with rfl | hc
      · exact h hh
      · have := hh.2
        unfold low at this
        omega
termination_by s.length

theorem textOK_cons {a : Nat} {t : Text} (h1 : a < 0x110000) (h : TextOK t) : TextOK (a :: t) := by
  intro c hc
  rcases List.mem_cons.1 hc with rfl | hc
  · exact h1
  · exact h c hc

theorem textOK_head {a : Nat} {t : Text} (h : TextOK (a :: t)) : a < 0x110000 := h a (by simp)
theorem textOK_tail {a : Nat} {t : Text} (h : TextOK (a :: t)) : TextOK t := fun c hc => h c (List.mem_cons_of_mem _ hc)

theorem pairChar_lt {a b : Nat} (h1 : high a) (h2 : low b) : pairChar a b < 0x110000 := by
  unfold high at h1; unfold low at h2; unfold pairChar
  omega

theorem textOK_joined (s : Text) (h : TextOK s) : TextOK (joined s) := by
  match s, h with
  | [], h => exact h
  | [c], h => exact h
  | a :: b :: r, h =>
    rw [joined]
    split
    · rename_i hh
      exact textOK_cons (pairChar_lt hh.1 hh.2) (textOK_joined r (textOK_tail (textOK_tail h)))
    · exact textOK_cons (textOK_head h) (textOK_joined (b :: r) (textOK_tail h))
termination_by s.length

/-! ## merging -/

theorem merged_mem {α : Type} {l : List (Text × α)} {p : Text × α} (h : p ∈ merged l) : p ∈ l := by
  induction l with
  | nil => simp [merged] at h
  | cons x r ih =>
    obtain ⟨k, v⟩ := x
    rw [merged] at h
    rcases List.mem_cons.1 h with rfl | h
    · cases hg : Dict.get? (merged r) k with
      | none => simp
      | some w =>
        rw [hg] at ih
        exact List.mem_cons_of_mem _ (ih (Dict.mem_of_get? hg))
    · exact List.mem_cons_of_mem _ (ih (List.mem_filter.1 h).1)

theorem merged_length {α : Type} (l : List (Text × α)) : (merged l).length ≤ l.length := by
  induction l with
  | nil => simp [merged]
  | cons x r ih =>
    obtain ⟨k, v⟩ := x
    have := List.length_filter_le (fun p : Text × α => decide (p.1 ≠ k)) (merged r)
    simp only [merged, List.length_cons]
    omega

/-- nothing is lost exactly when nothing is changed -/
theorem merged_of_length {α : Type} {l : List (Text × α)} (h : (merged l).length = l.length) : merged l = l := by
  induction l with
  | nil => rfl
  | cons x r ih =>
    obtain ⟨k, v⟩ := x
    have h1 := List.length_filter_le (fun p : Text × α => decide (p.1 ≠ k)) (merged r)
    have h2 := merged_length r
    simp only [merged, List.length_cons] at h ⊢
    have h3 : ((merged r).filter fun p => decide (p.1 ≠ k)).length = (merged r).length := by omega
    have h4 := List.length_filter_eq_length_iff.1 h3
    have h5 : Dict.get? (merged r) k = none := by
      rw [Dict.get?_eq_none]
      intro hk
      obtain ⟨p, hp, rfl⟩ := List.mem_map.1 hk
      have := h4 p hp
      simp at this
    have h6 : (merged r).filter (fun p => decide (p.1 ≠ k)) = merged r := List.filter_eq_self.2 h4
    rw [h5, h6, ih (by omega)]
    rfl

theorem merged_of_nodup {α : Type} {l : List (Text × α)} (h : (l.map Prod.fst).Nodup) : merged l = l := by
  induction l with
  | nil => rfl
  | cons x r ih =>
    obtain ⟨k, v⟩ := x
    simp only [List.map_cons, List.nodup_cons] at h
    have e := ih h.2
    rw [merged, e]
    have h5 : Dict.get? r k = none := Dict.get?_eq_none.2 h.1
    have h6 : r.filter (fun p => decide (p.1 ≠ k)) = r := by
      refine List.filter_eq_self.2 fun p hp => ?_
      simp only [ne_eq, decide_not, Bool.not_eq_eq_eq_not, Bool.not_true, decide_eq_false_iff_not]
      rintro rfl
      exact h.1 (List.mem_map_of_mem hp)
    rw [h5, h6]
    rfl

/-! ## what comes back as it was -/

mutual
theorem image_of_stable : ∀ v : PyVal F, Proper v → JsonStable v → jsonImage FT v = v
  | .none, _, _ => rfl
  | .bool _, _, _ => rfl
  | .int _, _, _ => rfl
  | .float _, _, _ => rfl
  | .str s, _, h => by
    simp only [JsonStable] at h
    rw [jsonImage, (joined_eq_iff s).2 h]
  | .bytes _, _, h => by simp [JsonStable] at h
  | .tuple _, _, h => by simp [JsonStable] at h
  | .set _, _, h => by simp [JsonStable] at h
  | .other _, _, h => by simp [JsonStable] at h
  | .list l, hp, h => by
    simp only [Proper] at hp
    simp only [JsonStable] at h
    rw [jsonImage, images_of_stable l hp h]
  | .dict d, hp, h => by
    simp only [Proper] at hp
    simp only [JsonStable] at h
    have e := pairs_of_stable d hp.2 h
    have hn : ((jsonPairs FT d).map Prod.fst).Nodup := by
      have := hp.1
      rw [← e, List.map_map] at this
      have e2 : (Prod.fst ∘ fun p : Text × PyVal F => (PyVal.str p.1, p.2)) = (PyVal.str (F := F)) ∘ Prod.fst := rfl
      rw [e2, ← List.map_map] at this
      exact List.Pairwise.of_map _ (fun a b hab e => hab (by rw [e])) this
    rw [jsonImage, merged_of_nodup hn, e]
theorem images_of_stable : ∀ l : List (PyVal F), Propers l → JsonStables l → jsonImages FT l = l
  | [], _, _ => rfl
  | v :: r, hp, h => by
    simp only [Propers] at hp
    simp only [JsonStables] at h
    rw [jsonImages, image_of_stable v hp.1 h.1, images_of_stable r hp.2 h.2]
theorem pairs_of_stable : ∀ d : List (PyVal F × PyVal F), ProperItems d → JsonStableItems d →
    (jsonPairs FT d).map (fun p => (PyVal.str p.1, p.2)) = d
  | [], _, _ => rfl
  | (k, v) :: r, hp, h => by
    simp only [ProperItems] at hp
    simp only [JsonStableItems] at h
    have hk : PyVal.str (joined (keyString FT k)) = k := by
      have h1 := h.1
      cases k with
      | str s => simp only [StableKey] at h1; rw [keyString, (joined_eq_iff s).2 h1]
      | _ => exact absurd h1 id
    simp only [jsonPairs, List.map_cons, hk, image_of_stable v hp.2.1 h.2.1, pairs_of_stable r hp.2.2 h.2.2]
end

theorem jsonPairs_length : ∀ d : List (PyVal F × PyVal F), (jsonPairs FT d).length = d.length
  | [] => rfl
  | (_, _) :: r => by rw [jsonPairs, List.length_cons, jsonPairs_length r, List.length_cons]

mutual
theorem stable_of_image : ∀ v : PyVal F, JsonAble lim v → jsonImage FT v = v → JsonStable v
  | .none, _, _ => by simp [JsonStable]
  | .bool _, _, _ => by simp [JsonStable]
  | .int _, _, _ => by simp [JsonStable]
  | .float _, _, _ => by simp [JsonStable]
  | .str s, _, h => by
    simp only [jsonImage, PyVal.str.injEq] at h
    simp only [JsonStable]
    exact (joined_eq_iff s).1 h
  | .bytes _, h, _ => by simp [JsonAble] at h
  | .tuple l, _, h => by simp [jsonImage] at h
  | .set _, h, _ => by simp [JsonAble] at h
  | .other _, h, _ => by simp [JsonAble] at h
  | .list l, ha, h => by
    simp only [JsonAble] at ha
    simp only [jsonImage, PyVal.list.injEq] at h
    simp only [JsonStable]
    exact stables_of_images l ha h
  | .dict d, ha, h => by
    simp only [JsonAble] at ha
    simp only [jsonImage, PyVal.dict.injEq] at h
    have hl : (merged (jsonPairs FT d)).length = (jsonPairs FT d).length := by
      have := congrArg List.length h
      rw [List.length_map] at this
      rw [this, jsonPairs_length]
    rw [merged_of_length hl] at h
    simp only [JsonStable]
    exact stableItems_of_pairs d ha h
theorem stables_of_images : ∀ l : List (PyVal F), JsonAbles lim l → jsonImages FT l = l → JsonStables l
  | [], _, _ => by simp [JsonStables]
  | v :: r, ha, h => by
    simp only [JsonAbles] at ha
    simp only [jsonImages, List.cons.injEq] at h
    simp only [JsonStables]
    exact ⟨stable_of_image v ha.1 h.1, stables_of_images r ha.2 h.2⟩
theorem stableItems_of_pairs : ∀ d : List (PyVal F × PyVal F), JsonAbleItems lim d →
    (jsonPairs FT d).map (fun p => (PyVal.str p.1, p.2)) = d → JsonStableItems d
  | [], _, _ => by simp [JsonStableItems]
  | (k, v) :: r, ha, h => by
    simp only [JsonAbleItems] at ha
    simp only [jsonPairs, List.map_cons, List.cons.injEq, Prod.mk.injEq] at h
    simp only [JsonStableItems]
    refine ⟨?_, stable_of_image v ha.2.1 h.1.2, stableItems_of_pairs r ha.2.2 h.2⟩
    have hk := h.1.1
    rw [← hk]
    exact noPair_joined _
end

/-! ## what comes back is a JSON value that stays as it is -/

theorem jsonStableItems_map {l : List (Text × PyVal F)} (h : ∀ p ∈ l, NoPair p.1 ∧ JsonStable p.2) :
    JsonStableItems (l.map fun p => (PyVal.str p.1, p.2)) := by
  induction l with
  | nil => simp [JsonStableItems]
  | cons x r ih =>
    simp only [List.map_cons, JsonStableItems]
    exact ⟨(h x (by simp)).1, (h x (by simp)).2, ih fun p hp => h p (by simp [hp])⟩

theorem jsonAbleItems_map {l : List (Text × PyVal F)} (h : ∀ p ∈ l, JsonAble lim p.2) :
    JsonAbleItems lim (l.map fun p => (PyVal.str p.1, p.2)) := by
  induction l with
  | nil => simp [JsonAbleItems]
  | cons x r ih =>
    simp only [List.map_cons, JsonAbleItems]
    exact ⟨trivial, h x (by simp), ih fun p hp => h p (by simp [hp])⟩

theorem properItems_map {l : List (Text × PyVal F)} (h : ∀ p ∈ l, TextOK p.1 ∧ Proper p.2) :
    ProperItems (l.map fun p => (PyVal.str p.1, p.2)) := by
  induction l with
  | nil => simp [ProperItems]
  | cons x r ih =>
    simp only [List.map_cons, ProperItems]
    exact ⟨by simp only [Proper]; exact (h x (by simp)).1, (h x (by simp)).2, ih fun p hp => h p (by simp [hp])⟩

theorem keyString_textOK (hF : FloatsOK FT) (k : PyVal F) (hk : Proper k) (hj : JsonKey lim k) : TextOK (keyString FT k) := by
  obtain ⟨t, h⟩ := (keyText_iff (FT := FT) k).2 hj
  obtain ⟨e, ht, _⟩ := keyText_ok hF hk h
  rw [← e]; exact ht

mutual
theorem image_good (hF : FloatsOK FT) : ∀ v : PyVal F, Proper v → JsonAble lim v →
    Proper (jsonImage FT v) ∧ JsonAble lim (jsonImage FT v) ∧ JsonStable (jsonImage FT v)
  | .none, _, _ => by simp [jsonImage, Proper, JsonAble, JsonStable]
  | .bool _, _, _ => by simp [jsonImage, Proper, JsonAble, JsonStable]
  | .int _, _, h => by simp only [jsonImage, Proper, JsonAble, JsonStable, and_true, true_and] at h ⊢; exact h
  | .float _, _, _ => by simp [jsonImage, Proper, JsonAble, JsonStable]
  | .str s, hp, _ => by
    simp only [jsonImage, Proper, JsonAble, JsonStable, true_and] at hp ⊢
    exact ⟨textOK_joined s hp, noPair_joined s⟩
  | .bytes _, _, h => by simp [JsonAble] at h
  | .set _, _, h => by simp [JsonAble] at h
  | .other _, _, h => by simp [JsonAble] at h
  | .tuple l, hp, h => by
    simp only [jsonImage, Proper, JsonAble, JsonStable] at hp h ⊢
    exact images_good hF l hp h
  | .list l, hp, h => by
    simp only [jsonImage, Proper, JsonAble, JsonStable] at hp h ⊢
    exact images_good hF l hp h
  | .dict d, hp, h => by
    simp only [jsonImage, Proper, JsonAble, JsonStable] at hp h ⊢
    have hg := pairs_good hF d hp.2 h
    have hn : ((merged (jsonPairs FT d)).map Prod.fst).Nodup := wf_merged _
    refine ⟨⟨?_, properItems_map fun p hp => ?_⟩, jsonAbleItems_map fun p hp => ?_, jsonStableItems_map fun p hp => ?_⟩
    · rw [List.map_map]
      have e2 : (Prod.fst ∘ fun p : Text × PyVal F => (PyVal.str p.1, p.2)) = (PyVal.str (F := F)) ∘ Prod.fst := rfl
      rw [e2, ← List.map_map]
      exact List.Pairwise.map _ (fun a b hab e => hab (by injection e)) hn
    all_goals have hm := hg p (merged_mem hp)
    · exact ⟨hm.1, hm.2.2.1⟩
    · exact hm.2.2.2.1
    · exact ⟨hm.2.1, hm.2.2.2.2⟩
theorem images_good (hF : FloatsOK FT) : ∀ l : List (PyVal F), Propers l → JsonAbles lim l →
    Propers (jsonImages FT l) ∧ JsonAbles lim (jsonImages FT l) ∧ JsonStables (jsonImages FT l)
  | [], _, _ => by simp [jsonImages, Propers, JsonAbles, JsonStables]
  | v :: r, hp, h => by
    simp only [jsonImages, Propers, JsonAbles, JsonStables] at hp h ⊢
    have h1 := image_good hF v hp.1 h.1
    have h2 := images_good hF r hp.2 h.2
    exact ⟨⟨h1.1, h2.1⟩, ⟨h1.2.1, h2.2.1⟩, h1.2.2, h2.2.2⟩
theorem pairs_good (hF : FloatsOK FT) : ∀ d : List (PyVal F × PyVal F), ProperItems d → JsonAbleItems lim d →
    ∀ p ∈ jsonPairs FT d, TextOK p.1 ∧ NoPair p.1 ∧ Proper p.2 ∧ JsonAble lim p.2 ∧ JsonStable p.2
  | [], _, _ => by simp [jsonPairs]
  | (k, v) :: r, hp, h => by
    simp only [ProperItems, JsonAbleItems] at hp h
    have h1 := image_good hF v hp.2.1 h.2.1
    have h2 := pairs_good hF r hp.2.2 h.2.2
    intro p hpm
    rw [jsonPairs] at hpm
    rcases List.mem_cons.1 hpm with rfl | hpm
    · exact ⟨textOK_joined _ (keyString_textOK hF k hp.1 h.1), noPair_joined _, h1⟩
    · exact h2 p hpm
end

end Verif.Lemmas
