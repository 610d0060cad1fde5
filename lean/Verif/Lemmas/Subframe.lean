import Verif.Model.Subframe
import Verif.Spec.Subframe
/-! # Searching for the subframe block -/
namespace Verif.Lemmas
open Verif Verif.Model Verif.Spec

/-! ## the patterns -/

theorem run_litRe (w : Text) (k : Text → Option Text) (t : Text) :
    (litRe w).run k t = if w <+: t then k (t.drop w.length) else none := by
  induction w generalizing t with
  | nil => simp [litRe, Re.run]
  | cons c w ih =>
    cases t with
    | nil => simp [litRe, Re.run]
    | cons d t =>
      simp only [litRe, Re.run, ih]
      by_cases h : d = c
      · subst h
        simp [List.cons_prefix_cons]
      · have h' : ¬ c = d := fun e => h e.symm
        simp [h, h', List.cons_prefix_cons]

/-- `.*?w`: the first place of the word -/
theorem starLazy_some {w t r : Text} (h : starLazy (fun _ => true) ((litRe w).run some) t = some r) :
    ∃ mid, t = mid ++ (w ++ r) ∧ ∀ a b, t = a ++ (w ++ b) → mid.length ≤ a.length := by
  induction t with
  | nil =>
    rw [starLazy, run_litRe] at h
    split at h
    · rename_i hw
      obtain ⟨s, hs⟩ := hw
      injection h with h
      refine ⟨[], ?_, fun a b _ => Nat.zero_le _⟩
      rw [← hs, List.drop_left] at h
      rw [← h, hs]; rfl
    · cases h
  | cons c t ih =>
    rw [starLazy, run_litRe] at h
    by_cases hw : w <+: c :: t
    · rw [if_pos hw] at h
      simp only [Option.some.injEq] at h
      obtain ⟨s, hs⟩ := hw
      refine ⟨[], ?_, fun a b _ => Nat.zero_le _⟩
      rw [← hs, List.drop_left] at h
      rw [← h, hs]; rfl
    · rw [if_neg hw] at h
      simp only [if_true] at h
      obtain ⟨mid, e, hmin⟩ := ih h
      refine ⟨c :: mid, by rw [e]; rfl, fun a b hab => ?_⟩
      cases a with
      | nil => exact absurd ⟨b, hab.symm⟩ hw
      | cons d a =>
        injection hab with _ hab
        have := hmin a b hab
        simpa using this

theorem starLazy_none {w t : Text} (h : starLazy (fun _ => true) ((litRe w).run some) t = none) : ∀ a b, t ≠ a ++ (w ++ b) := by
  induction t with
  | nil =>
    rw [starLazy, run_litRe] at h
    split at h
    · cases h
    · rename_i hw
      intro a b e
      have ha : a = [] := by cases a <;> simp at e ⊢
      subst ha
      exact hw ⟨b, e.symm⟩
  | cons c t ih =>
    rw [starLazy, run_litRe] at h
    by_cases hw : w <+: c :: t
    · rw [if_pos hw] at h; simp at h
    · rw [if_neg hw] at h
      simp only [if_true] at h
      intro a b e
      cases a with
      | nil => exact hw ⟨b, e.symm⟩
      | cons d a =>
        injection e with _ e
        exact ih h a b e

theorem run_subframe (t : Text) : subframeGroup.run some t =
    if subframeWord <+: t then starLazy (fun _ => true) ((litRe endWord).run some) (t.drop subframeWord.length) else none := by
  simp only [subframeGroup, Re.run, run_litRe subframeWord]

/-- what the search finds is the block -/
theorem search_some {t m post : Text} (h : searchRe subframeGroup t = some (m, post)) :
    ∃ pre mid, IsBlock t pre mid post ∧ m = firstWord ++ (mid ++ lastWord) := by
  have key : ∀ t r, subframeGroup.run some t = some r →
      ∃ mid, t = firstWord ++ (mid ++ (lastWord ++ r)) ∧ (∀ a b, mid ++ (lastWord ++ r) = a ++ (lastWord ++ b) → mid.length ≤ a.length) ∧
        t.take (t.length - r.length) = firstWord ++ (mid ++ lastWord) := by
    intro t r h
    rw [run_subframe] at h
    split at h
    · rename_i hp
      obtain ⟨s, hs⟩ := hp
      obtain ⟨mid, e, hmin⟩ := starLazy_some h
      rw [← hs, List.drop_left] at e
      have et : t = firstWord ++ (mid ++ (lastWord ++ r)) := by rw [← hs, e]; rfl
      refine ⟨mid, et, ?_, ?_⟩
      · intro a b hab
        refine hmin a b ?_
        rw [← hs, List.drop_left, e]
        exact hab
      · have e2 : t = (firstWord ++ (mid ++ lastWord)) ++ r := by rw [et]; simp
        have e3 : t.length - r.length = (firstWord ++ (mid ++ lastWord)).length := by
          rw [e2, List.length_append]; omega
        rw [e3, e2, List.take_left]
    · cases h
  induction t generalizing m post with
  | nil =>
    simp only [searchRe, Option.map_eq_some_iff] at h
    obtain ⟨r, hr, _⟩ := h
    obtain ⟨mid, e, _⟩ := key [] r hr
    simp [firstWord, codes] at e
  | cons c t ih =>
    simp only [searchRe] at h
    cases hr : subframeGroup.run some (c :: t) with
    | some r =>
      simp only [hr, Option.some.injEq, Prod.mk.injEq] at h
      obtain ⟨h1, rfl⟩ := h
      obtain ⟨mid, e, hmin, ht⟩ := key _ _ hr
      exact ⟨[], mid, ⟨by rw [e]; rfl, fun _ _ _ => Nat.zero_le _, hmin⟩, by rw [← h1, ht]⟩
    | none =>
      simp only [hr] at h
      obtain ⟨pre, mid, hb, hm⟩ := ih h
      refine ⟨c :: pre, mid, ⟨by rw [hb.text]; rfl, fun a b hab => ?_, hb.least⟩, hm⟩
      cases a with
      | nil =>
        exfalso
        rw [run_subframe, if_pos ⟨b, hab.symm⟩] at hr
        have hn := starLazy_none hr
        have hd : (c :: t).drop subframeWord.length = b := by
          rw [hab]; exact List.drop_left
        rw [hd] at hn
        -- the block of `t` ends in `b`
        have ht := hb.text
        have e : c :: (pre ++ (firstWord ++ (mid ++ (lastWord ++ post)))) = firstWord ++ b := by
          rw [← ht]; exact hab
        -- `END` lies beyond the first eight characters
        have hlen : firstWord.length = 8 := rfl
        have e2 : b = (c :: (pre ++ (firstWord ++ mid))).drop 8 ++ (lastWord ++ post) := by
          have : (c :: (pre ++ (firstWord ++ (mid ++ (lastWord ++ post))))).drop 8 = b := by
            rw [e, ← hlen, List.drop_left]
          rw [← this]
          have e3 : c :: (pre ++ (firstWord ++ (mid ++ (lastWord ++ post)))) = (c :: (pre ++ (firstWord ++ mid))) ++ (lastWord ++ post) := by
            simp
          rw [e3, List.drop_append_of_le_length]
          simp [hlen]
          omega
        exact hn _ _ e2
      | cons d a =>
        injection hab with _ hab
        have := hb.first a b hab
        simpa using this

theorem search_none {t : Text} (h : searchRe subframeGroup t = none) : NoBlock t := by
  have key : ∀ t, subframeGroup.run some t = none → ∀ b c, t ≠ firstWord ++ (b ++ (lastWord ++ c)) := by
    intro t h b c e
    rw [run_subframe, if_pos ⟨_, e.symm⟩] at h
    have hd : t.drop subframeWord.length = b ++ (lastWord ++ c) := by rw [e]; exact List.drop_left
    rw [hd] at h
    exact starLazy_none h b c rfl
  induction t with
  | nil =>
    intro a b c e
    simp [firstWord, codes] at e
  | cons x t ih =>
    simp only [searchRe] at h
    cases hr : subframeGroup.run some (x :: t) with
    | some r => simp [hr] at h
    | none =>
      simp only [hr] at h
      intro a b c e
      cases a with
      | nil => exact key _ hr b c e
      | cons d a =>
        injection e with _ e
        exact ih h a b c e

/-- the block is unique -/
theorem block_unique {t pre mid post pre' mid' post' : Text} (h : IsBlock t pre mid post) (h' : IsBlock t pre' mid' post') :
    mid = mid' ∧ post = post' := by
  have hl : pre.length = pre'.length := Nat.le_antisymm (h.first _ _ h'.text) (h'.first _ _ h.text)
  have e := h.text.symm.trans h'.text
  obtain ⟨_, e1⟩ := List.append_inj e hl
  have e2 := List.append_cancel_left e1
  have hm : mid.length = mid'.length := Nat.le_antisymm (h.least _ _ e2) (h'.least _ _ e2.symm)
  obtain ⟨hmid, e3⟩ := List.append_inj e2 hm
  exact ⟨hmid, List.append_cancel_left e3⟩

/-! ## digits -/

variable {nd : Nat → Bool}

theorem starGreedy_run {r rest : Text} (hr : ∀ c ∈ r, nd c = true) (hrest : ∀ c t, rest = c :: t → nd c = false) :
    starGreedy nd some (r ++ rest) = some rest := by
  induction r with
  | nil =>
    cases rest with
    | nil => rfl
    | cons c t => simp [starGreedy, hrest c t rfl]
  | cons c r ih =>
    simp [starGreedy, hr c (by simp), ih fun x hx => hr x (by simp [hx])]

theorem search_digits {a r rest : Text} (ha : ∀ c ∈ a, nd c = false) (hne : r ≠ []) (hr : ∀ c ∈ r, nd c = true)
    (hrest : ∀ c t, rest = c :: t → nd c = false) : searchRe (digitsRe nd) (a ++ (r ++ rest)) = some (r, rest) := by
  induction a with
  | nil =>
    cases r with
    | nil => exact absurd rfl hne
    | cons c r =>
      have h1 := starGreedy_run (r := r) (fun x hx => hr x (by simp [hx])) hrest
      have h2 : (digitsRe nd).run some (c :: (r ++ rest)) = some rest := by
        simp [digitsRe, Re.run, hr c (by simp), h1]
      simp only [List.nil_append, List.cons_append, searchRe, h2]
      have e : (c :: (r ++ rest)).length - rest.length = (c :: r).length := by simp; omega
      rw [e]
      have : (c :: (r ++ rest)) = (c :: r) ++ rest := rfl
      rw [this, List.take_left]
  | cons c a ih =>
    have h2 : (digitsRe nd).run some (c :: (a ++ (r ++ rest))) = none := by
      simp [digitsRe, Re.run, ha c (by simp)]
    simp only [List.cons_append, searchRe, h2]
    exact ih fun x hx => ha x (by simp [hx])

theorem search_no_digits {t : Text} (h : ∀ c ∈ t, nd c = false) : searchRe (digitsRe nd) t = none := by
  induction t with
  | nil => rfl
  | cons c t ih =>
    have h2 : (digitsRe nd).run some (c :: t) = none := by simp [digitsRe, Re.run, h c (by simp)]
    simp only [searchRe, h2]
    exact ih fun x hx => h x (by simp [hx])

theorem findAll_runs {t : Text} {l : List Text} (h : Runs nd t l) : ∀ f, t.length < f → findAll (digitsRe nd) f t = l := by
  induction h with
  | none h =>
    intro f hf
    obtain ⟨f, rfl⟩ : ∃ g, f = g + 1 := ⟨f - 1, by omega⟩
    simp [findAll, search_no_digits h]
  | some ha hne hr hrest _ ih =>
    intro f hf
    obtain ⟨f, rfl⟩ : ∃ g, f = g + 1 := ⟨f - 1, by omega⟩
    simp only [findAll, search_digits ha hne hr hrest]
    rw [ih f]
    simp only [List.length_append] at hf
    have := List.length_pos_iff.2 hne
    omega

theorem runs_exist (nd : Nat → Bool) (t : Text) : ∃ l, Runs nd t l := by
  obtain ⟨n, hn⟩ : ∃ n, t.length ≤ n := ⟨_, Nat.le_refl _⟩
  induction n generalizing t with
  | zero =>
    have : t = [] := List.length_eq_zero_iff.1 (by omega)
    subst this
    exact ⟨[], .none (by simp)⟩
  | succ n ih =>
    have e0 := List.takeWhile_append_dropWhile (p := fun c => !nd c) (l := t)
    have ha : ∀ c ∈ t.takeWhile (fun c => !nd c), nd c = false := by
      intro c hc
      have := List.all_takeWhile (p := fun c => !nd c) (l := t)
      rw [List.all_eq_true] at this
      simpa using this c hc
    cases hd : t.dropWhile (fun c => !nd c) with
    | nil =>
      rw [hd, List.append_nil] at e0
      rw [e0] at ha
      exact ⟨[], .none ha⟩
    | cons c u =>
      have hc : nd c = true := by
        have := List.head_dropWhile_not (fun c => !nd c) (l := t) (by simp [hd])
        simp [hd] at this
        exact this
      have e1 := List.takeWhile_append_dropWhile (p := nd) (l := c :: u)
      have hr : ∀ x ∈ (c :: u).takeWhile nd, nd x = true := by
        intro x hx
        have := List.all_takeWhile (p := nd) (l := c :: u)
        rw [List.all_eq_true] at this
        exact this x hx
      have hne : (c :: u).takeWhile nd ≠ [] := by simp [hc]
      have hrest : ∀ x v, (c :: u).dropWhile nd = x :: v → nd x = false := by
        intro x v e
        have := List.head_dropWhile_not nd (l := c :: u) (by simp [e])
        simp only [e] at this
        simpa using this
      obtain ⟨l, hl⟩ := ih ((c :: u).dropWhile nd) (by
        have h1 : t.length = (t.takeWhile fun c => !nd c).length + (c :: u).length := by
          rw [← hd, ← List.length_append, e0]
        have h2 : (c :: u).length = ((c :: u).takeWhile nd).length + ((c :: u).dropWhile nd).length := by
          rw [← List.length_append, e1]
        have := List.length_pos_iff.2 hne
        omega)
      have e2 : t = t.takeWhile (fun c => !nd c) ++ ((c :: u).takeWhile nd ++ (c :: u).dropWhile nd) := by
        rw [e1, ← hd, e0]
      have := Runs.some ha hne hr hrest hl
      rw [← e2] at this
      exact ⟨_, this⟩

theorem runs_parts {t : Text} {l : List Text} (h : Runs nd t l) : ∀ r ∈ l, r ≠ [] ∧ ∀ c ∈ r, nd c = true := by
  induction h with
  | none _ => simp
  | some _ hne hr _ _ ih =>
    intro x hx
    rcases List.mem_cons.1 hx with rfl | hx
    · exact ⟨hne, hr⟩
    · exact ih x hx

/-! ## joined and cut -/

theorem cutAt_no {sep : Nat} {a : Text} (h : ∀ c ∈ a, c ≠ sep) : cutAt sep a = [a] := by
  induction a with
  | nil => rfl
  | cons c a ih => simp [cutAt, h c (by simp), ih fun x hx => h x (by simp [hx])]

theorem cutAt_append {sep : Nat} {a t : Text} (h : ∀ c ∈ a, c ≠ sep) : cutAt sep (a ++ sep :: t) = a :: cutAt sep t := by
  induction a with
  | nil => simp [cutAt]
  | cons c a ih => simp [cutAt, h c (by simp), ih fun x hx => h x (by simp [hx])]

theorem cutAt_join {sep : Nat} : ∀ {l : List Text}, l ≠ [] → (∀ a ∈ l, ∀ c ∈ a, c ≠ sep) → cutAt sep (joinWith sep l) = l
  | [], h, _ => absurd rfl h
  | [a], _, h => cutAt_no (h a (by simp))
  | a :: b :: l, _, h => by
    rw [joinWith, cutAt_append (h a (by simp)), cutAt_join (by simp) fun x hx => h x (by simp [hx])]

theorem numeral_good {lim : Nat} {t : Text} (hne : t ≠ []) (h : GoodNumeral lim t) : numeral lim t = some (textNat t) := by
  unfold numeral
  rw [if_pos]
  refine ⟨hne, ?_, ?_, h.2.2⟩
  · simpa [isDigit] using h.1
  · rcases h.2.1 with h | h
    · exact Or.inl h
    · exact Or.inr (by simpa using h)

theorem numeral_bad {lim : Nat} {t : Text} (h : ¬ GoodNumeral lim t) : numeral lim t = none := by
  unfold numeral
  rw [if_neg]
  rintro ⟨_, h1, h2, h3⟩
  refine h ⟨?_, ?_, h3⟩
  · simpa [isDigit] using h1
  · rcases h2 with h2 | h2
    · exact Or.inl h2
    · exact Or.inr (by simpa using h2)

theorem numerals_good {lim : Nat} : ∀ {l : List Text}, (∀ t ∈ l, t ≠ [] ∧ GoodNumeral lim t) → numerals lim l = some (l.map textNat)
  | [], _ => rfl
  | t :: l, h => by
    have h1 := h t (by simp)
    simp [numerals, numeral_good h1.1 h1.2, numerals_good (l := l) fun x hx => h x (by simp [hx])]

theorem numerals_bad {lim : Nat} : ∀ {l : List Text}, (∃ t ∈ l, ¬ GoodNumeral lim t) → numerals lim l = none
  | [], h => by simp at h
  | t :: l, h => by
    by_cases ht : GoodNumeral lim t
    · have hl : ∃ t ∈ l, ¬ GoodNumeral lim t := by
        obtain ⟨x, hx, hb⟩ := h
        rcases List.mem_cons.1 hx with rfl | hx
        · exact absurd ht hb
        · exact ⟨x, hx, hb⟩
      simp only [numerals, numerals_bad hl]
      split <;> simp_all
    · simp [numerals, numeral_bad ht]

end Verif.Lemmas
