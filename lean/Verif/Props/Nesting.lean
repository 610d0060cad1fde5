import Verif.Lemmas.Dig
/-!
# C03: `NestingDict` paths
-/
set_option linter.unusedSectionVars false
namespace Verif.Props
open Verif Verif.Model Verif.Spec Verif.Lemmas
variable {A : Type} [DecidableEq A]

theorem dict_set_self {κ α : Type} [DecidableEq κ] {l : Dict κ α} {k : κ} {v : α} (h : Dict.get? l k = some v) :
    Dict.set l k v = l := by
  induction l with
  | nil => cases h
  | cons x r ih =>
    obtain ⟨k', v'⟩ := x
    rw [Dict.get?_cons] at h
    simp only [Dict.set]
    by_cases hk : k = k'
    · subst hk; simp at h; simp [h]
    · have hk' : ¬ k' = k := fun e => hk e.symm
      simp only [hk', if_false] at h ⊢
      rw [ih h]

theorem dict_set_set {κ α : Type} [DecidableEq κ] (l : Dict κ α) (k : κ) (v w : α) :
    Dict.set (Dict.set l k v) k w = Dict.set l k w := by
  induction l with
  | nil => simp [Dict.set]
  | cons x r ih =>
    obtain ⟨k', v'⟩ := x
    simp only [Dict.set]
    by_cases hk : k' = k
    · simp [hk, Dict.set]
    · simp [hk, Dict.set, ih]

/-- one step of following a path: the sub-value and the dict in which it now sits under `k` -/
theorem getItemND_ok {k : A} {d sub d' : Val A} (h : getItemND k d = .ok (sub, d')) :
    ∃ t l l', d = .map t l ∧ d' = .map t l' ∧ Dict.get? l' k = some sub ∧
      (∀ k', k' ≠ k → Dict.get? l' k' = Dict.get? l k') ∧
      ((Dict.get? l k = some sub ∧ l' = l) ∨
       (Dict.get? l k = none ∧ t = .nesting ∧ sub = .map .nesting [] ∧ l' = Dict.set l k (.map .nesting []))) := by
  cases d with
  | atom a => simp [getItemND] at h
  | map t l =>
    simp only [getItemND] at h
    cases hg : Dict.get? l k with
    | some v =>
      simp only [hg, Except.ok.injEq, Prod.mk.injEq] at h
      obtain ⟨rfl, rfl⟩ := h
      exact ⟨t, l, l, rfl, rfl, hg, fun _ _ => rfl, Or.inl ⟨hg, rfl⟩⟩
    | none =>
      simp only [hg] at h
      split at h
      · rename_i ht
        simp only [Except.ok.injEq, Prod.mk.injEq] at h
        obtain ⟨rfl, rfl⟩ := h
        refine ⟨t, l, _, rfl, rfl, by simp [Dict.get?_set], ?_, Or.inr ⟨hg, ht, rfl, rfl⟩⟩
        intro k' hk'
        rw [Dict.get?_set_ne _ _ hk']
      · cases h

/-- unfolding of a successful multi-level assignment -/
theorem setPathND_cons {k k' : A} {ks : List A} {v d d' : Val A} (h : setPathND (k :: k' :: ks) v d = .ok d') :
    ∃ sub t l' sub', getItemND k d = .ok (sub, .map t l') ∧ setPathND (k' :: ks) v sub = .ok sub' ∧
      d' = .map t (Dict.set l' k sub') := by
  simp only [setPathND, bind, Except.bind] at h
  cases hg : getItemND k d with
  | error e => simp [hg] at h
  | ok x =>
    obtain ⟨sub, d1⟩ := x
    simp only [hg] at h
    cases hs : setPathND (k' :: ks) v sub with
    | error e => simp [hs] at h
    | ok sub' =>
      simp only [hs] at h
      obtain ⟨t, l, l', rfl, rfl, _⟩ := getItemND_ok hg
      simp only [pure, Except.pure, Except.ok.injEq] at h
      exact ⟨sub, t, l', sub', rfl, hs, h.symm⟩

/-- unfolding of a successful multi-level read -/
theorem getPathND_cons {k : A} {ks : List A} {v d d' : Val A} (h : getPathND (k :: ks) d = .ok (v, d')) :
    ∃ sub t l' sub', getItemND k d = .ok (sub, .map t l') ∧ getPathND ks sub = .ok (v, sub') ∧
      d' = .map t (Dict.set l' k sub') := by
  simp only [getPathND, bind, Except.bind] at h
  cases hg : getItemND k d with
  | error e => simp [hg] at h
  | ok x =>
    obtain ⟨sub, d1⟩ := x
    simp only [hg] at h
    cases hs : getPathND ks sub with
    | error e => simp [hs] at h
    | ok y =>
      obtain ⟨w, sub'⟩ := y
      simp only [hs] at h
      obtain ⟨t, l, l', rfl, rfl, _⟩ := getItemND_ok hg
      simp only [pure, Except.pure, Except.ok.injEq, Prod.mk.injEq] at h
      obtain ⟨rfl, rfl⟩ := h
      exact ⟨sub, t, l', sub', rfl, hs, rfl⟩

/-- reading a path that exists returns what is there and creates nothing -/
theorem getPathND_existing (ks : List A) : ∀ (d w : Val A), lookupPath ks d = some w →
    getPathND ks d = .ok (w, d) := by
  induction ks with
  | nil => intro d w h; simp [lookupPath] at h; simp [getPathND, h]
  | cons k ks ih =>
    intro d w h
    cases d with
    | atom a => simp [lookupPath] at h
    | map t l =>
      simp only [lookupPath] at h
      cases hg : Dict.get? l k with
      | none => simp [hg] at h
      | some u =>
        simp only [hg] at h
        simp [getPathND, getItemND, hg, ih u w h, bind, Except.bind, pure, Except.pure, dict_set_self hg]

/-- two paths neither of which is a prefix of the other -/
def Incomparable (p q : List A) : Prop := ¬ p <+: q ∧ ¬ q <+: p

/-- **C03** (write, then read). A successful `nd[k1]…[kn] = v` makes `nd[k1]…[kn]` be `v`, reading it back changes
nothing, and every path not a prefix of and not extended by `k1…kn` looks up as before. -/
theorem C03_write_read (ks : List A) (hks : ks ≠ []) (v d d' : Val A) (h : setPathND ks v d = .ok d') :
    lookupPath ks d' = some v ∧ getPathND ks d' = .ok (v, d') ∧
    ∀ q, Incomparable ks q → lookupPath q d' = lookupPath q d := by
  have hA : ∀ (ks : List A), ks ≠ [] → ∀ (d d' : Val A), setPathND ks v d = .ok d' →
      lookupPath ks d' = some v ∧ ∀ q, Incomparable ks q → lookupPath q d' = lookupPath q d := by
    intro ks
    induction ks with
    | nil => intro h; exact absurd rfl h
    | cons k ks ih =>
      intro _ d d' h
      cases ks with
      | nil =>
        cases d with
        | atom a => simp [setPathND] at h
        | map t l =>
          simp only [setPathND, Except.ok.injEq] at h
          subst h
          refine ⟨by simp [lookupPath, Dict.get?_set], ?_⟩
          intro q hq
          cases q with
          | nil => exact absurd (by simp) hq.2
          | cons k0 qs =>
            have : k0 ≠ k := by
              rintro rfl
              exact hq.1 (by simp)
            simp [lookupPath, Dict.get?_set_ne _ _ this]
      | cons k' ks =>
        obtain ⟨sub, t, l', sub', hg, hs, rfl⟩ := setPathND_cons h
        obtain ⟨i1, i2⟩ := ih (by simp) sub sub' hs
        refine ⟨by simp [lookupPath, Dict.get?_set, i1], ?_⟩
        obtain ⟨t1, l, l1, rfl, he, hl1, hne, hcase⟩ := getItemND_ok hg
        cases he
        intro q hq
        cases q with
        | nil => exact absurd (by simp) hq.2
        | cons k0 qs =>
          by_cases hk : k0 = k
          · subst hk
            have hq' : Incomparable (k' :: ks) qs := by
              constructor
              · intro hh; exact hq.1 (by simpa using hh)
              · intro hh; exact hq.2 (by simpa using hh)
            have := i2 qs hq'
            simp only [lookupPath, Dict.get?_set, if_true]
            rw [this]
            rcases hcase with ⟨h1, _⟩ | ⟨h1, _, h2, _⟩
            · simp [h1]
            · rw [h1, h2]
              cases qs with
              | nil => exact absurd (by simp) hq'.2
              | cons => simp [lookupPath]
          · simp [lookupPath, Dict.get?_set_ne _ _ hk, hne k0 hk]
  obtain ⟨h1, h2⟩ := hA ks hks d d' h
  exact ⟨h1, getPathND_existing ks d' v h1, h2⟩

/-- **C03** (assignment succeeds whenever the levels on the way exist or can be created): if every value found along a
proper prefix of the path is a mapping, and is a `NestingDict` where the next key but the last is missing. -/
theorem C03_write_succeeds (ks : List A) (hks : ks ≠ []) (v : Val A) : ∀ (d : Val A),
    (∀ p k rest, ks = p ++ k :: rest → ∀ u, lookupPath p d = some u →
      ∃ t l, u = .map t l ∧ (rest = [] ∨ t = .nesting ∨ (Dict.get? l k).isSome)) →
    ∃ d', setPathND ks v d = .ok d' := by
  induction ks with
  | nil => exact absurd rfl hks
  | cons k ks ih =>
    intro d hp
    obtain ⟨t, l, rfl, hk⟩ := hp [] k ks rfl d rfl
    cases ks with
    | nil => exact ⟨_, rfl⟩
    | cons k' ks =>
      have hex : ∃ sub d1, getItemND k (.map t l) = .ok (sub, d1) ∧
          (∀ p u, lookupPath p sub = some u → lookupPath (k :: p) (.map t l) = some u ∨ (p = [] ∧ u = .map .nesting [])) := by
        cases hg : Dict.get? l k with
        | some w =>
          refine ⟨w, .map t l, by simp [getItemND, hg], ?_⟩
          intro p u hu
          left
          simpa [lookupPath, hg] using hu
        | none =>
          have ht : t = .nesting := by
            rcases hk with h | h | h
            · cases h
            · exact h
            · simp [hg] at h
          refine ⟨.map .nesting [], .map t (Dict.set l k (.map .nesting [])), by simp [getItemND, hg, ht], ?_⟩
          intro p u hu
          right
          cases p with
          | nil => simp [lookupPath] at hu; simp [hu]
          | cons => simp [lookupPath] at hu
      obtain ⟨sub, d1, h1, h2⟩ := hex
      obtain ⟨sub', hs⟩ := ih (by simp) sub (by
        intro p k2 rest he u hu
        rcases h2 p u hu with h | ⟨rfl, rfl⟩
        · exact hp (k :: p) k2 rest (by rw [he]; rfl) u h
        · exact ⟨.nesting, [], rfl, Or.inr (Or.inl rfl)⟩)
      obtain ⟨t1, l0, l1, _, rfl, _⟩ := getItemND_ok h1
      exact ⟨.map t1 (Dict.set l1 k sub'), by simp [setPathND, h1, hs, bind, Except.bind, pure, Except.pure]⟩

/-- **C03** (reads). Reading an existing path changes nothing. Reading a missing path of a `NestingDict` returns an
empty `NestingDict`; afterwards each level along the path that was missing is a `NestingDict` holding only the next key
of the path (nothing at the end), and every path that is not a prefix of the one read looks up as before. -/
theorem C03_read_creates_only_path (ks : List A) (d v d' : Val A) (h : getPathND ks d = .ok (v, d')) :
    (∀ w, lookupPath ks d = some w → v = w ∧ d' = d) ∧
    (lookupPath ks d = none → v = .map .nesting []) ∧
    (∀ q, ¬ q <+: ks → lookupPath q d' = lookupPath q d) ∧
    (∀ q rest, ks = q ++ rest → lookupPath q d = none →
      ∃ items, lookupPath q d' = some (.map .nesting items) ∧ Dict.keys items = rest.head?.toList) := by
  refine ⟨?_, ?_⟩
  · intro w hw
    have := getPathND_existing ks d w hw
    rw [h] at this
    cases this
    exact ⟨rfl, rfl⟩
  · revert d v d'
    induction ks with
    | nil =>
      intro d v d' h
      simp only [getPathND, Except.ok.injEq, Prod.mk.injEq] at h
      obtain ⟨rfl, rfl⟩ := h
      refine ⟨by simp [lookupPath], fun _ _ => rfl, ?_⟩
      intro q rest hq hnone
      have : q = [] := by
        cases q with
        | nil => rfl
        | cons => simp at hq
      subst this
      simp [lookupPath] at hnone
    | cons k ks ih =>
      intro d v d' h
      obtain ⟨sub, t, l', sub', hg, hs, rfl⟩ := getPathND_cons h
      obtain ⟨i1, i2, i3⟩ := ih sub v sub' hs
      obtain ⟨t1, l, l1, rfl, he, hl1, hne, hcase⟩ := getItemND_ok hg
      cases he
      have hlook : ∀ q : List A, lookupPath (k :: q) (.map t l) = none → lookupPath q sub = none ∨
          (q = [] ∧ sub = .map .nesting [] ∧ Dict.get? l k = none) := by
        intro q hq
        rcases hcase with ⟨h1, _⟩ | ⟨h1, _, h2, _⟩
        · left; simpa [lookupPath, h1] using hq
        · subst h2
          cases q with
          | nil => exact Or.inr ⟨rfl, rfl, h1⟩
          | cons => left; simp [lookupPath]
      refine ⟨?_, ?_, ?_⟩
      · intro hn
        rcases hlook ks hn with h | ⟨rfl, rfl, _⟩
        · exact i1 h
        · simp [getPathND] at hs
          exact hs.1.symm
      · intro q hq
        cases q with
        | nil => exact absurd (by simp) hq
        | cons k0 qs =>
          by_cases hk : k0 = k
          · subst hk
            have hq' : ¬ qs <+: ks := fun hh => hq (by simpa using hh)
            simp only [lookupPath, Dict.get?_set, if_true]
            rw [i2 qs hq']
            rcases hcase with ⟨h1, _⟩ | ⟨h1, _, h2, _⟩
            · simp [h1]
            · rw [h1, h2]
              cases qs with
              | nil => exact absurd (by simp) hq'
              | cons => simp [lookupPath]
          · simp [lookupPath, Dict.get?_set_ne _ _ hk, hne k0 hk]
      · intro q rest hq hnone
        cases q with
        | nil => simp [lookupPath] at hnone
        | cons k0 qs =>
          simp only [List.cons_append, List.cons.injEq] at hq
          obtain ⟨rfl, hq⟩ := hq
          have hstep : lookupPath (k :: qs) (.map t (Dict.set l' k sub')) = lookupPath qs sub' := by
            simp [lookupPath, Dict.get?_set]
          rw [hstep]
          rcases hlook qs hnone with h | ⟨rfl, rfl, _⟩
          · exact i3 qs rest hq h
          · simp only [List.nil_append] at hq
            subst hq
            cases ks with
            | nil =>
              simp only [getPathND, Except.ok.injEq, Prod.mk.injEq] at hs
              obtain ⟨_, rfl⟩ := hs
              exact ⟨[], rfl, rfl⟩
            | cons k2 ks =>
              obtain ⟨s2, t2, l2, s2', hg2, _, rfl⟩ := getPathND_cons hs
              simp only [getItemND, Dict.get?_nil, if_true, Except.ok.injEq, Prod.mk.injEq] at hg2
              obtain ⟨_, he2⟩ := hg2
              cases he2
              exact ⟨_, rfl, by simp [Dict.set, Dict.keys]⟩

/-- witness: starting from an empty `NestingDict`, `nd[1][2] = 7`, then `nd[1][3]` is read -/
example : setPathND (A := Nat) [1, 2] (.atom 7) (.map .nesting []) =
    .ok (.map .nesting [(1, .map .nesting [(2, .atom 7)])]) := rfl
example : getPathND (A := Nat) [1, 3] (.map .nesting [(1, .map .nesting [(2, .atom 7)])]) =
    .ok (.map .nesting [], .map .nesting [(1, .map .nesting [(2, .atom 7), (3, .map .nesting [])])]) := rfl

end Verif.Props
