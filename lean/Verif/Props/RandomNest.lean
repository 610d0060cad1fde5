import Verif.Lemmas.RandomNest
import Mathlib.Data.List.Nodup
import Mathlib.Data.List.Perm.Subperm
/-!
# C120: `random_nested_dict`
-/
set_option linter.unusedSectionVars false
namespace Verif.Props
open Verif Verif.Model Verif.Spec Verif.Lemmas
variable {A : Type} [DecidableEq A]

theorem randOf_mem {gens : List (Gen A)} {ix bits : Nat} {v : Val A} (h : randOf gens ix bits = .ok v) :
    ∃ g ∈ gens, g.sample bits = .ok v := by
  simp only [randOf, bind, Except.bind] at h
  cases hg : rngChoice gens ix with
  | error e => simp [hg] at h
  | ok g => simp only [hg] at h; exact ⟨g, rngChoice_mem hg, h⟩

theorem lastWrite_mem {W : List (List A × A)} {p : List A} {a : A} (h : LastWrite W p a) : (p, a) ∈ W := by
  obtain ⟨i, hi, _⟩ := h
  exact List.mem_of_getElem? hi

/-- **C120** (what is returned). Let the value generators produce no mappings. Whatever the random generator does, if
`random_nested_dict` returns, it returns a nested plain dict without empty levels, and there is a sequence of `quantity`
writes, each of a value drawn from `types` at a path of 1 to `maxdepth` keys drawn from `keytypes`, such that the
leaves are exactly the writes over whose path, or over a level above it, nothing was written later. -/
theorem C120_result (hash : A → Bool) (fuel n : Nat) (hn : 1 ≤ n) (hf : n < fuel) (types : List (Gen A))
    (kt : Option (List (Gen A))) (hV : ∀ g ∈ types, ∀ b v, g.sample b = .ok v → ∃ a, v = .atom a) (its : List Iter)
    (r : Val A) (h : randomNestedDict hash fuel n types kt its = .ok r) :
    (∃ l, r = .map .dict l) ∧ PlainLevels r ∧ ∃ W : List (List A × A), W.length = its.length ∧
      (∀ w ∈ W, 1 ≤ w.1.length ∧ w.1.length ≤ n ∧ (∃ g ∈ types, ∃ b, g.sample b = .ok (.atom w.2)) ∧
        ∀ k ∈ w.1, hash k = true ∧ ∃ g ∈ kt.getD (defaultKeytypes types), ∃ b, g.sample b = .ok (.atom k)) ∧
      ∀ p a, LeafAt r p a ↔ LastWrite W p a := by
  obtain ⟨d, hd, s, hs⟩ := randomNestedDict_ok h
  have hi0 := nestInv_nil n hn
    (fun k : A => hash k = true ∧ ∃ g ∈ kt.getD (defaultKeytypes types), ∃ b, g.sample b = .ok (.atom k))
  obtain ⟨W, hi, hF⟩ := nestRounds_spec hV
    (fun ix bits k hk hh => ⟨hh, by obtain ⟨g, hg, hb⟩ := randOf_mem hk; exact ⟨g, hg, bits, hb⟩⟩) its _ d [] hi0 hd
  rw [List.nil_append] at hi
  obtain ⟨s', hs'⟩ := todict_plain hi hf
  rw [hs] at hs'
  simp only [Option.some.injEq, Prod.mk.injEq] at hs'
  obtain ⟨rfl, -⟩ := hs'
  obtain ⟨p1, p2, p3⟩ := plain_inv hi
  refine ⟨?_, p2, W, hF.length_eq.symm, ?_, p1⟩
  · obtain ⟨l, rfl⟩ := hi.top
    exact ⟨plainItems l, rfl⟩
  · intro w hw
    have : ∃ it, (w.1 ≠ [] ∧ w.1.length ≤ n ∧ (∀ k ∈ w.1, hash k = true ∧
        ∃ g ∈ kt.getD (defaultKeytypes types), ∃ b, g.sample b = .ok (.atom k)) ∧
        randOf types (Iter.valType it) it.valBits = .ok (.atom w.2)) := by
      clear p1 p2 p3 hs hi hd h
      induction hF with
      | nil => cases hw
      | cons hx _ ih =>
        rcases List.mem_cons.1 hw with rfl | hw
        · exact ⟨_, hx⟩
        · exact ih hw
    obtain ⟨it, h1, h2, h3, h4⟩ := this
    obtain ⟨g, hg, hb⟩ := randOf_mem h4
    exact ⟨List.length_pos_of_ne_nil h1, h2, ⟨g, hg, _, hb⟩, h3⟩

/-- **C120** (bounds). There are at most `quantity` leaves, at least one if `quantity` is not zero, and none lies deeper
than `maxdepth`. -/
theorem C120_bounds (hash : A → Bool) (fuel n : Nat) (hn : 1 ≤ n) (hf : n < fuel) (types : List (Gen A))
    (kt : Option (List (Gen A))) (hV : ∀ g ∈ types, ∀ b v, g.sample b = .ok v → ∃ a, v = .atom a) (its : List Iter)
    (r : Val A) (h : randomNestedDict hash fuel n types kt its = .ok r) :
    (∀ paths : List (List A), paths.Nodup → (∀ p ∈ paths, ∃ a, LeafAt r p a) → paths.length ≤ its.length) ∧
    (its ≠ [] → ∃ p a, LeafAt r p a) ∧ ∀ p a, LeafAt r p a → 1 ≤ p.length ∧ p.length ≤ n := by
  obtain ⟨_, _, W, hlen, hW, hleaf⟩ := C120_result hash fuel n hn hf types kt hV its r h
  refine ⟨?_, ?_, ?_⟩
  · intro paths hnd hp
    have hsub : paths ⊆ W.map Prod.fst := by
      intro p hp'
      obtain ⟨a, ha⟩ := hp p hp'
      exact List.mem_map.2 ⟨_, lastWrite_mem ((hleaf p a).1 ha), rfl⟩
    have := (hnd.subperm hsub).length_le
    rw [List.length_map] at this; omega
  · intro hne
    rcases List.eq_nil_or_concat W with rfl | ⟨W', ⟨p, a⟩, rfl⟩
    · simp at hlen; exact absurd (List.length_eq_zero_iff.1 hlen.symm) hne
    · refine ⟨p, a, (hleaf p a).2 ?_⟩
      rw [List.concat_eq_append, lastWrite_snoc]
      exact Or.inl ⟨rfl, rfl⟩
  · intro p a hp
    have := hW _ (lastWrite_mem ((hleaf p a).1 hp))
    exact ⟨this.1, this.2.1⟩

/-- `k` is one of the keys that the random generator has ready for the round `it`: for one of the levels, or for the
leaf -/
def RoundDraws (kt : List (Gen A)) (n : Nat) (it : Iter) (k : A) : Prop :=
  (∃ j, j < n ∧ randOf kt (it.picks j).typeIx (it.picks j).bits = .ok (.atom k)) ∨
    randOf kt it.keyType it.keyBits = .ok (.atom k)

/-- the round `it` meets no exception of the generators: hashable keys, and a value that is not a mapping -/
def RoundSound (hash : A → Bool) (types kt : List (Gen A)) (n : Nat) (it : Iter) : Prop :=
  (∀ j, j < n → ∃ k, randOf kt (it.picks j).typeIx (it.picks j).bits = .ok (.atom k) ∧ hash k = true) ∧
  (∃ k, randOf kt it.keyType it.keyBits = .ok (.atom k) ∧ hash k = true) ∧
  ∃ a, randOf types it.valType it.valBits = .ok (.atom a)

/-- no write ends at or above the path of an earlier one -/
def NoOverwrite (W : List (List A × A)) : Prop := W.Pairwise fun w w' => ¬ w'.1 <+: w.1

theorem lastWrite_of_noOverwrite {W : List (List A × A)} (h : NoOverwrite W) (p : List A) (a : A) :
    LastWrite W p a ↔ (p, a) ∈ W := by
  refine ⟨lastWrite_mem, fun hm => ?_⟩
  obtain ⟨i, hi, hwi⟩ := List.mem_iff_getElem.1 hm
  refine ⟨i, by rw [List.getElem?_eq_getElem hi, hwi], ?_⟩
  intro j q b hij hj
  have hj' : j < W.length := by
    by_contra hc
    rw [List.getElem?_eq_none (by omega)] at hj; cases hj
  rw [List.getElem?_eq_getElem hj'] at hj
  have := List.pairwise_iff_getElem.1 h i j hi hj' hij
  rw [hwi] at this
  simp only [Option.some.injEq] at hj
  rw [hj] at this
  exact this

theorem nestRounds_fresh {hash : A → Bool} {types kt : List (Gen A)} {n : Nat} (hn : 1 ≤ n) (its : List Iter) :
    ∀ (done : List Iter) (d : Val A) (W : List (List A × A)),
    NestInv n (fun k => hash k = true ∧ ∃ it ∈ done, RoundDraws kt n it k) d W → NoOverwrite W →
    (∀ it ∈ its, RoundSound hash types kt n it) →
    (∀ it ∈ done, ∀ it' ∈ its, ∀ k, RoundDraws kt n it k → ¬ RoundDraws kt n it' k) →
    its.Pairwise (fun it it' => ∀ k, RoundDraws kt n it k → ¬ RoundDraws kt n it' k) →
    ∃ d' W' K, nestRounds hash n types kt its d = .ok d' ∧ NestInv n K d' W' ∧ NoOverwrite W' ∧
      W'.length = W.length + its.length := by
  induction its with
  | nil =>
    intro done d W hi hW _ _ _
    exact ⟨d, W, _, rfl, hi, hW, by simp⟩
  | cons it its ih =>
    intro done d W hi hW hs hd hp
    obtain ⟨hp1, hp2⟩ := List.pairwise_cons.1 hp
    obtain ⟨s1, ⟨k0, hk0, hh0⟩, a0, ha0⟩ := hs it (by simp)
    have hnew : ∀ k, RoundDraws kt n it k → ¬ (hash k = true ∧ ∃ it ∈ done, RoundDraws kt n it k) := by
      rintro k hk ⟨_, it', hit', hk'⟩
      exact hd it' hit' it (by simp) k hk' hk
    obtain ⟨d', hr⟩ := nestRound_ok (types := types) hn hi (fun k hk => hk.1) (it := it)
      (fun j hj => by
        obtain ⟨k, hk, hh⟩ := s1 j hj
        exact ⟨k, hk, hh, hnew k (Or.inl ⟨j, hj, hk⟩)⟩)
      ⟨k0, hk0, hh0, hnew k0 (Or.inr hk0)⟩ ⟨_, ha0⟩
    have hi' := hi.mono (K' := fun k => hash k = true ∧ ∃ it' ∈ it :: done, RoundDraws kt n it' k)
      fun k hk => ⟨hk.1, by obtain ⟨it', h1, h2⟩ := hk.2; exact ⟨it', by simp [h1], h2⟩⟩
    obtain ⟨ks, v, hne, hlen, hKs, hv, hset, k1, hk1, hk1d, hh1⟩ := nestRound_spec (types := types) hi'
      (fun j hj k hk hh => ⟨hh, it, by simp, Or.inl ⟨j, hj, hk⟩⟩) (fun k hk hh => ⟨hh, it, by simp, Or.inr hk⟩) hr
    rw [ha0] at hv
    cases hv
    have hW' : NoOverwrite (W ++ [(ks, a0)]) := by
      refine List.pairwise_append.2 ⟨hW, List.pairwise_singleton _ _, ?_⟩
      intro w hw w' hw' hpre
      simp only [List.mem_singleton] at hw'
      subst hw'
      have hleaf := (hi.leaf w.1 w.2).2 ((lastWrite_of_noOverwrite hW w.1 w.2).2 hw)
      have hK := hi.keys w.1 _ hleaf k1 (hpre.subset hk1)
      exact hnew k1 (Or.inr hk1d) hK
    obtain ⟨d2, W2, K2, r1, r2, r3, r4⟩ := ih (it :: done) d' _ (nestInv_set hi' hne hlen hKs hset) hW'
      (fun it' hit' => hs it' (by simp [hit']))
      (by
        intro it1 h1 it2 h2
        rcases List.mem_cons.1 h1 with rfl | h1
        · exact hp1 it2 h2
        · exact hd it1 h1 it2 (by simp [h2])) hp2
    refine ⟨d2, W2, K2, ?_, r2, r3, by simp at r4 ⊢; omega⟩
    simp only [nestRounds, hr, bind, Except.bind, r1]

/-- **C120** (partial: if no key comes up twice). Full claim: `random_nested_dict(quantity, …)` returns a nested dict
with exactly `quantity` leaves. It holds if the generators raise nothing and no key drawn in one round is drawn again in
another; it fails in general, see `C120_crash` and `C120_fewer`. -/
theorem C120_exact_partial (hash : A → Bool) (fuel n : Nat) (hn : 1 ≤ n) (hf : n < fuel) (types : List (Gen A))
    (kt : Option (List (Gen A))) (its : List Iter)
    (hs : ∀ it ∈ its, RoundSound hash types (kt.getD (defaultKeytypes types)) n it)
    (hd : its.Pairwise fun it it' => ∀ k, RoundDraws (kt.getD (defaultKeytypes types)) n it k →
      ¬ RoundDraws (kt.getD (defaultKeytypes types)) n it' k) :
    ∃ r, randomNestedDict hash fuel n types kt its = .ok r ∧ ∃ paths : List (List A), paths.Nodup ∧
      paths.length = its.length ∧ ∀ p, p ∈ paths ↔ ∃ a, LeafAt r p a := by
  obtain ⟨d, W, K, h1, h2, h3, h4⟩ := nestRounds_fresh (types := types) hn its [] _ [] (nestInv_nil n hn _)
    List.Pairwise.nil hs (by simp) hd
  obtain ⟨s, hs'⟩ := todict_plain h2 hf
  obtain ⟨p1, _, _⟩ := plain_inv h2
  refine ⟨plainTree d, by simp only [randomNestedDict, h1, bind, Except.bind, hs'], W.map Prod.fst, ?_, ?_, ?_⟩
  · refine List.pairwise_map.2 (h3.imp ?_)
    intro w w' hn' he
    exact hn' (he ▸ List.prefix_refl _)
  · simpa using h4
  · intro p
    constructor
    · intro hp
      obtain ⟨w, hw, rfl⟩ := List.mem_map.1 hp
      exact ⟨w.2, (p1 _ _).2 ((lastWrite_of_noOverwrite h3 _ _).2 hw)⟩
    · rintro ⟨a, ha⟩
      exact List.mem_map.2 ⟨_, (lastWrite_of_noOverwrite h3 _ _).1 ((p1 _ _).1 ha), rfl⟩

/-! ### exceptions -/

theorem rngChoice_error {α : Type} {l : List α} {ix : Nat} {e : PyErr} (h : rngChoice l ix = .error e) :
    l = [] ∧ e = .indexError := by
  by_cases hl : l = []
  · subst hl
    simp only [rngChoice, List.getElem?_nil, Except.error.injEq] at h
    exact ⟨rfl, h.symm⟩
  · obtain ⟨x, hx⟩ := rngChoice_ok hl ix
    rw [hx] at h; cases h

theorem randOf_error {gens : List (Gen A)} {ix bits : Nat} {e : PyErr} (h : randOf gens ix bits = .error e) :
    (gens = [] ∧ e = .indexError) ∨ ∃ g ∈ gens, ∃ b, g.sample b = .error e := by
  simp only [randOf, bind, Except.bind] at h
  cases hg : rngChoice gens ix with
  | error e' => simp only [hg, Except.error.injEq] at h; subst h; exact Or.inl (rngChoice_error hg)
  | ok g => simp only [hg] at h; exact Or.inr ⟨g, rngChoice_mem hg, _, h⟩

theorem pickKeys_error {hash : A → Bool} {kt : List (Gen A)} (ps : List Pick) : ∀ (keys : List (Val A)) (d : Val A)
    (e : PyErr), pickKeys hash kt ps keys d = .error e →
    e = .attributeError ∨ (kt = [] ∧ e = .indexError) ∨ ∃ g ∈ kt, ∃ b, g.sample b = .error e := by
  induction ps with
  | nil => intro keys d e h; cases h
  | cons p ps ih =>
    intro keys d e h
    simp only [pickKeys, bind, Except.bind] at h
    cases hp : pickKey hash kt p keys d with
    | ok x => simp only [hp] at h; exact ih _ _ _ h
    | error e' =>
      simp only [hp, Except.error.injEq] at h
      subst h
      simp only [pickKey] at hp
      split at hp
      · split at hp
        · cases hr : randOf kt p.typeIx p.bits with
          | ok x => simp [hr, Except.map] at hp
          | error e2 =>
            simp only [hr, Except.map, Except.error.injEq] at hp
            subst hp
            exact Or.inr (randOf_error hr)
        · rename_i items _ _ hc
          simp only [Bool.or_eq_true, decide_eq_true_eq, not_or] at hc
          obtain ⟨x, hx⟩ := rngChoice_ok (l := (items.filter fun kv => isNesting kv.2).map Prod.fst)
            (fun h => hc.1 (by rw [h]; rfl)) p.nestIx
          simp [hx, Except.map] at hp
      · simp only [Except.error.injEq] at hp
        exact Or.inl hp.symm

/-- **C120** (exceptions). Nothing else is raised than `AttributeError` and `TypeError` (a path runs into a leaf, or a
key is unhashable), `IndexError` if `maxdepth` is zero or there is no type to choose from, and what the generators
raise. -/
theorem C120_errors (hash : A → Bool) (fuel n : Nat) (hn : 1 ≤ n) (hf : n < fuel) (types : List (Gen A))
    (kt : Option (List (Gen A))) (hV : ∀ g ∈ types, ∀ b v, g.sample b = .ok v → ∃ a, v = .atom a) (its : List Iter)
    (e : PyErr) (h : randomNestedDict hash fuel n types kt its = .error e) :
    e = .attributeError ∨ e = .typeError ∨
      ((types = [] ∨ kt.getD (defaultKeytypes types) = []) ∧ e = .indexError) ∨
      ∃ g ∈ types ++ kt.getD (defaultKeytypes types), ∃ b, g.sample b = .error e := by
  simp only [randomNestedDict, bind, Except.bind] at h
  generalize kt.getD (defaultKeytypes types) = kts at h ⊢
  cases hr : nestRounds hash n types kts its (.map .nesting []) with
  | ok d =>
    simp only [hr] at h
    obtain ⟨W, hi, _⟩ := nestRounds_spec hV (K := fun _ => True) (fun _ _ _ _ _ => trivial) its _ d []
      (nestInv_nil n hn _) hr
    obtain ⟨s, hs⟩ := todict_plain hi hf
    simp [hs] at h
  | error e' =>
    simp only [hr, Except.error.injEq] at h
    subst h
    clear hf hV
    generalize Val.map Tag.nesting ([] : List (A × Val A)) = d at hr
    induction its generalizing d with
    | nil => cases hr
    | cons it its ih =>
      simp only [nestRounds, bind, Except.bind] at hr
      cases h1 : nestRound hash n types kts it d with
      | ok d' => simp only [h1] at hr; exact ih d' hr
      | error e2 =>
        simp only [h1, Except.error.injEq] at hr
        subst hr
        simp only [nestRound, bind, Except.bind] at h1
        obtain ⟨lv, hl⟩ := rngChoice_ok (l := List.range n) (by simp; omega) it.level
        simp only [hl] at h1
        have gen : ∀ (gens : List (Gen A)) (e : PyErr), gens = types ∨ gens = kts →
            ((gens = [] ∧ e = .indexError) ∨ ∃ g ∈ gens, ∃ b, g.sample b = .error e) →
            e = .attributeError ∨ e = .typeError ∨ ((types = [] ∨ kts = []) ∧ e = .indexError) ∨
              ∃ g ∈ types ++ kts, ∃ b, g.sample b = .error e := by
          clear h1
          rintro gens e hg (⟨h1, h2⟩ | ⟨g, h1, b, h2⟩)
          · refine Or.inr (Or.inr (Or.inl ⟨?_, h2⟩))
            rcases hg with rfl | rfl
            · exact Or.inl h1
            · exact Or.inr h1
          · refine Or.inr (Or.inr (Or.inr ⟨g, ?_, b, h2⟩))
            rcases hg with rfl | rfl
            · exact List.mem_append_left _ h1
            · exact List.mem_append_right _ h1
        cases h2 : pickKeys hash kts ((List.range lv).map it.picks) [] d with
        | error e3 =>
          simp only [h2, Except.error.injEq] at h1
          subst h1
          rcases pickKeys_error _ _ _ _ h2 with h | h
          · exact Or.inl h
          · exact gen kts _ (Or.inr rfl) h
        | ok x =>
          simp only [h2] at h1
          cases h3 : randOf types it.valType it.valBits with
          | error e3 =>
            simp only [h3, Except.error.injEq] at h1
            subst h1
            exact gen types _ (Or.inl rfl) (randOf_error h3)
          | ok v =>
            simp only [h3] at h1
            cases h4 : randOf kts it.keyType it.keyBits with
            | error e3 =>
              simp only [h4, Except.error.injEq] at h1
              subst h1
              exact gen kts _ (Or.inr rfl) (randOf_error h4)
            | ok k =>
              simp only [h4] at h1
              right; left
              split at h1
              · split at h1 <;> cases h1
                rfl
              · cases h1; rfl

/-- **C120**: `maxdepth=0` raises `IndexError` (there is no level to choose from), unless `quantity` is zero too -/
theorem C120_maxdepth_zero (hash : A → Bool) (fuel : Nat) (types : List (Gen A)) (kt : Option (List (Gen A)))
    (it : Iter) (its : List Iter) : randomNestedDict hash fuel 0 types kt (it :: its) = .error .indexError := rfl

/-- **C120**: the default of `keytypes` asks of the *types*, not of their values, whether they are hashable: if all
members of `types` are classes, keys are drawn from all of them -/
theorem C120_default_keytypes (hash : A → Bool) (fuel n : Nat) (types : List (Gen A))
    (hc : ∀ t ∈ types, t.objHashable = true) (its : List Iter) :
    randomNestedDict hash fuel n types none its = randomNestedDict hash fuel n types (some types) its := by
  have : defaultKeytypes types = types := List.filter_eq_self.2 hc
  simp [randomNestedDict, this]

/-! ### examples and witnesses -/

/-- the generator `int` (here: natural numbers) -/
def genNat : Gen Nat := ⟨true, fun b => .ok (.atom b)⟩
/-- the generator `bool`: `bool()` is `False`, here 0 -/
def genBool : Gen Nat := ⟨true, fun _ => .ok (.atom 0)⟩
/-- the generator `list`: `list()` is `[]`, here 1000, which is unhashable -/
def genList : Gen Nat := ⟨true, fun _ => .ok (.atom 1000)⟩
/-- what is hashable in the examples -/
def hashNat (a : Nat) : Bool := a != 1000
/-- a round at level `lv` with fresh keys `k0`, `k0 + 1`, …, the leaf key `k` and the value `v` -/
def roundAt (lv k0 k v : Nat) : Iter := ⟨lv, fun j => ⟨true, 0, 0, k0 + j⟩, 0, k, 0, v⟩
/-- the same, but following the existing levels where there are any -/
def roundIn (lv k0 k v : Nat) : Iter := ⟨lv, fun j => ⟨false, 0, 0, k0 + j⟩, 0, k, 0, v⟩

/-- three rounds: a leaf at the top, one two levels down, one beside the latter's parent -/
example : randomNestedDict hashNat 5 3 [genNat] none [roundAt 0 0 1 10, roundAt 2 20 22 11, roundIn 1 30 32 12] =
    .ok (.map .dict [(1, .atom 10), (20, .map .dict [(21, .map .dict [(22, .atom 11)]), (32, .atom 12)])]) := by rfl

/-- **C120** (full claim false: an exception). `random_nested_dict(2, 2, (int,), (bool,))` raises `TypeError` if it
happens to write first at the top and then one level down: the key `False` leads to a number. -/
theorem C120_crash : randomNestedDict hashNat 5 2 [genNat] (some [genBool]) [roundAt 0 0 0 7, roundAt 1 0 0 8] =
    .error .typeError := by rfl

/-- **C120**: one level further down, it is an `AttributeError` -/
theorem C120_crash_attribute : randomNestedDict hashNat 5 3 [genNat] (some [genBool])
    [roundAt 0 0 0 7, roundAt 2 0 0 8] = .error .attributeError := by rfl

/-- **C120** (full claim false: fewer leaves). The same call may return a single leaf, after overwriting the level it
had created with a number. -/
theorem C120_fewer : ∃ r : Val Nat, randomNestedDict hashNat 5 2 [genNat] (some [genBool])
    [roundAt 1 0 0 7, roundAt 0 0 0 8] = .ok r ∧ ∀ p a, LeafAt r p a ↔ p = [0] ∧ a = 8 := by
  refine ⟨.map .dict [(0, .atom 8)], by rfl, fun p a => ?_⟩
  constructor
  · intro h
    match p with
    | [] => simp [LeafAt, lookupPath] at h
    | [k] =>
      simp only [LeafAt, lookupPath, Dict.get?_cons, Dict.get?_nil] at h
      split at h
      · rename_i w hw
        split at hw
        · rename_i hk
          cases hw
          simp only [Option.some.injEq, Val.atom.injEq] at h
          exact ⟨by rw [hk], h.symm⟩
        · cases hw
      · cases h
    | k :: k' :: r =>
      simp only [LeafAt, lookupPath, Dict.get?_cons, Dict.get?_nil] at h
      split at h
      · rename_i w hw
        split at hw
        · cases hw; simp [lookupPath] at h
        · cases hw
      · cases h
  · rintro ⟨rfl, rfl⟩
    rfl

/-- **C120**: `random_nested_dict(1, 1, (list,))` raises `TypeError`: by default it draws a list as a key -/
theorem C120_list_key : randomNestedDict hashNat 5 1 [genList] none [roundAt 0 0 0 0] = .error .typeError := by rfl

/-- the hypotheses of `C120_exact_partial` hold of rounds with keys of their own -/
example : ∃ r, randomNestedDict hashNat 5 3 [genNat] none [roundAt 0 10 1 10, roundAt 2 20 29 11] = .ok r ∧
    ∃ paths : List (List Nat), paths.Nodup ∧ paths.length = 2 ∧ ∀ p, p ∈ paths ↔ ∃ a, LeafAt r p a := by
  have draw : ∀ ix b : Nat, randOf (([genNat] : List (Gen Nat))) ix b = .ok (.atom b) := by
    intro ix b
    simp [randOf, rngChoice, Nat.mod_one, bind, Except.bind, genNat]
  have hkt : (none : Option (List (Gen Nat))).getD (defaultKeytypes [genNat]) = [genNat] := rfl
  refine C120_exact_partial hashNat 5 3 (by omega) (by omega) [genNat] none _ ?_ ?_
  · rw [hkt]
    intro it hit
    simp only [List.mem_cons, List.not_mem_nil, or_false] at hit
    rcases hit with rfl | rfl
    · refine ⟨fun j hj => ⟨_, draw _ _, ?_⟩, ⟨_, draw _ _, rfl⟩, _, draw _ _⟩
      simp only [roundAt, hashNat, bne_iff_ne]; omega
    · refine ⟨fun j hj => ⟨_, draw _ _, ?_⟩, ⟨_, draw _ _, rfl⟩, _, draw _ _⟩
      simp only [roundAt, hashNat, bne_iff_ne]; omega
  · rw [hkt]
    refine List.Pairwise.cons ?_ (List.pairwise_singleton _ _)
    intro it' hit' k h1 h2
    simp only [List.mem_singleton] at hit'
    subst hit'
    simp only [RoundDraws, draw, roundAt, Except.ok.injEq, Val.atom.injEq] at h1 h2
    rcases h1 with ⟨j, hj, h1⟩ | h1 <;> rcases h2 with ⟨j', hj', h2⟩ | h2 <;> omega

end Verif.Props
