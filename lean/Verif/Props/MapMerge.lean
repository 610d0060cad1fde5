import Mathlib.Tactic.Ring
import Verif.Lemmas.MapMerge
import Verif.Props.MapTodict
/-! # C142, C143: `rmerge` on mappings as objects -/
set_option linter.unusedSectionVars false
namespace Verif.Props
open Verif Verif.Model Verif.Spec Verif.Lemmas
variable {A : Type} [DecidableEq A]

/-- C142, in full: the result of `rmerge` has nothing in common with the mappings given, so that changing the one does not
change the other -/
def C142_full : Prop :=
  ∀ (A : Type) [DecidableEq A] (mt : Tag → Bool) (fuel : Nat) (h h' : MHeap A) (a b r c : Nat), NoDangling h → MapsOK h →
    a < h.length → b < h.length → rmergeH fuel mt h a b = some (r, h') → ReachesMap h' r c → h.length ≤ c

/-- C142: every mapping there was before is as it was, whatever `rmerge` is given: nothing in `map1` or `map2` changes -/
theorem C142_inputs_unchanged (mt : Tag → Bool) (fuel : Nat) (h h' : MHeap A) (a b r : Nat) (hd : NoDangling h) (hok : MapsOK h)
    (ha : a < h.length) (hb : b < h.length) (hr : rmergeH fuel mt h a b = some (r, h')) (n : Nat) (hn : n < h.length) :
    h'[n]? = h[n]? :=
  (rmergeH_post h hd hok fuel mt h a b r h' (Nat.le_refl _) (fun _ _ => rfl) hd ha hb hr).old n hn

/-- C142: the result, and each mapping in it that merges two, is a dict that was not there before; every other value in
it is the very value `map1` or `map2` has, mappings not copied -/
theorem C142_shares (mt : Tag → Bool) (fuel : Nat) (h h' : MHeap A) (a b r : Nat) (hd : NoDangling h) (hok : MapsOK h)
    (ha : a < h.length) (hb : b < h.length) (hr : rmergeH fuel mt h a b = some (r, h')) : Merged h h' h.length mt a b r := by
  have hp := rmergeH_post h hd hok fuel mt h a b r h' (Nat.le_refl _) (fun _ _ => rfl) hd ha hb hr
  exact hp.merged

/-- C142: a mapping that `rmerge` made is in one place only, and the result itself is in none -/
theorem C142_made_once (mt : Tag → Bool) (fuel : Nat) (h h' : MHeap A) (a b r : Nat) (hd : NoDangling h) (hok : MapsOK h)
    (ha : a < h.length) (hb : b < h.length) (hr : rmergeH fuel mt h a b = some (r, h')) :
    (∀ n n' k k' c, h.length ≤ c → Held h' n k c → Held h' n' k' c → n = n' ∧ k = k') ∧ (∀ n k, ¬ Held h' n k r) := by
  have hp := rmergeH_post h hd hok fuel mt h a b r h' (Nat.le_refl _) (fun _ _ => rfl) hd ha hb hr
  refine ⟨hp.once, fun n k hk => ?_⟩
  by_cases hn : n < h.length
  · obtain ⟨m, h1, h2⟩ := hk
    rw [hp.old n hn] at h1
    have := hd n k r ⟨m, h1, h2⟩
    rw [hp.addr] at this; omega
  · rcases hp.hold n k r (by omega) hk with h1 | ⟨h1, _⟩ <;> rw [hp.addr] at h1 <;> omega

/-- C142: the tree the result shows is the merger of the trees the mappings show (C10–C12 say which that is), shared
mappings or not -/
theorem C142_as_tree (mt : Tag → Bool) (fuel : Nat) (h h' : MHeap A) (a b r : Nat) (hd : NoDangling h) (hok : MapsOK h)
    (hr : rmergeH fuel mt h a b = some (r, h')) (v1 v2 : Val A) (h1 : Unf h (.obj a) v1) (h2 : Unf h (.obj b) v2) :
    Unf h' (.obj r) (.map .dict (rmerge mt v1.items v2.items)) := by
  have la : a < h.length := by cases h1 with | obj e _ => exact (List.getElem?_eq_some_iff.1 e).1
  have lb : b < h.length := by cases h2 with | obj e _ => exact (List.getElem?_eq_some_iff.1 e).1
  have hp := rmergeH_post h hd hok fuel mt h a b r h' (Nat.le_refl _) (fun _ _ => rfl) hd la lb hr
  refine Merged.unf hok (fun n m hn => ?_) hp.merged h1 h2
  rw [hp.old n (List.getElem?_eq_some_iff.1 hn).1]; exact hn

/-- C142: `rmerge` returns when one of the mappings shows a finite tree, even if the other holds itself. As many levels of
recursion do as that tree has. -/
theorem C142_returns (mt : Tag → Bool) (fuel : Nat) (h : MHeap A) (a b : Nat) (hd : NoDangling h) (hok : MapsOK h)
    (ha : a < h.length) (hb : b < h.length)
    (hs : (∃ v, Unf h (.obj a) v ∧ v.depth < fuel) ∨ (∃ v, Unf h (.obj b) v ∧ v.depth < fuel)) :
    ∃ r h', rmergeH fuel mt h a b = some (r, h') := by
  obtain ⟨⟨r, h'⟩, hr⟩ := rmergeH_returns h hd hok fuel mt h a b (Nat.le_refl _) (fun _ _ => rfl) hd ha hb hs
  exact ⟨r, h', hr⟩

/-- C142: when the two mappings have a pair of mappings that, followed down by the same keys, comes back to itself, there
is no recursion limit under which `rmerge` returns -/
theorem C142_cycle (mt : Tag → Bool) (fuel : Nat) (h : MHeap A) (a b : Nat) (p c : Nat × Nat) (hd : NoDangling h)
    (hok : MapsOK h) (ha : a < h.length) (hb : b < h.length) (h1 : PairIn h mt (a, b) p)
    (h2 : Relation.ReflTransGen (PairIn h rmergeDefault) p c) (h3 : Relation.TransGen (PairIn h rmergeDefault) c c) :
    rmergeH fuel mt h a b = none := by
  cases hr : rmergeH fuel mt h a b with
  | none => rfl
  | some x =>
    obtain ⟨r, h'⟩ := x
    have hm := C142_shares mt fuel h h' a b r hd hok ha hb hr
    have hacc := Merged.acc hm p h1
    have hcc : Acc (fun x y => PairIn h rmergeDefault y x) c := by
      clear h3
      induction h2 with
      | refl => exact hacc
      | tail _ hs ih => exact ih.inv hs
    exfalso
    have key : ∀ x, Acc (Relation.TransGen (fun x y => PairIn h rmergeDefault y x)) x → ¬ Relation.TransGen (fun x y => PairIn h rmergeDefault y x) x x := by
      intro x hx
      induction hx with
      | intro x _ ih => exact fun hxx => ih x hxx hxx
    exact key c hcc.transGen (Relation.transGen_swap.1 h3)

/-- C142, what holds of the full claim: when each mapping in `map1` or `map2` has its counterpart in the other, at every
level, the result has no mapping in common with them -/
theorem C142_apart_partial (fuel : Nat) (h h' : MHeap A) (a b r c : Nat) (hd : NoDangling h) (hok : MapsOK h)
    (ha : a < h.length) (hb : b < h.length)
    (hm : ∀ p, Relation.ReflTransGen (PairIn h rmergeDefault) (a, b) p → Matched h rmergeDefault p)
    (hr : rmergeH fuel rmergeDefault h a b = some (r, h')) (hc : ReachesMap h' r c) : h.length ≤ c := by
  have h0 := C142_shares rmergeDefault fuel h h' a b r hd hok ha hb hr
  have key : ∃ p : Nat × Nat, Relation.ReflTransGen (PairIn h rmergeDefault) (a, b) p ∧
      Merged h h' h.length rmergeDefault p.1 p.2 c := by
    induction hc with
    | refl => exact ⟨(a, b), .refl, h0⟩
    | @tail d e _ hde ih =>
      obtain ⟨p, hp, hpm⟩ := ih
      obtain ⟨k, m, hk1, hk2⟩ := hde
      obtain ⟨hl, hrr⟩ := hm p hp
      cases hpm with
      | mk e1 e2 _ hr' _ hi =>
        rw [hr'] at hk1; cases hk1
        have hv := mergedItems_iff.1 hi _ hk2
        have w1 := hok _ (List.mem_of_getElem? e1)
        have w2 := hok _ (List.mem_of_getElem? e2)
        cases hv with
        | left g1 g2 =>
          obtain ⟨d', ⟨m', k1, k2⟩, _⟩ := hl k e ⟨_, e1, Dict.mem_of_get? g1⟩
          rw [e2] at k1; cases k1
          rw [Dict.get?_of_mem w2 k2] at g2; cases g2
        | right g1 g2 =>
          obtain ⟨d', ⟨m', k1, k2⟩, _⟩ := hrr k e ⟨_, e2, Dict.mem_of_get? g2⟩
          rw [e1] at k1; cases k1
          rw [Dict.get?_of_mem w1 k2] at g1; cases g1
        | over g1 g2 hn =>
          obtain ⟨d', ⟨m', k1, k2⟩, t1, t2⟩ := hrr k e ⟨_, e2, Dict.mem_of_get? g2⟩
          rw [e1] at k1; cases k1
          rw [Dict.get?_of_mem w1 k2] at g1; cases g1
          exact absurd ⟨t1, t2⟩ hn
        | both g1 g2 t1 t2 hmm => exact ⟨(_, _), hp.tail ⟨_, _, k, e1, e2, g1, g2, t1, t2⟩, hmm⟩
  obtain ⟨p, _, hpm⟩ := key
  cases hpm with
  | mk _ _ hlo _ _ _ => exact hlo

/-! ## C143: how often -/

/-- C143, in full: `rmerge` merges each pair of mappings once: it makes as many dicts as there are pairs -/
def C143_full : Prop :=
  ∀ (A : Type) [DecidableEq A] (mt : Tag → Bool) (fuel : Nat) (h h' : MHeap A) (a b r : Nat) (v1 v2 : Val A), NoDangling h →
    MapsOK h → Unf h (.obj a) v1 → Unf h (.obj b) v2 → rmergeH fuel mt h a b = some (r, h') →
    h'.length = h.length + mergePairs 1 mt v1 v2

/-- C143: `rmerge` merges a pair of mappings twice as often as it does the pair they are in: each call makes one dict, and
`mergePairs 2` are made -/
theorem C143_calls (mt : Tag → Bool) (fuel : Nat) (h h' : MHeap A) (a b r : Nat) (v1 v2 : Val A) (hd : NoDangling h)
    (hok : MapsOK h) (h1 : Unf h (.obj a) v1) (h2 : Unf h (.obj b) v2) (hf : v1.depth < fuel ∨ v2.depth < fuel)
    (hr : rmergeH fuel mt h a b = some (r, h')) : h'.length = h.length + mergePairs 2 mt v1 v2 := by
  have la : a < h.length := by cases h1 with | obj e _ => exact (List.getElem?_eq_some_iff.1 e).1
  have lb : b < h.length := by cases h2 with | obj e _ => exact (List.getElem?_eq_some_iff.1 e).1
  have hp := rmergeH_post h hd hok fuel mt h a b r h' (Nat.le_refl _) (fun _ _ => rfl) hd la lb hr
  rw [hp.len, calls_tree h hok fuel mt a b v1 v2 h1 h2 hf]

theorem chainTree_pairs (k a b : A) : ∀ n mt, mt .dict = true → mergePairs 2 mt (chainTree k a n) (chainTree k b n) = 2 ^ (n + 1) - 1
  | 0, mt, _ => by simp [chainTree, mergePairs, mergePairsItems, Dict.get?, Val.isA]
  | n + 1, mt, hm => by
    have ih := chainTree_pairs k a b n rmergeDefault rfl
    have hA : ∀ x, (chainTree k x n).isA mt = true := by intro x; cases n <;> simpa [chainTree, Val.isA] using hm
    have := Nat.one_le_two_pow (n := n)
    simp only [chainTree, mergePairs, mergePairsItems, Dict.get?, if_true, hA, Bool.and_self, ih]
    omega

theorem chainTree_pairs_once (k a b : A) : ∀ n mt, mt .dict = true → mergePairs 1 mt (chainTree k a n) (chainTree k b n) = n + 1
  | 0, mt, _ => by simp [chainTree, mergePairs, mergePairsItems, Dict.get?, Val.isA]
  | n + 1, mt, hm => by
    have ih := chainTree_pairs_once k a b n rmergeDefault rfl
    have hA : ∀ x, (chainTree k x n).isA mt = true := by intro x; cases n <;> simpa [chainTree, Val.isA] using hm
    simp only [chainTree, mergePairs, mergePairsItems, Dict.get?, if_true, hA, Bool.and_self, ih]
    show 1 + 1 * (n + 1 + 0) = n + 1 + 1
    omega

/-- C143: the time `rmerge` takes doubles with each level: two mappings with one key at each of `n + 1` levels take
`2 ^ (n + 1) - 1` calls, and `n + 1` would do -/
theorem C143_doubles (mt : Tag → Bool) (hmt : mt .dict = true) (fuel : Nat) (h h' : MHeap A) (a b r : Nat) (k x y : A) (n : Nat)
    (hd : NoDangling h) (hok : MapsOK h) (h1 : Unf h (.obj a) (chainTree k x n)) (h2 : Unf h (.obj b) (chainTree k y n))
    (hf : (chainTree k x n).depth < fuel) (hr : rmergeH fuel mt h a b = some (r, h')) :
    h'.length = h.length + (2 ^ (n + 1) - 1) ∧ mergePairs 1 mt (chainTree k x n) (chainTree k y n) = n + 1 := by
  rw [C143_calls mt fuel h h' a b r _ _ hd hok h1 h2 (.inl hf) hr, chainTree_pairs k x y n mt hmt]
  exact ⟨rfl, chainTree_pairs_once k x y n mt hmt⟩

mutual
theorem mergePairs_bounds : ∀ (mt : Tag → Bool) (v w : Val A), mergePairs 1 mt v w ≤ mergePairs 2 mt v w ∧
    mergePairs 2 mt v w ≤ 2 ^ v.depth * mergePairs 1 mt v w
  | _, .atom _, _ => by simp [mergePairs]
  | _, .map _ _, .atom _ => by simp [mergePairs]
  | mt, .map _ l1, .map _ l2 => by
    obtain ⟨h1, h2⟩ := mergePairsItems_bounds mt l1 l2
    have := Nat.one_le_two_pow (n := Val.depthItems l1)
    simp only [mergePairs, Val.depth]
    refine ⟨by omega, ?_⟩
    rw [Nat.add_comm 1 (Val.depthItems l1), Nat.pow_succ]
    generalize 2 ^ Val.depthItems l1 = d at *
    generalize mergePairsItems 1 mt l1 l2 = x at *
    have : d * 2 * (1 + 1 * x) = 2 * d + 2 * (d * x) := by ring
    omega
theorem mergePairsItems_bounds : ∀ (mt : Tag → Bool) (l1 l2 : List (A × Val A)), mergePairsItems 1 mt l1 l2 ≤ mergePairsItems 2 mt l1 l2 ∧
    mergePairsItems 2 mt l1 l2 ≤ 2 ^ Val.depthItems l1 * mergePairsItems 1 mt l1 l2
  | _, [], _ => by simp [mergePairsItems]
  | mt, (k, v) :: r, l2 => by
    obtain ⟨h1, h2⟩ := mergePairsItems_bounds mt r l2
    simp only [mergePairsItems, Val.depthItems]
    have d1 : 2 ^ Val.depth v ≤ 2 ^ max (Val.depth v) (Val.depthItems r) := Nat.pow_le_pow_right (by omega) (by omega)
    have d2 : 2 ^ Val.depthItems r ≤ 2 ^ max (Val.depth v) (Val.depthItems r) := Nat.pow_le_pow_right (by omega) (by omega)
    have e2 := Nat.le_trans h2 (Nat.mul_le_mul_right _ d2)
    rw [Nat.mul_add]
    cases hg : Dict.get? l2 k with
    | none => simp only; omega
    | some w =>
      obtain ⟨g1, g2⟩ := mergePairs_bounds rmergeDefault v w
      have e1 := Nat.le_trans g2 (Nat.mul_le_mul_right _ d1)
      simp only
      split <;> omega
end

/-- C143, what holds of the full claim: `rmerge` makes at least as many dicts as there are pairs to merge, and no more than
`2 ^ d` times as many, `d` the depth of `map1` -/
theorem C143_bounds_partial (mt : Tag → Bool) (fuel : Nat) (h h' : MHeap A) (a b r : Nat) (v1 v2 : Val A) (hd : NoDangling h)
    (hok : MapsOK h) (h1 : Unf h (.obj a) v1) (h2 : Unf h (.obj b) v2) (hf : v1.depth < fuel ∨ v2.depth < fuel)
    (hr : rmergeH fuel mt h a b = some (r, h')) :
    h.length + mergePairs 1 mt v1 v2 ≤ h'.length ∧ h'.length ≤ h.length + 2 ^ v1.depth * mergePairs 1 mt v1 v2 := by
  rw [C143_calls mt fuel h h' a b r v1 v2 hd hok h1 h2 hf hr]
  have := mergePairs_bounds mt v1 v2
  omega

/-! ## witnesses -/

/-- `x = {'p': 1}; map1 = {'a': x, 'b': {'c': 2}}; map2 = {'b': {'d': x}, 'e': 3}` -/
def mergeMaps : MHeap Nat :=
  [⟨.dict, [(0, .obj 2), (1, .obj 3)]⟩, ⟨.dict, [(1, .obj 4), (4, .atom 3)]⟩, ⟨.nesting, [(9, .atom 1)]⟩,
   ⟨.ordered, [(2, .atom 2)]⟩, ⟨.dict, [(3, .obj 2)]⟩]

theorem mergeMaps_ok : MapsOK mergeMaps := by
  intro m hm
  simp only [mergeMaps, List.mem_cons, List.not_mem_nil, or_false] at hm
  rcases hm with rfl | rfl | rfl | rfl | rfl <;> simp [Dict.WF, Dict.keys]

/-- a heap that lists only mappings it has -/
theorem noDangling_of {h : MHeap A} (hh : ∀ m ∈ h, ∀ kv ∈ m.items, ∀ c, kv.2 = .obj c → c < h.length) : NoDangling h := by
  rintro n k c ⟨m, h1, h2⟩
  exact hh m (List.mem_of_getElem? h1) _ h2 c rfl

theorem mergeMaps_held : NoDangling mergeMaps := by
  refine noDangling_of fun m hm => ?_
  simp only [mergeMaps, List.mem_cons, List.not_mem_nil, or_false] at hm
  rcases hm with rfl | rfl | rfl | rfl | rfl <;> simp [mergeMaps]

/-- the dict at 6 is one of the two made for `'b'`; the one at 7 replaced it. `x` is in the result, twice, as it was. -/
example : rmergeH 3 rmergeDefault mergeMaps 0 1 = some (5, mergeMaps ++
    [⟨.dict, [(0, .obj 2), (1, .obj 7), (4, .atom 3)]⟩, ⟨.dict, [(2, .atom 2), (3, .obj 2)]⟩,
     ⟨.dict, [(2, .atom 2), (3, .obj 2)]⟩]) := by decide

/-- C142 in full is false: a mapping that is in one of the two only is in the result, and not copied -/
theorem C142_full_false : ¬ C142_full := by
  intro hc
  have := hc Nat rmergeDefault 3 mergeMaps _ 0 1 5 2 mergeMaps_held mergeMaps_ok (by decide) (by decide) rfl
    (.tail .refl ⟨0, _, rfl, .head _⟩)
  revert this
  decide

/-- C143 in full is false: three dicts are made for two pairs -/
theorem C143_full_false : ¬ C143_full := by
  intro hc
  have := hc Nat rmergeDefault 3 mergeMaps _ 0 1 5 _ _ mergeMaps_held mergeMaps_ok
    (.obj rfl (.cons (.obj rfl (.cons (.atom 1) .nil)) (.cons (.obj rfl (.cons (.atom 2) .nil)) .nil)))
    (.obj rfl (.cons (.obj rfl (.cons (.obj rfl (.cons (.atom 1) .nil)) .nil)) (.cons (.atom 3) .nil))) rfl
  revert this
  decide

example : ∃ r h', rmergeH 3 rmergeDefault mergeMaps 0 1 = some (r, h') :=
  C142_returns rmergeDefault 3 mergeMaps 0 1 mergeMaps_held mergeMaps_ok (by decide) (by decide)
    (.inl ⟨_, .obj rfl (.cons (.obj rfl (.cons (.atom 1) .nil)) (.cons (.obj rfl (.cons (.atom 2) .nil)) .nil)), by decide⟩)

/-- merging a mapping that holds itself with itself never ends; `m = {'a': 1, 'b': n}; n = {'c': m}` -/
example (fuel : Nat) : rmergeH fuel rmergeDefault loopMap 0 0 = none :=
  C142_cycle rmergeDefault fuel loopMap 0 0 (1, 1) (1, 1)
    (by
      refine noDangling_of fun m hm => ?_
      simp only [loopMap, List.mem_cons, List.not_mem_nil, or_false] at hm
      rcases hm with rfl | rfl <;> simp [loopMap])
    loopMap_ok (by decide) (by decide) ⟨_, _, 1, rfl, rfl, rfl, rfl, rfl, rfl⟩ .refl
    (.tail (b := (0, 0)) (.single ⟨_, _, 2, rfl, rfl, rfl, rfl, rfl, rfl⟩) ⟨_, _, 1, rfl, rfl, rfl, rfl, rfl, rfl⟩)

/-- `map1 = {'a': {'b': 1}}; map2 = {'a': {'b': 2, 'c': 3}}`: nothing is shared -/
def matchedMaps : MHeap Nat :=
  [⟨.dict, [(0, .obj 2)]⟩, ⟨.dict, [(0, .obj 3)]⟩, ⟨.dict, [(1, .atom 1)]⟩, ⟨.ordered, [(1, .atom 2), (2, .atom 3)]⟩]

theorem matchedMaps_ok : MapsOK matchedMaps := by
  intro m hm
  simp only [matchedMaps, List.mem_cons, List.not_mem_nil, or_false] at hm
  rcases hm with rfl | rfl | rfl | rfl <;> simp [Dict.WF, Dict.keys]

theorem matchedMaps_held : NoDangling matchedMaps := by
  refine noDangling_of fun m hm => ?_
  simp only [matchedMaps, List.mem_cons, List.not_mem_nil, or_false] at hm
  rcases hm with rfl | rfl | rfl | rfl <;> simp [matchedMaps]

theorem matchedMaps_matched (p : Nat × Nat) (hp : Relation.ReflTransGen (PairIn matchedMaps rmergeDefault) (0, 1) p) :
    Matched matchedMaps rmergeDefault p := by
  have h23 : ∀ n, n = 2 ∨ n = 3 → ∀ k c, ¬ Held matchedMaps n k c := by
    rintro n (rfl | rfl) k c ⟨m, h1, h2⟩ <;> cases h1 <;> simp at h2
  have key : p = (0, 1) ∨ p = (2, 3) := by
    induction hp with
    | refl => exact .inl rfl
    | tail _ hs ih =>
      obtain ⟨m1, m2, k, e1, e2, g1, g2, _, _⟩ := hs
      rcases ih with rfl | rfl
      · cases e1; cases e2
        have h1 := Dict.mem_of_get? g1
        have h2 := Dict.mem_of_get? g2
        simp at h1 h2
        exact .inr (Prod.ext h1.2 h2.2)
      · exact absurd ⟨m1, e1, Dict.mem_of_get? g1⟩ (h23 2 (.inl rfl) k _)
  rcases key with rfl | rfl
  · constructor
    · rintro k c ⟨m, h1, h2⟩
      cases h1
      simp at h2
      obtain ⟨rfl, rfl⟩ := h2
      exact ⟨3, ⟨_, rfl, by simp⟩, rfl, rfl⟩
    · rintro k c ⟨m, h1, h2⟩
      cases h1
      simp at h2
      obtain ⟨rfl, rfl⟩ := h2
      exact ⟨2, ⟨_, rfl, by simp⟩, rfl, rfl⟩
  · exact ⟨fun k c hc => absurd hc (h23 2 (.inl rfl) k c), fun k c hc => absurd hc (h23 3 (.inr rfl) k c)⟩

example (r c : Nat) (h' : MHeap Nat) (hr : rmergeH 3 rmergeDefault matchedMaps 0 1 = some (r, h')) (hc : ReachesMap h' r c) : 4 ≤ c :=
  C142_apart_partial 3 matchedMaps h' 0 1 r c matchedMaps_held matchedMaps_ok (by decide) (by decide) matchedMaps_matched hr hc

example : rmergeH 3 rmergeDefault matchedMaps 0 1 = some (4, matchedMaps ++
    [⟨.dict, [(0, .obj 6)]⟩, ⟨.dict, [(1, .atom 2), (2, .atom 3)]⟩, ⟨.dict, [(1, .atom 2), (2, .atom 3)]⟩]) := by decide

/-- three levels of one key each: 7 dicts for 3 pairs -/
def chainMaps : MHeap Nat :=
  [⟨.dict, [(0, .obj 2)]⟩, ⟨.dict, [(0, .obj 3)]⟩, ⟨.dict, [(0, .obj 4)]⟩, ⟨.dict, [(0, .obj 5)]⟩, ⟨.dict, [(0, .atom 1)]⟩,
   ⟨.dict, [(0, .atom 2)]⟩]

theorem chainMaps_left : Unf chainMaps (.obj 0) (chainTree 0 1 2) :=
  .obj (m := ⟨.dict, [(0, .obj 2)]⟩) rfl (.cons (.obj (m := ⟨.dict, [(0, .obj 4)]⟩) rfl
    (.cons (.obj (m := ⟨.dict, [(0, .atom 1)]⟩) rfl (.cons (.atom 1) .nil)) .nil)) .nil)

theorem chainMaps_right : Unf chainMaps (.obj 1) (chainTree 0 2 2) :=
  .obj (m := ⟨.dict, [(0, .obj 3)]⟩) rfl (.cons (.obj (m := ⟨.dict, [(0, .obj 5)]⟩) rfl
    (.cons (.obj (m := ⟨.dict, [(0, .atom 2)]⟩) rfl (.cons (.atom 2) .nil)) .nil)) .nil)

example (r : Nat) (h' : MHeap Nat) (hr : rmergeH 4 rmergeDefault chainMaps 0 1 = some (r, h')) :
    h'.length = 6 + 7 ∧ mergePairs 1 rmergeDefault (chainTree 0 1 2) (chainTree 0 2 2) = 3 :=
  C143_doubles rmergeDefault rfl 4 chainMaps h' 0 1 r 0 1 2 2
    (by
      refine noDangling_of fun m hm => ?_
      simp only [chainMaps, List.mem_cons, List.not_mem_nil, or_false] at hm
      rcases hm with rfl | rfl | rfl | rfl | rfl | rfl <;> simp [chainMaps])
    (by
      intro m hm
      simp only [chainMaps, List.mem_cons, List.not_mem_nil, or_false] at hm
      rcases hm with rfl | rfl | rfl | rfl | rfl | rfl <;> simp [Dict.WF, Dict.keys])
    chainMaps_left chainMaps_right (by decide) hr

example : (rmergeH 4 rmergeDefault chainMaps 0 1).map (fun x => x.2.length) = some 13 := by decide

end Verif.Props
