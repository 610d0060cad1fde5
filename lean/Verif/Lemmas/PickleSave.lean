import Verif.Lemmas.PickleGraph
/-!
# The opcodes of `save` build a graph that is the same: the induction
-/
namespace Verif.Lemmas.Pickle
open Verif Verif.Model Verif.Spec

theorem ok_bind {α β : Type} {x : Except PyErr α} {f : α → Except PyErr β} {b : β} (h : (x >>= f) = .ok b) :
    ∃ a, x = .ok a ∧ f a = .ok b := by
  cases x with
  | error => cases h
  | ok a => exact ⟨a, rfl, h⟩

/-! ## changing a list or dict -/

theorem complete_set {h : PHeap} {m : List Nat} {memo : List PRef} {H : PHeap} (g : Good h m H memo) {k0 c : Nat}
    (hc : memo[k0]? = some (.obj c)) (new : PNode) {i : Nat} (hi : i ≠ k0) (hcm : Complete h m H memo i) :
    Complete h m (H.set c new) memo i := by
  obtain ⟨a, b, n, n', p1, p2, p3, p4, p5⟩ := hcm
  refine ⟨a, b, n, n', p1, p2, p3, ?_, p5⟩
  have hne : c ≠ b := by
    rintro rfl
    exact hi (nodup_idx g.ndm p2 hc)
  rw [List.getElem?_set_ne hne]
  exact p4

theorem good_set {h : PHeap} {m : List Nat} {memo : List PRef} {H : PHeap} (g : Good h m H memo) {k0 a0 c : Nat}
    (ha : m[k0]? = some a0) (hc : memo[k0]? = some (.obj c)) {n0 new : PNode} (hn : h[a0]? = some n0) (hf : ¬ Frozen n0)
    (hnew : ¬ Frozen new) : Good h m (H.set c new) memo := by
  refine ⟨g.len, g.nd, g.ndm, ?_, ?_, ?_⟩
  · simpa using g.objs
  · intro i a n hi hn' hfr
    refine complete_set g hc new ?_ (g.frozen i a n hi hn' hfr)
    rintro rfl
    rw [ha] at hi; cases hi
    rw [hn] at hn'; cases hn'
    exact hf hfr
  · intro b xs hb
    by_cases hbc : c = b
    · subst hbc
      rw [List.getElem?_set] at hb
      split at hb
      · split at hb
        · cases hb
          exact absurd trivial hnew
        · cases hb
      · contradiction
    · rw [List.getElem?_set_ne hbc] at hb
      exact g.desc b xs hb

/-- a prefix of the heap that ends before the object changed -/
theorem prefix_set {H0 H : PHeap} (h : H0 <+: H) {c : Nat} (hc : H0.length ≤ c) (new : PNode) : H0 <+: H.set c new := by
  obtain ⟨t, rfl⟩ := h
  rw [List.set_append_right _ _ hc]
  exact List.prefix_append _ _

/-! ## lists and dicts -/

/-- lists and dicts alike: the references in an item, the object with some items, and the opcodes that add items -/
structure Kind (α : Type) where
  refs : α → List PRef
  node : List α → PNode
  one : POp
  many : POp

def Kind.rel {α : Type} (K : Kind α) (R : Nat → Nat → Prop) (x x' : α) : Prop := List.Forall₂ (RefRel R) (K.refs x) (K.refs x')

structure KindOK {α : Type} (h : PHeap) (K : Kind α) (total : List α) : Prop where
  thawed : ∀ ys, ¬ Frozen (K.node ys)
  split : ∀ R (xs : List α) (ys : List PRef), List.Forall₂ (RefRel R) (xs.flatMap K.refs) ys →
    ∃ xs', ys = xs'.flatMap K.refs ∧ List.Forall₂ (K.rel R) xs xs'
  putMany : ∀ {m H memo}, Good h m H memo → ∀ ys xs ys' xs' (c : Nat) st bl, (ys ++ xs) <+: total →
    List.Forall₂ (K.rel (Memo m memo)) (ys ++ xs) (ys' ++ xs') → H[c]? = some (K.node ys') →
    stepP K.many ⟨H, memo, (xs'.flatMap K.refs).reverse, (.obj c :: st) :: bl⟩ =
      .ok ⟨H.set c (K.node (ys' ++ xs')), memo, .obj c :: st, bl⟩
  putOne : ∀ {m H memo}, Good h m H memo → ∀ ys x ys' x' (c : Nat) st bl, (ys ++ [x]) <+: total →
    List.Forall₂ (K.rel (Memo m memo)) (ys ++ [x]) (ys' ++ [x']) → H[c]? = some (K.node ys') →
    stepP K.one ⟨H, memo, (K.refs x').reverse ++ .obj c :: st, bl⟩ = .ok ⟨H.set c (K.node (ys' ++ [x'])), memo, .obj c :: st, bl⟩

/-- what is shown of `save` -/
def SaveSim (h : PHeap) (sv : PRef → List Nat → Except PyErr (List PEv × List Nat)) : Prop :=
  ∀ r m e m', sv r m = .ok (e, m') → ∀ H memo st bl, Good h m H memo →
    ∃ H' memo' r', runOps (opsOf e) ⟨H, memo, st, bl⟩ = .ok ⟨H', memo', r' :: st, bl⟩ ∧
      Ext h m H memo m' H' memo' ∧ RefRel (Memo m' memo') r r'

theorem saveAll_sim {h : PHeap} {sv : PRef → List Nat → Except PyErr (List PEv × List Nat)} (hs : SaveSim h sv) :
    ∀ xs m e m', saveAll sv xs m = .ok (e, m') → ∀ H memo st bl, Good h m H memo →
    ∃ H' memo' xs', runOps (opsOf e) ⟨H, memo, st, bl⟩ = .ok ⟨H', memo', xs'.reverse ++ st, bl⟩ ∧
      Ext h m H memo m' H' memo' ∧ List.Forall₂ (RefRel (Memo m' memo')) xs xs'
  | [], m, e, m', hv, H, memo, st, bl, g => by
    simp only [saveAll, Except.ok.injEq, Prod.mk.injEq] at hv
    obtain ⟨rfl, rfl⟩ := hv
    exact ⟨H, memo, [], rfl, Ext.refl g, .nil⟩
  | r :: rs, m, e, m', hv, H, memo, st, bl, g => by
    simp only [saveAll] at hv
    obtain ⟨⟨e1, m1⟩, h1, hv⟩ := ok_bind hv
    obtain ⟨⟨e2, m2⟩, h2, hv⟩ := ok_bind hv
    simp only [Except.ok.injEq, Prod.mk.injEq] at hv
    obtain ⟨rfl, rfl⟩ := hv
    obtain ⟨H1, memo1, r', q1, q2, q3⟩ := hs r m e1 m1 h1 H memo st bl g
    obtain ⟨H2, memo2, rs', p1, p2, p3⟩ := saveAll_sim hs rs m1 e2 m2 h2 H1 memo1 (r' :: st) bl q2.good
    refine ⟨H2, memo2, r' :: rs', ?_, q2.trans p2, .cons (RefRel.mono p2.rel q3) p3⟩
    rw [opsOf_append, runOps_ok q1, p1]
    simp

theorem rel_mono {α : Type} {K : Kind α} {R S : Nat → Nat → Prop} (h : ∀ a b, R a b → S a b) {xs ys : List α}
    (hx : List.Forall₂ (K.rel R) xs ys) : List.Forall₂ (K.rel S) xs ys := hx.imp fun _ _ => refs_mono h

theorem batches_sim {α : Type} {h : PHeap} {sv : PRef → List Nat → Except PyErr (List PEv × List Nat)} (hs : SaveSim h sv)
    {K : Kind α} {total : List α} (hK : KindOK h K total) (short : Bool) {k0 a0 c : Nat} {n0 : PNode} (hn : h[a0]? = some n0)
    (hf : ¬ Frozen n0) {H0 : PHeap} (hH0 : H0.length ≤ c) (st : List PRef) (bl : List (List PRef)) :
    ∀ bs m e m', saveBatches sv K.refs K.one K.many short bs m = .ok (e, m') → ∀ H memo ys ys', Good h m H memo →
    ys ++ bs.flatten = total → List.Forall₂ (K.rel (Memo m memo)) ys ys' → H[c]? = some (K.node ys') → H0 <+: H →
    m[k0]? = some a0 → memo[k0]? = some (.obj c) → (∀ i, k0 < i → i < m.length → Complete h m H memo i) →
    ∃ H' memo' zs', runOps (opsOf e) ⟨H, memo, .obj c :: st, bl⟩ = .ok ⟨H', memo', .obj c :: st, bl⟩ ∧
      Good h m' H' memo' ∧ List.Forall₂ (K.rel (Memo m' memo')) total zs' ∧ H'[c]? = some (K.node zs') ∧ H0 <+: H' ∧
      m <+: m' ∧ memo <+: memo' ∧ ∀ i, k0 < i → i < m'.length → Complete h m' H' memo' i
  | [], m, e, m', hv, H, memo, ys, ys', g, htot, hrel, hc, hp, hk, hk', hnew => by
    simp only [saveBatches, Except.ok.injEq, Prod.mk.injEq] at hv
    obtain ⟨rfl, rfl⟩ := hv
    simp only [List.flatten_nil, List.append_nil] at htot
    subst htot
    exact ⟨H, memo, ys', rfl, g, hrel, hc, hp, List.prefix_rfl, List.prefix_rfl, hnew⟩
  | b :: bs, m, e, m', hv, H, memo, ys, ys', g, htot, hrel, hc, hp, hk, hk', hnew => by
    simp only [saveBatches] at hv
    split at hv
    · rename_i hb
      have hb : b = [] := List.length_eq_zero_iff.1 hb
      subst hb
      exact batches_sim hs hK short hn hf hH0 st bl bs m e m' hv H memo ys ys' g (by simpa using htot) hrel hc hp hk hk' hnew
    · obtain ⟨⟨e1, m1⟩, h1, hv⟩ := ok_bind hv
      obtain ⟨⟨e2, m2⟩, h2, hv⟩ := ok_bind hv
      -- whichever way the batch is written, it ends with the items added
      have key : ∃ H1 memo1 xs', m <+: m1 ∧ memo <+: memo1 ∧ H <+: H1 ∧ Good h m1 H1 memo1 ∧
          (∀ i, m.length ≤ i → i < m1.length → Complete h m1 H1 memo1 i) ∧
          List.Forall₂ (K.rel (Memo m1 memo1)) (ys ++ b) (ys' ++ xs') ∧
          runOps (opsOf e) ⟨H, memo, .obj c :: st, bl⟩ =
            runOps (opsOf e2) ⟨H1.set c (K.node (ys' ++ xs')), memo1, .obj c :: st, bl⟩ ∧ m2 = m' := by
        split at hv
        · rename_i hone
          simp only [Except.ok.injEq, Prod.mk.injEq] at hv
          obtain ⟨rfl, rfl⟩ := hv
          obtain ⟨x, rfl⟩ := List.length_eq_one_iff.1 hone.1
          obtain ⟨H1, memo1, rs', q1, q2, q3⟩ := saveAll_sim hs _ m e1 m1 h1 H memo (.obj c :: st) bl g
          obtain ⟨xs', rfl, hxs⟩ := hK.split _ _ _ q3
          obtain ⟨x', rfl⟩ : ∃ x', xs' = [x'] := by
            rcases hxs with _ | ⟨_, hx⟩
            cases hx; exact ⟨_, rfl⟩
          have hrel1 := List.rel_append (rel_mono q2.rel hrel) hxs
          refine ⟨H1, memo1, [x'], q2.pm, q2.pmemo, q2.heap, q2.good, q2.new, hrel1, ?_, rfl⟩
          rw [List.append_assoc, opsOf_append, runOps_ok q1, opsOf_append]
          refine runOps_cons ?_
          have := hK.putOne q2.good ys x ys' x' c st bl (by rw [← htot]; simp) hrel1 (prefix_get q2.heap hc)
          simpa using this
        · simp only [Except.ok.injEq, Prod.mk.injEq] at hv
          obtain ⟨rfl, rfl⟩ := hv
          obtain ⟨H1, memo1, rs', q1, q2, q3⟩ := saveAll_sim hs _ m e1 m1 h1 H memo [] ((.obj c :: st) :: bl) g
          obtain ⟨xs', rfl, hxs⟩ := hK.split _ _ _ q3
          have hrel1 := List.rel_append (rel_mono q2.rel hrel) hxs
          refine ⟨H1, memo1, xs', q2.pm, q2.pmemo, q2.heap, q2.good, q2.new, hrel1, ?_, rfl⟩
          rw [List.append_assoc, List.append_assoc]
          refine (runOps_cons (o := .mark) (M' := ⟨H, memo, [], (.obj c :: st) :: bl⟩) rfl).trans ?_
          show runOps (opsOf (e1 ++ _)) _ = _
          rw [opsOf_append, runOps_ok q1, opsOf_append]
          refine runOps_cons ?_
          have := hK.putMany q2.good ys b ys' xs' c st bl (by rw [← htot]; simp) hrel1 (prefix_get q2.heap hc)
          simpa using this
      obtain ⟨H1, memo1, xs', p1, p2, p3, p4, p5, p6, p7, rfl⟩ := key
      have hk1 := prefix_get p1 hk
      have hk1' := prefix_get p2 hk'
      have hlt : c < H1.length := by
        obtain ⟨b', e', hb'⟩ := p4.objs _ (List.mem_of_getElem? hk1')
        cases e'; exact hb'
      obtain ⟨H2, memo2, zs', r1, r2, r3, r4, r5, r6, r7, r8⟩ := batches_sim hs hK short hn hf hH0 st bl bs m1 e2 m2 h2
        (H1.set c (K.node (ys' ++ xs'))) memo1 (ys ++ b) (ys' ++ xs')
        (good_set p4 hk1 hk1' hn hf (hK.thawed _)) (by simpa using htot) p6 (by rw [List.getElem?_set]; simp [hlt])
        (prefix_set (hp.trans p3) hH0 _) hk1 hk1' (fun i hi hi' => by
          refine complete_set p4 hk1' _ (by omega) ?_
          by_cases hm : i < m.length
          · exact (hnew i hi hm).mono p1 p2 p3
          · exact p5 i (by omega) hi')
      exact ⟨H2, memo2, zs', by rw [p7, r1], r2, r3, r4, r5, p1.trans r6, p2.trans r7, r8⟩

/-! ## the kinds -/

def listKind : Kind PRef := ⟨fun x => [x], .list, .append, .appends⟩
def dictKind : Kind (PRef × PRef) := ⟨fun p => [p.1, p.2], .dict, .setitem, .setitems⟩

theorem flatMap_single (l : List PRef) : l.flatMap (fun x => [x]) = l := by
  induction l with
  | nil => rfl
  | cons _ _ ih => simp [ih]

theorem listKind_ok (h : PHeap) (xs : List PRef) : KindOK h listKind xs where
  thawed _ := id
  split R xs ys hx := by
    simp only [listKind, flatMap_single] at hx ⊢
    exact ⟨ys, rfl, hx.imp fun _ _ p => .cons p .nil⟩
  putMany g ys xs ys' xs' c st bl hp hr hc := by
    simp only [listKind, flatMap_single] at hc ⊢
    simp only [stepP, PM.extend, hc, List.reverse_reverse]
  putOne g ys x ys' x' c st bl hp hr hc := by
    simp only [listKind] at hc ⊢
    simp only [List.reverse_singleton, List.singleton_append, stepP, PM.extend, hc]

theorem dictPut_new {H : PHeap} {kvs : List (PRef × PRef)} {k v : PRef} {t : List KeyTok} (hk : keyOf H k = some t)
    (hn : ∀ p ∈ kvs, keyOf H p.1 ≠ some t) : dictPut H kvs k v = .ok (kvs ++ [(k, v)]) := by
  simp only [dictPut, hk]
  rw [if_neg]
  intro ha
  obtain ⟨p, hp, he⟩ := List.any_eq_true.1 ha
  exact hn p hp (by simpa using he)

theorem dictPutAll_new {H : PHeap} : ∀ (xs kvs : List (PRef × PRef)), (∀ p ∈ xs, keyOf H p.1 ≠ none) →
    (kvs ++ xs).Pairwise (fun p q => keyOf H p.1 ≠ keyOf H q.1) →
    dictPutAll H kvs (xs.flatMap fun p => [p.1, p.2]) = .ok (kvs ++ xs)
  | [], kvs, _, _ => by simp [dictPutAll]
  | (k, v) :: xs, kvs, h1, h2 => by
    obtain ⟨t, ht⟩ := Option.ne_none_iff_exists'.1 (h1 (k, v) (by simp))
    have e : dictPut H kvs k v = .ok (kvs ++ [(k, v)]) := dictPut_new ht fun p hp he => by
      have := (List.pairwise_append.1 h2).2.2 p hp (k, v) (by simp)
      exact this (he.trans ht.symm)
    show (dictPut H kvs k v >>= fun kvs => dictPutAll H kvs (xs.flatMap fun p => [p.1, p.2])) = _
    rw [e]
    show dictPutAll H (kvs ++ [(k, v)]) _ = _
    rw [dictPutAll_new xs (kvs ++ [(k, v)]) (fun p hp => h1 p (by simp [hp])) (by simpa using h2)]
    simp

/-- the keys on the other side -/
theorem keys_fresh {h : PHeap} {m : List Nat} {memo : List PRef} {H : PHeap} (g : Good h m H memo)
    {total xs xs' : List (PRef × PRef)} (hok : NodeOK h (.dict total)) (hp : xs <+: total)
    (hr : List.Forall₂ (dictKind.rel (Memo m memo)) xs xs') :
    (∀ p ∈ xs', keyOf H p.1 ≠ none) ∧ xs'.Pairwise (fun p q => keyOf H p.1 ≠ keyOf H q.1) := by
  obtain ⟨hk, hd⟩ := hok
  have hk1 : ∀ p ∈ xs, ∃ k, IsKey h p.1 k := fun p hp' => hk p (hp.subset hp')
  have hd1 := hd.sublist hp.sublist
  clear hk hd hp
  have tr : ∀ p p' k, dictKind.rel (Memo m memo) p p' → IsKey h p.1 k → keyOf H p'.1 = some k := by
    intro p p' k hpp hk
    cases hpp with
    | cons h1 _ => exact key_found g hk h1
  induction hr with
  | nil => exact ⟨by simp, .nil⟩
  | cons hx hxs ih =>
    rename_i p p' l l'
    obtain ⟨i1, i2⟩ := ih (fun q hq => hk1 q (by simp [hq])) (List.pairwise_cons.1 hd1).2
    obtain ⟨k, hkp⟩ := hk1 p (by simp)
    have e := tr p p' k hx hkp
    refine ⟨fun q hq => ?_, List.pairwise_cons.2 ⟨fun q' hq' => ?_, i2⟩⟩
    · rcases List.mem_cons.1 hq with rfl | hq
      · rw [e]; simp
      · exact i1 q hq
    · obtain ⟨q, hq, hqq⟩ : ∃ q ∈ l, dictKind.rel (Memo m memo) q q' := by
        clear ih i1 i2 hk1 hd1
        induction hxs with
        | nil => cases hq'
        | cons h1 _ ih =>
          rcases List.mem_cons.1 hq' with rfl | hq'
          · exact ⟨_, by simp, h1⟩
          · obtain ⟨q, h2, h3⟩ := ih hq'
            exact ⟨q, by simp [h2], h3⟩
      obtain ⟨k2, hk2⟩ := hk1 q (by simp [hq])
      rw [e, tr q q' k2 hqq hk2]
      have := (List.pairwise_cons.1 hd1).1 q hq k k2 hkp hk2
      simpa using this

theorem dictKind_ok {h : PHeap} {kvs : List (PRef × PRef)} (hok : NodeOK h (.dict kvs)) : KindOK h dictKind kvs where
  thawed _ := id
  split R xs ys hx := by
    simp only [dictKind] at hx ⊢
    induction xs generalizing ys with
    | nil => cases hx; exact ⟨[], rfl, .nil⟩
    | cons p xs ih =>
      obtain ⟨k, v⟩ := p
      simp only [List.flatMap_cons, List.cons_append, List.nil_append] at hx
      cases hx with
      | cons h1 hx =>
        cases hx with
        | cons h2 hx =>
          obtain ⟨xs', rfl, hr⟩ := ih _ hx
          exact ⟨(_, _) :: xs', rfl, .cons (.cons h1 (.cons h2 .nil)) hr⟩
  putMany {m H memo} g ys xs ys' xs' c st bl hp hr hc := by
    obtain ⟨h1, h2⟩ := keys_fresh g hok hp hr
    simp only [dictKind] at hc ⊢
    simp only [stepP, PM.update, hc, List.reverse_reverse]
    rw [dictPutAll_new xs' ys' (fun p hp => h1 p (by simp [hp])) h2]
    rfl
  putOne {m H memo} g ys x ys' x' c st bl hp hr hc := by
    obtain ⟨h1, h2⟩ := keys_fresh g hok hp hr
    have e := dictPutAll_new [x'] ys' (fun p hp => h1 p (by simp at hp; simp [hp])) h2
    simp only [List.flatMap_cons, List.flatMap_nil, List.append_nil] at e
    simp only [dictKind] at hc ⊢
    show stepP .setitem ⟨H, memo, x'.2 :: x'.1 :: .obj c :: st, bl⟩ = _
    simp only [stepP, PM.update, hc]
    rw [e]
    rfl

theorem batches_flatten {α : Type} : ∀ (f : Nat) (xs : List α), xs.length < f → (batches f xs).flatten = xs
  | 0, _, h => by omega
  | f + 1, xs, h => by
    simp only [batches]
    split
    · simp
    · rename_i hb
      rw [List.flatten_cons, batches_flatten f _ (by rw [List.length_drop]; unfold batchSize at hb ⊢; omega),
        List.take_append_drop]

/-! ## `save` -/

/-- a list or dict is started, filled and complete -/
theorem container_sim {α : Type} {h : PHeap} {sv : PRef → List Nat → Except PyErr (List PEv × List Nat)} (hs : SaveSim h sv)
    {K : Kind α} {total : List α} (hK : KindOK h K total) (short : Bool) {a : Nat} (hn : h[a]? = some (K.node total))
    (hrel : ∀ R zs, List.Forall₂ (K.rel R) total zs → NodeRel R (K.node total) (K.node zs))
    {m : List Nat} (ha : a ∉ m) {e : List PEv} {m' : List Nat}
    (hv : saveBatches sv K.refs K.one K.many short (batches (total.length + 1) total) (m ++ [a]) = .ok (e, m'))
    {H : PHeap} {memo : List PRef} (st : List PRef) (bl : List (List PRef)) (g : Good h m H memo) {start : POp}
    (hstart : stepP start ⟨H, memo, st, bl⟩ = .ok ⟨H ++ [K.node []], memo, .obj H.length :: st, bl⟩) :
    ∃ H' memo', runOps (start :: .memoize :: opsOf e) ⟨H, memo, st, bl⟩ = .ok ⟨H', memo', .obj H.length :: st, bl⟩ ∧
      Ext h m H memo m' H' memo' ∧ Memo m' memo' a H.length := by
  have g1 : Good h (m ++ [a]) (H ++ [K.node []]) (memo ++ [.obj H.length]) :=
    good_push g ha hn (fun hf => absurd hf (hK.thawed _)) fun xs hx => by
      exact absurd (by rw [hx]; trivial : Frozen (K.node [])) (hK.thawed _)
  obtain ⟨H', memo', zs', r1, r2, r3, r4, r5, r6, r7, r8⟩ := batches_sim hs hK short (k0 := m.length) (a0 := a) (c := H.length) hn
    (hK.thawed _) (H0 := H) (Nat.le_refl _) st bl _ _ e m' hv (H ++ [K.node []]) (memo ++ [.obj H.length]) [] [] g1
    (by simp [batches_flatten]) .nil (by simp) (List.prefix_append _ _) (by simp) (by rw [← g.len]; simp)
    (fun i h1 h2 => absurd h2 (by simp; omega))
  have hm : Memo m' memo' a H.length := Memo.mono r6 r7 (memo_push g.len a H.length)
  refine ⟨H', memo', ?_, ⟨(List.prefix_append _ _).trans r6, (List.prefix_append _ _).trans r7, r5, r2, fun i h1 h2 => ?_⟩, hm⟩
  · rw [runOps_cons hstart]
    exact (runOps_cons (M' := ⟨H ++ [K.node []], memo ++ [.obj H.length], .obj H.length :: st, bl⟩) rfl).trans r1
  · by_cases hi : i = m.length
    · subst hi
      exact ⟨a, H.length, _, _, prefix_get r6 (by simp), prefix_get r7 (by rw [← g.len]; simp), hn, r4, hrel _ _ r3⟩
    · exact r8 i (by omega) h2

theorem pops {H : PHeap} {memo : List PRef} {bl : List (List PRef)} : ∀ (xs st : List PRef) (rest : List POp),
    runOps (List.replicate xs.length .pop ++ rest) ⟨H, memo, xs ++ st, bl⟩ = runOps rest ⟨H, memo, st, bl⟩
  | [], st, rest => rfl
  | x :: xs, st, rest => by
    rw [List.length_cons, List.replicate_succ, List.cons_append]
    exact (runOps_cons (M' := ⟨H, memo, xs ++ st, bl⟩) rfl).trans (pops xs st rest)

theorem opsOf_pops (n : Nat) : opsOf (List.replicate n (.op .pop)) = List.replicate n .pop := by
  induction n with
  | zero => rfl
  | succ n ih => rw [List.replicate_succ, List.replicate_succ, opsOf_op, ih]

/-- elements on the other side lie before the tuple -/
theorem elems_lt {h : PHeap} {m : List Nat} {memo : List PRef} {H : PHeap} (g : Good h m H memo) {xs ys : List PRef}
    (hx : List.Forall₂ (RefRel (Memo m memo)) xs ys) : ∀ c, .obj c ∈ ys → c < H.length := by
  intro c hc
  induction hx with
  | nil => cases hc
  | cons h1 _ ih =>
    rcases List.mem_cons.1 hc with rfl | hc
    · cases h1 with
      | obj hm => exact ref_lt g hm
    · exact ih hc

theorem save_sim {h : PHeap} (hok : HeapOK h) (short : Nat → Bool) : ∀ n, SaveSim h (save short h n)
  | 0 => fun r m e m' hv => by simp [save] at hv
  | n + 1 => by
    have ih := save_sim hok short n
    intro r m e m' hv H memo st bl g
    cases r with
    | none =>
      simp only [save, Except.ok.injEq, Prod.mk.injEq] at hv
      obtain ⟨rfl, rfl⟩ := hv
      exact ⟨H, memo, _, rfl, Ext.refl g, .none⟩
    | bool b =>
      simp only [save, Except.ok.injEq, Prod.mk.injEq] at hv
      obtain ⟨rfl, rfl⟩ := hv
      exact ⟨H, memo, _, rfl, Ext.refl g, .bool b⟩
    | int i =>
      simp only [save, Except.ok.injEq, Prod.mk.injEq] at hv
      obtain ⟨rfl, rfl⟩ := hv
      exact ⟨H, memo, _, rfl, Ext.refl g, .int i⟩
    | float x =>
      simp only [save, Except.ok.injEq, Prod.mk.injEq] at hv
      obtain ⟨rfl, rfl⟩ := hv
      exact ⟨H, memo, _, rfl, Ext.refl g, .float x⟩
    | unit =>
      simp only [save, Except.ok.injEq, Prod.mk.injEq] at hv
      obtain ⟨rfl, rfl⟩ := hv
      exact ⟨H, memo, _, rfl, Ext.refl g, .unit⟩
    | obj a =>
      simp only [save] at hv
      split at hv
      · rename_i ha
        simp only [Except.ok.injEq, Prod.mk.injEq] at hv
        obtain ⟨rfl, rfl⟩ := hv
        obtain ⟨b, hb, hm⟩ := memo_get g ha
        refine ⟨H, memo, .obj b, ?_, Ext.refl g, .obj hm⟩
        show runOps [.get (m.idxOf a)] _ = _
        refine (runOps_cons (M' := ⟨H, memo, .obj b :: st, bl⟩) ?_).trans rfl
        simp only [stepP, hb]
      · rename_i ha
        cases hn : h[a]? with
        | none => rw [hn] at hv; cases hv
        | some nd =>
          rw [hn] at hv
          cases nd with
          | str s =>
            simp only [Except.ok.injEq, Prod.mk.injEq] at hv
            obtain ⟨rfl, rfl⟩ := hv
            exact ⟨H ++ [.str s], memo ++ [.obj H.length], .obj H.length, rfl, ext_push g ha hn (.str s) (fun xs e => by cases e),
              .obj (memo_push g.len a _)⟩
          | bytes s =>
            simp only [Except.ok.injEq, Prod.mk.injEq] at hv
            obtain ⟨rfl, rfl⟩ := hv
            exact ⟨H ++ [.bytes s], memo ++ [.obj H.length], .obj H.length, rfl,
              ext_push g ha hn (.bytes s) (fun xs e => by cases e), .obj (memo_push g.len a _)⟩
          | list xs =>
            simp only at hv
            obtain ⟨⟨e1, m1⟩, h1, hv⟩ := ok_bind hv
            simp only [Except.ok.injEq, Prod.mk.injEq] at hv
            obtain ⟨rfl, rfl⟩ := hv
            obtain ⟨H', memo', q1, q2, q3⟩ := container_sim ih (K := listKind) (listKind_ok h xs) (short xs.length) hn
              (fun R zs hz => .list (hz.imp fun _ _ p => by cases p; assumption)) ha h1 st bl g (start := .emptyList) rfl
            exact ⟨H', memo', .obj H.length, q1, q2, .obj q3⟩
          | dict kvs =>
            simp only at hv
            obtain ⟨⟨e1, m1⟩, h1, hv⟩ := ok_bind hv
            simp only [Except.ok.injEq, Prod.mk.injEq] at hv
            obtain ⟨rfl, rfl⟩ := hv
            obtain ⟨H', memo', q1, q2, q3⟩ := container_sim ih (K := dictKind) (dictKind_ok (hok a _ hn)) (short kvs.length) hn
              (fun R zs hz => .dict (hz.imp fun _ _ p => by
                cases p with
                | cons h1 h2 => cases h2 with
                  | cons h2 _ => exact ⟨h1, h2⟩)) ha h1 st bl g (start := .emptyDict) rfl
            exact ⟨H', memo', .obj H.length, q1, q2, .obj q3⟩
          | tuple xs =>
            have hne : xs ≠ [] := hok a _ hn
            simp only at hv
            obtain ⟨⟨e1, m1⟩, h1, hv⟩ := ok_bind hv
            simp only at hv
            split at hv
            · obtain ⟨H1, memo1, ys, q1, q2, q3⟩ := saveAll_sim ih xs m e1 m1 h1 H memo st bl g
              split at hv
              · rename_i ha1
                simp only [Except.ok.injEq, Prod.mk.injEq] at hv
                obtain ⟨rfl, rfl⟩ := hv
                obtain ⟨b, hb, hm⟩ := memo_get q2.good ha1
                refine ⟨H1, memo1, .obj b, ?_, q2, .obj hm⟩
                rw [List.append_assoc, List.append_assoc, opsOf_append, opsOf_append, opsOf_append, opsOf_pops]
                show runOps ([] ++ (opsOf e1 ++ _)) _ = _
                rw [List.nil_append, runOps_ok q1, q3.length_eq]
                have := pops (H := H1) (memo := memo1) (bl := bl) ys.reverse st [.get (m1.idxOf a)]
                rw [List.length_reverse] at this
                refine this.trans ((runOps_cons (M' := ⟨H1, memo1, .obj b :: st, bl⟩) ?_).trans rfl)
                simp only [stepP, hb]
              · rename_i ha1
                simp only [Except.ok.injEq, Prod.mk.injEq] at hv
                obtain ⟨rfl, rfl⟩ := hv
                refine ⟨H1 ++ [.tuple ys], memo1 ++ [.obj H1.length], .obj H1.length, ?_,
                  q2.trans (ext_push q2.good ha1 hn (.tuple q3) fun zs e => by cases e; exact elems_lt q2.good q3),
                  .obj (memo_push q2.good.len a _)⟩
                rw [List.append_assoc, opsOf_append, opsOf_append]
                show runOps ([] ++ (opsOf e1 ++ _)) _ = _
                rw [List.nil_append, runOps_ok q1]
                refine (runOps_cons (M' := ⟨H1 ++ [.tuple ys], memo1, .obj H1.length :: st, bl⟩) ?_).trans rfl
                have hl : xs.length = ys.reverse.length := by rw [q3.length_eq, List.length_reverse]
                have hx0 : 0 < xs.length := List.length_pos_iff.2 hne
                simp only [stepP]
                rw [if_neg (by simp [hl]; intro h0; subst h0; simp at hl; exact hne hl)]
                rw [hl, List.take_left, List.drop_left, List.reverse_reverse]
                rfl
            · obtain ⟨H1, memo1, ys, q1, q2, q3⟩ := saveAll_sim ih xs m e1 m1 h1 H memo [] (st :: bl) g
              rw [List.append_nil] at q1
              split at hv
              · rename_i ha1
                simp only [Except.ok.injEq, Prod.mk.injEq] at hv
                obtain ⟨rfl, rfl⟩ := hv
                obtain ⟨b, hb, hm⟩ := memo_get q2.good ha1
                refine ⟨H1, memo1, .obj b, ?_, q2, .obj hm⟩
                rw [List.append_assoc, opsOf_append, opsOf_append]
                refine (runOps_cons (o := .mark) (M' := ⟨H, memo, [], st :: bl⟩) rfl).trans ?_
                show runOps (opsOf e1 ++ _) _ = _
                rw [runOps_ok q1]
                refine (runOps_cons (o := .popMark) (M' := ⟨H1, memo1, st, bl⟩) rfl).trans ?_
                refine (runOps_cons (M' := ⟨H1, memo1, .obj b :: st, bl⟩) ?_).trans rfl
                simp only [stepP, hb]
              · rename_i ha1
                simp only [Except.ok.injEq, Prod.mk.injEq] at hv
                obtain ⟨rfl, rfl⟩ := hv
                refine ⟨H1 ++ [.tuple ys], memo1 ++ [.obj H1.length], .obj H1.length, ?_,
                  q2.trans (ext_push q2.good ha1 hn (.tuple q3) fun zs e => by cases e; exact elems_lt q2.good q3),
                  .obj (memo_push q2.good.len a _)⟩
                rw [List.append_assoc, opsOf_append, opsOf_append]
                refine (runOps_cons (o := .mark) (M' := ⟨H, memo, [], st :: bl⟩) rfl).trans ?_
                show runOps (opsOf e1 ++ _) _ = _
                rw [runOps_ok q1]
                refine (runOps_cons (M' := ⟨H1 ++ [.tuple ys], memo1, .obj H1.length :: st, bl⟩) ?_).trans rfl
                have hy : ys.reverse ≠ [] := by
                  intro h0
                  have := q3.length_eq
                  rw [← List.length_reverse (as := ys), h0] at this
                  exact hne (List.length_eq_zero_iff.1 this)
                simp only [stepP, PM.alloc]
                rw [if_neg hy, List.reverse_reverse]

/-- the value built by the opcodes of `save` -/
theorem save_graph {h : PHeap} (hok : HeapOK h) (short : Nat → Bool) {lim : Nat} {r : PRef} {e : List PEv} {m : List Nat}
    (hv : save short h lim r [] = .ok (e, m)) :
    ∃ H memo r', runOps (opsOf e) ⟨[], [], [], []⟩ = .ok ⟨H, memo, [r'], []⟩ ∧ SameGraph h r H r' := by
  have g0 : Good h [] [] [] := ⟨rfl, .nil, .nil, by simp, by simp, by simp⟩
  obtain ⟨H, memo, r', q1, q2, q3⟩ := save_sim hok short lim r [] e m hv [] [] [] [] g0
  refine ⟨H, memo, r', q1, Memo m memo, fun _ _ _ => memo_fun q2.good, fun _ _ _ => memo_inj q2.good, q3, ?_⟩
  rintro a b ⟨i, hi, hi'⟩
  obtain ⟨a', b', n, n', p1, p2, p3, p4, p5⟩ := q2.new i (by simp) (List.getElem?_eq_some_iff.1 hi).1
  rw [hi] at p1; cases p1
  rw [hi'] at p2; cases p2
  exact ⟨n, n', p3, p4, p5⟩

end Verif.Lemmas.Pickle
