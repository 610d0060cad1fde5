import Mathlib.Data.List.Forall2
import Verif.Model.RandomNest
import Verif.Spec.RandomNest
import Verif.Props.Nesting
import Verif.Props.Edit
/-!
# Lemmas for `random_nested_dict`
-/
set_option linter.unusedSectionVars false
namespace Verif.Lemmas
open Verif Verif.Model Verif.Spec Verif.Props
variable {A : Type} [DecidableEq A]

theorem lookupPath_append (p q : List A) : ∀ v : Val A,
    lookupPath (p ++ q) v = (lookupPath p v).bind (lookupPath q) := by
  induction p with
  | nil => intro v; rfl
  | cons k ks ih =>
    intro v
    cases v with
    | atom a => rfl
    | map t l =>
      simp only [List.cons_append, lookupPath]
      cases Dict.get? l k with
      | none => rfl
      | some w => exact ih w

/-- after reading a path, the value read is found there -/
theorem getPath_lookup (ks : List A) : ∀ (d v d' : Val A), getPathND ks d = .ok (v, d') →
    lookupPath ks d' = some v := by
  induction ks with
  | nil => intro d v d' h; simp only [getPathND, Except.ok.injEq, Prod.mk.injEq] at h; simp [lookupPath, h.2.symm, h.1]
  | cons k ks ih =>
    intro d v d' h
    obtain ⟨sub, t, l', sub', hg, hs, rfl⟩ := getPathND_cons h
    simp only [lookupPath, Dict.get?_set_self]
    exact ih _ _ _ hs

/-- looking up in the dict that a lookup of the same key has left -/
theorem getItem_again {k : A} {t : Tag} {l : List (A × Val A)} {w : Val A} (h : Dict.get? l k = some w) :
    getItemND k (.map t l) = .ok (w, .map t l) := by simp [getItemND, h]

/-- reading first along a path changes nothing for a later assignment below it -/
theorem get_then_set (ks : List A) : ∀ (d v d' : Val A), getPathND ks d = .ok (v, d') →
    ∀ q w, q ≠ [] → setPathND (ks ++ q) w d' = setPathND (ks ++ q) w d := by
  induction ks with
  | nil =>
    intro d v d' h q w hq
    simp only [getPathND, Except.ok.injEq, Prod.mk.injEq] at h
    rw [← h.2]
  | cons k ks ih =>
    intro d v d' h q w hq
    obtain ⟨sub, t, l', sub', hg, hs, rfl⟩ := getPathND_cons h
    have hi := ih _ _ _ hs q w hq
    obtain ⟨k', r, hkr⟩ : ∃ k' r, ks ++ q = k' :: r := by
      cases hc : ks ++ q with
      | nil => simp at hc; exact absurd hc.2 hq
      | cons a b => exact ⟨a, b, rfl⟩
    rw [hkr] at hi
    rw [List.cons_append, hkr]
    simp only [setPathND, bind, Except.bind, getItem_again (Dict.get?_set_self l' k sub'), hg, hi]
    cases setPathND (k' :: r) w sub with
    | error e => rfl
    | ok x => simp [dict_set_set]

/-- reading first along a path changes nothing for a later read below it -/
theorem get_then_get (ks : List A) : ∀ (d v d' : Val A), getPathND ks d = .ok (v, d') →
    ∀ q, getPathND (ks ++ q) d' = getPathND (ks ++ q) d := by
  induction ks with
  | nil =>
    intro d v d' h q
    simp only [getPathND, Except.ok.injEq, Prod.mk.injEq] at h
    rw [← h.2]
  | cons k ks ih =>
    intro d v d' h q
    obtain ⟨sub, t, l', sub', hg, hs, rfl⟩ := getPathND_cons h
    have hi := ih _ _ _ hs q
    simp only [List.cons_append, getPathND, bind, Except.bind, getItem_again (Dict.get?_set_self l' k sub'), hg, hi]
    cases getPathND (ks ++ q) sub with
    | error e => rfl
    | ok x => simp [dict_set_set]

/-- what an assignment does to a level on its way -/
theorem set_prefix (ks : List A) (v : Val A) : ∀ (d d' : Val A), setPathND ks v d = .ok d' →
    ∀ p k rest, ks = p ++ k :: rest → ∃ t l w, lookupPath p d' = some (.map t (Dict.set l k w)) ∧
      ((lookupPath p d = none ∧ t = .nesting ∧ l = []) ∨ lookupPath p d = some (.map t l)) := by
  induction ks with
  | nil => intro d d' _ p k rest h; simp at h
  | cons k0 ks ih =>
    intro d d' h p k rest he
    cases ks with
    | nil =>
      cases d with
      | atom a => simp [setPathND] at h
      | map t l =>
        simp only [setPathND, Except.ok.injEq] at h
        subst h
        cases p with
        | nil =>
          simp only [List.nil_append, List.cons.injEq] at he
          obtain ⟨rfl, _⟩ := he
          exact ⟨t, l, v, rfl, Or.inr rfl⟩
        | cons a b => simp at he
    | cons k1 ks =>
      obtain ⟨sub, t, l', sub', hg, hs, rfl⟩ := setPathND_cons h
      obtain ⟨t1, l, l1, rfl, he1, hl1, hne, hcase⟩ := getItemND_ok hg
      cases he1
      cases p with
      | nil =>
        simp only [List.nil_append, List.cons.injEq] at he
        obtain ⟨rfl, _⟩ := he
        refine ⟨t, l, sub', ?_, Or.inr rfl⟩
        simp only [lookupPath, Option.some.injEq, Val.map.injEq, true_and]
        rcases hcase with ⟨_, rfl⟩ | ⟨_, _, _, rfl⟩
        · rfl
        · rw [dict_set_set]
      | cons a b =>
        simp only [List.cons_append, List.cons.injEq] at he
        obtain ⟨rfl, he⟩ := he
        obtain ⟨t', l2, w, h1, h2⟩ := ih sub sub' hs b k rest he
        refine ⟨t', l2, w, by simpa only [lookupPath, Dict.get?_set_self] using h1, ?_⟩
        rcases hcase with ⟨hgl, rfl⟩ | ⟨hgl, ht, rfl, rfl⟩
        · simpa [lookupPath, hgl] using h2
        · left
          simp only [lookupPath, hgl, true_and]
          cases b with
          | nil =>
            simp only [lookupPath, Option.some.injEq, Val.map.injEq, reduceCtorEq, false_and, false_or] at h2
            exact ⟨h2.1.symm, h2.2.symm⟩
          | cons b0 bs =>
            simp only [lookupPath, Dict.get?_nil, true_and, reduceCtorEq, or_false] at h2
            exact h2

theorem depthItems_set (l : List (A × Val A)) (k : A) (v : Val A) :
    Val.depthItems (Dict.set l k v) ≤ max (Val.depthItems l) v.depth := by
  induction l with
  | nil => simp [Dict.set, Val.depthItems]
  | cons x r ih =>
    obtain ⟨k', v'⟩ := x
    simp only [Dict.set]
    split
    · simp only [Val.depthItems]; omega
    · simp only [Val.depthItems]; omega

theorem depth_set (ks : List A) (v : Val A) : ∀ (d d' : Val A), setPathND ks v d = .ok d' →
    d'.depth ≤ max d.depth (ks.length + v.depth) := by
  induction ks with
  | nil => intro d d' h; simp only [setPathND, Except.ok.injEq] at h; subst h; omega
  | cons k0 ks ih =>
    intro d d' h
    cases ks with
    | nil =>
      cases d with
      | atom a => simp [setPathND] at h
      | map t l =>
        simp only [setPathND, Except.ok.injEq] at h
        subst h
        have := depthItems_set l k0 v
        simp only [Val.depth, List.length_cons, List.length_nil]; omega
    | cons k1 ks =>
      obtain ⟨sub, t, l', sub', hg, hs, rfl⟩ := setPathND_cons h
      have hd := ih _ _ hs
      obtain ⟨t1, l, l1, rfl, he1, hl1, hne, hcase⟩ := getItemND_ok hg
      cases he1
      rcases hcase with ⟨hgl, rfl⟩ | ⟨hgl, ht, rfl, rfl⟩
      · have h1 := depthItems_set l' k0 sub'
        have h2 := Val.depth_le_depthItems (Dict.mem_of_get? hgl)
        simp only [Val.depth, List.length_cons] at hd ⊢; omega
      · rw [dict_set_set]
        have h1 := depthItems_set l k0 sub'
        simp only [Val.depth, Val.depthItems, List.length_cons] at hd ⊢; omega

/-! ### the state of the dictionary after some writes -/

/-- the dictionary after the writes `W`: `maxdepth` bounds its depth, `K` holds of all keys -/
structure NestInv (n : Nat) (K : A → Prop) (d : Val A) (W : List (List A × A)) : Prop where
  top : ∃ l, d = .map .nesting l
  leaf : ∀ p a, lookupPath p d = some (.atom a) ↔ LastWrite W p a
  level : ∀ p t l, lookupPath p d = some (.map t l) → t = .nesting ∧ Dict.WF l ∧ (p ≠ [] → l ≠ [])
  keys : ∀ p u, lookupPath p d = some u → ∀ k ∈ p, K k
  depth : d.depth ≤ n

theorem lastWrite_snoc (W : List (List A × A)) (ks : List A) (a : A) (p : List A) (b : A) :
    LastWrite (W ++ [(ks, a)]) p b ↔ (p = ks ∧ b = a) ∨ (LastWrite W p b ∧ ¬ ks <+: p) := by
  constructor
  · rintro ⟨i, hi, hj⟩
    by_cases h : i < W.length
    · right
      rw [List.getElem?_append_left h] at hi
      refine ⟨⟨i, hi, ?_⟩, hj W.length ks a h (by simp)⟩
      intro j q b' hij hjw
      have hjl : j < W.length := by
        by_contra hc
        rw [List.getElem?_eq_none (by omega)] at hjw; cases hjw
      exact hj j q b' hij (by rw [List.getElem?_append_left hjl]; exact hjw)
    · left
      rw [List.getElem?_append_right (by omega)] at hi
      have : i - W.length = 0 := by
        by_contra hc
        rw [List.getElem?_eq_none (by simp; omega)] at hi; cases hi
      rw [this] at hi
      simp only [List.getElem?_cons_zero, Option.some.injEq, Prod.mk.injEq] at hi
      exact ⟨hi.1.symm, hi.2.symm⟩
  · rintro (⟨rfl, rfl⟩ | ⟨⟨i, hi, hj⟩, hn⟩)
    · refine ⟨W.length, by simp, ?_⟩
      intro j q b' hij hjw
      rw [List.getElem?_eq_none (by simp; omega)] at hjw; cases hjw
    · have hl : i < W.length := by
        by_contra hc
        rw [List.getElem?_eq_none (by omega)] at hi; cases hi
      refine ⟨i, by rw [List.getElem?_append_left hl]; exact hi, ?_⟩
      intro j q b' hij hjw
      by_cases h : j < W.length
      · rw [List.getElem?_append_left h] at hjw
        exact hj j q b' hij hjw
      · rw [List.getElem?_append_right (by omega)] at hjw
        have : j - W.length = 0 := by
          by_contra hc
          rw [List.getElem?_eq_none (by simp; omega)] at hjw; cases hjw
        rw [this] at hjw
        simp only [List.getElem?_cons_zero, Option.some.injEq, Prod.mk.injEq] at hjw
        rw [← hjw.1]; exact hn

/-- how a path lies with respect to another -/
theorem path_cases (ks p : List A) :
    p = ks ∨ Incomparable ks p ∨ (∃ k rest, ks = p ++ k :: rest) ∨ (∃ k rest, p = ks ++ k :: rest) := by
  by_cases h1 : ks <+: p
  · obtain ⟨r, hr⟩ := h1
    cases r with
    | nil => left; simpa using hr.symm
    | cons k rest => right; right; right; exact ⟨k, rest, hr.symm⟩
  · by_cases h2 : p <+: ks
    · obtain ⟨r, hr⟩ := h2
      cases r with
      | nil => exact absurd ⟨[], by simpa using hr.symm⟩ h1
      | cons k rest => right; right; left; exact ⟨k, rest, hr.symm⟩
    · right; left; exact ⟨h1, h2⟩

theorem lookup_below_atom {ks : List A} {d : Val A} {a : A} (h : lookupPath ks d = some (.atom a)) (k : A)
    (rest : List A) : lookupPath (ks ++ k :: rest) d = none := by
  rw [lookupPath_append, h]; rfl

theorem dict_set_ne_nil {κ α : Type} [DecidableEq κ] (l : Dict κ α) (k : κ) (v : α) : Dict.set l k v ≠ [] := by
  intro h
  have := Dict.get?_set_self l k v
  rw [h] at this; cases this

theorem nestInv_set {n : Nat} {K : A → Prop} {d d' : Val A} {W : List (List A × A)} (hi : NestInv n K d W)
    {ks : List A} {a : A} (hks : ks ≠ []) (hl : ks.length ≤ n) (hK : ∀ k ∈ ks, K k)
    (h : setPathND ks (.atom a) d = .ok d') : NestInv n K d' (W ++ [(ks, a)]) := by
  obtain ⟨hw, _, hinc⟩ := C03_write_read ks hks _ d d' h
  have hpre := set_prefix ks (.atom a) d d' h
  constructor
  · obtain ⟨k, r, rfl⟩ : ∃ k r, ks = k :: r := by
      cases ks with
      | nil => exact absurd rfl hks
      | cons k r => exact ⟨k, r, rfl⟩
    obtain ⟨t, l, w, h1, h2⟩ := hpre [] k r rfl
    obtain ⟨l0, rfl⟩ := hi.top
    simp only [lookupPath, Option.some.injEq, Val.map.injEq, reduceCtorEq, false_and, false_or] at h1 h2
    exact ⟨_, by rw [h1, ← h2.1]⟩
  · intro p b
    rw [lastWrite_snoc]
    rcases path_cases ks p with rfl | hc | ⟨k, rest, hc⟩ | ⟨k, rest, hc⟩
    · rw [hw]
      constructor
      · intro h; left; simpa using h.symm
      · rintro (⟨_, rfl⟩ | ⟨_, h⟩)
        · rfl
        · exact absurd (List.prefix_refl _) h
    · rw [hinc p hc, hi.leaf]
      constructor
      · intro h; exact Or.inr ⟨h, hc.1⟩
      · rintro (⟨rfl, _⟩ | ⟨h, _⟩)
        · exact absurd (List.prefix_refl _) hc.1
        · exact h
    · obtain ⟨t, l, w, h1, h2⟩ := hpre p k rest hc
      rw [h1]
      constructor
      · intro h; cases h
      · rintro (⟨rfl, _⟩ | ⟨h, _⟩)
        · simp at hc
        · rw [← hi.leaf] at h
          rcases h2 with ⟨h2, _⟩ | h2 <;> rw [h] at h2 <;> cases h2
    · rw [hc, lookup_below_atom hw]
      constructor
      · intro h; cases h
      · rintro (⟨h, _⟩ | ⟨_, h⟩)
        · simp at h
        · exact absurd (List.prefix_append _ _) h
  · intro p t l hp
    rcases path_cases ks p with rfl | hc | ⟨k, rest, hc⟩ | ⟨k, rest, hc⟩
    · rw [hw] at hp; cases hp
    · rw [hinc p hc] at hp; exact hi.level p t l hp
    · obtain ⟨t', l', w, h1, h2⟩ := hpre p k rest hc
      rw [h1] at hp
      cases hp
      rcases h2 with ⟨_, ht, rfl⟩ | h2
      · exact ⟨ht, Dict.wf_set Dict.wf_nil _ _, fun _ => dict_set_ne_nil _ _ _⟩
      · obtain ⟨ht, hwf, _⟩ := hi.level p t l' h2
        exact ⟨ht, Dict.wf_set hwf _ _, fun _ => dict_set_ne_nil _ _ _⟩
    · rw [hc, lookup_below_atom hw] at hp; cases hp
  · intro p u hp
    rcases path_cases ks p with rfl | hc | ⟨k, rest, hc⟩ | ⟨k, rest, hc⟩
    · exact hK
    · rw [hinc p hc] at hp; exact hi.keys p u hp
    · intro k' hk'; exact hK k' (by rw [hc]; simp [hk'])
    · rw [hc, lookup_below_atom hw] at hp; cases hp
  · have := depth_set ks (.atom a) d d' h
    have := hi.depth
    simp only [Val.depth] at *; omega

theorem nestInv_nil (n : Nat) (hn : 1 ≤ n) (K : A → Prop) : NestInv n K (.map .nesting []) [] := by
  constructor
  · exact ⟨[], rfl⟩
  · intro p a
    constructor
    · intro h; cases p <;> simp [lookupPath] at h
    · rintro ⟨i, hi, _⟩; simp at hi
  · intro p t l h
    cases p with
    | nil => simp only [lookupPath, Option.some.injEq, Val.map.injEq] at h; obtain ⟨rfl, rfl⟩ := h; exact ⟨rfl, Dict.wf_nil, by simp⟩
    | cons => simp [lookupPath] at h
  · intro p u h
    cases p with
    | nil => simp
    | cons => simp [lookupPath] at h
  · simpa [Val.depth, Val.depthItems] using hn

/-! ### one round -/

/-- reads and writes below `ks` have the same effect on `d` as on `d0` -/
def SameBelow (ks : List A) (d0 d : Val A) : Prop :=
  (∀ q, getPathND (ks ++ q) d = getPathND (ks ++ q) d0) ∧
    ∀ q w, q ≠ [] → setPathND (ks ++ q) w d = setPathND (ks ++ q) w d0

theorem SameBelow.mono {ks : List A} {d0 d : Val A} (h : SameBelow ks d0 d) (r : List A) :
    SameBelow (ks ++ r) d0 d := by
  refine ⟨fun q => ?_, fun q w hq => ?_⟩
  · rw [List.append_assoc]; exact h.1 _
  · rw [List.append_assoc]; exact h.2 _ _ (by simp [hq])

theorem SameBelow.read {ks : List A} {d0 d v d' : Val A} (h : SameBelow ks d0 d) (hr : getPathND ks d = .ok (v, d')) :
    SameBelow ks d0 d' :=
  ⟨fun q => (get_then_get ks d v d' hr q).trans (h.1 q),
   fun q w hq => (get_then_set ks d v d' hr q w hq).trans (h.2 q w hq)⟩

theorem SameBelow.refl (ks : List A) (d : Val A) : SameBelow ks d d := ⟨fun _ => rfl, fun _ _ _ => rfl⟩

theorem getIn_some {hash : A → Bool} {keys : List (Val A)} {d v d' : Val A} (h : getIn hash keys d = some (v, d')) :
    ∃ ks, keys.mapM (asKey hash) = some ks ∧ getPathND ks d = .ok (v, d') := by
  simp only [getIn] at h
  cases hk : keys.mapM (asKey hash) with
  | none => simp [hk] at h
  | some ks =>
    simp only [hk] at h
    cases hg : getPathND ks d with
    | error e => simp [hg] at h
    | ok r => simp only [hg, Option.some.injEq] at h; subst h; exact ⟨ks, rfl, hg⟩

theorem rngChoice_mem {α : Type} {l : List α} {ix : Nat} {x : α} (h : rngChoice l ix = .ok x) : x ∈ l := by
  simp only [rngChoice] at h
  cases hl : l[ix % l.length]? with
  | none => simp [hl] at h
  | some y =>
    simp only [hl, Except.ok.injEq] at h
    subst h
    exact List.mem_of_getElem? hl

/-- the nested levels among the items found at a path that was just read were there before -/
theorem nestkey_before {n : Nat} {K : A → Prop} {d0 : Val A} {W : List (List A × A)} (hi : NestInv n K d0 W)
    {ks : List A} {t : Tag} {items : List (A × Val A)} {d' : Val A} (hr : getPathND ks d0 = .ok (.map t items, d'))
    {k : A} (hk : k ∈ (items.filter fun kv => isNesting kv.2).map Prod.fst) :
    ∃ l, lookupPath (ks ++ [k]) d0 = some (.map .nesting l) := by
  obtain ⟨h1, h2, _⟩ := C03_read_creates_only_path ks d0 _ d' hr
  cases hl : lookupPath ks d0 with
  | none =>
    have := h2 hl
    simp only [Val.map.injEq] at this
    rw [this.2] at hk; simp at hk
  | some w =>
    obtain ⟨rfl, _⟩ := h1 w hl
    obtain ⟨_, hwf, _⟩ := hi.level ks t items hl
    obtain ⟨⟨k', v⟩, hm, rfl⟩ := List.mem_map.1 hk
    obtain ⟨hm, hv⟩ := List.mem_filter.1 hm
    have hg := Dict.get?_of_mem hwf hm
    rw [lookupPath_append, hl]
    simp only [Option.bind_some, lookupPath, hg]
    cases v with
    | atom a => simp [isNesting] at hv
    | map t' l' =>
      cases t' <;> simp [isNesting] at hv
      exact ⟨l', rfl⟩

theorem pickKey_spec {hash : A → Bool} {kt : List (Gen A)} {n : Nat} {K : A → Prop} {d0 d : Val A}
    {W : List (List A × A)} (hi : NestInv n K d0 W) {p : Pick} {keys : List (Val A)} {ks : List A} {k d' : Val A}
    (hks : keys.mapM (asKey hash) = some ks) (hs : SameBelow ks d0 d)
    (h : pickKey hash kt p keys d = .ok (k, d')) :
    SameBelow ks d0 d' ∧ (randOf kt p.typeIx p.bits = .ok k ∨
      ∃ k' l, k = .atom k' ∧ lookupPath (ks ++ [k']) d0 = some (.map .nesting l)) := by
  simp only [pickKey] at h
  split at h
  · rename_i t items nest' hg
    obtain ⟨ks', hks', hr⟩ := getIn_some hg
    rw [hks] at hks'
    cases hks'
    have hr0 : getPathND ks d0 = .ok (.map t items, nest') := by
      have := hs.1 []
      simp only [List.append_nil] at this
      rw [← this]; exact hr
    split at h
    · cases hx : randOf kt p.typeIx p.bits with
      | error e => simp [hx, Except.map] at h
      | ok x =>
        simp only [hx, Except.map, Except.ok.injEq, Prod.mk.injEq] at h
        obtain ⟨rfl, rfl⟩ := h
        exact ⟨hs.read hr, Or.inl rfl⟩
    · cases hx : rngChoice ((items.filter fun kv => isNesting kv.2).map Prod.fst) p.nestIx with
      | error e => simp [hx, Except.map] at h
      | ok x =>
        simp only [hx, Except.map, Except.ok.injEq, Prod.mk.injEq] at h
        obtain ⟨rfl, rfl⟩ := h
        obtain ⟨l, hl⟩ := nestkey_before hi hr0 (rngChoice_mem hx)
        exact ⟨hs.read hr, Or.inr ⟨x, l, rfl, hl⟩⟩
  · cases h

theorem mapM_append_some {α β : Type} {f : α → Option β} {l₁ l₂ : List α} {r : List β}
    (h : (l₁ ++ l₂).mapM f = some r) : ∃ r₁ r₂, l₁.mapM f = some r₁ ∧ l₂.mapM f = some r₂ ∧ r = r₁ ++ r₂ := by
  rw [List.mapM_append] at h
  cases h1 : l₁.mapM f with
  | none => simp [h1, bind] at h
  | some r₁ =>
    cases h2 : l₂.mapM f with
    | none => simp [h1, h2, bind] at h
    | some r₂ =>
      simp only [h1, h2, bind, Option.bind_some, pure, Option.some.injEq] at h
      exact ⟨r₁, r₂, rfl, rfl, h.symm⟩

theorem pickKeys_append {hash : A → Bool} {kt : List (Gen A)} (ps : List Pick) : ∀ (keys : List (Val A)) (d : Val A)
    (keys' : List (Val A)) (d' : Val A), pickKeys hash kt ps keys d = .ok (keys', d') →
    ∃ extra, keys' = keys ++ extra ∧ extra.length = ps.length := by
  induction ps with
  | nil =>
    intro keys d keys' d' h
    simp only [pickKeys, Except.ok.injEq, Prod.mk.injEq] at h
    exact ⟨[], by simp [h.1], rfl⟩
  | cons p ps ih =>
    intro keys d keys' d' h
    simp only [pickKeys, bind, Except.bind] at h
    cases hp : pickKey hash kt p keys d with
    | error e => simp [hp] at h
    | ok x =>
      simp only [hp] at h
      obtain ⟨extra, rfl, hl⟩ := ih _ _ _ _ h
      exact ⟨x.1 :: extra, by simp, by simp [hl]⟩

theorem asKey_some {hash : A → Bool} {v : Val A} {k : A} (h : asKey hash v = some k) : v = .atom k ∧ hash k = true := by
  cases v with
  | map t l => simp [asKey] at h
  | atom a =>
    simp only [asKey] at h
    split at h
    · rename_i hh; cases h; exact ⟨rfl, hh⟩
    · cases h

theorem mapM_singleton_some {α β : Type} {f : α → Option β} {x : α} {r : List β} (h : [x].mapM f = some r) :
    ∃ y, f x = some y ∧ r = [y] := by
  simp only [List.mapM_cons, List.mapM_nil, bind, pure] at h
  cases hf : f x with
  | none => simp [hf] at h
  | some y => simp only [hf, Option.bind_some, Option.some.injEq] at h; exact ⟨y, rfl, h.symm⟩

theorem pickKeys_spec {hash : A → Bool} {kt : List (Gen A)} {n : Nat} {K : A → Prop} {d0 : Val A}
    {W : List (List A × A)} (hi : NestInv n K d0 W)
    (ps : List Pick) :
    (∀ p ∈ ps, ∀ k, randOf kt p.typeIx p.bits = .ok (.atom k) → hash k = true → K k) →
    ∀ (keys : List (Val A)) (d : Val A) (keys' : List (Val A)) (d' : Val A) (ks ks' : List A),
    pickKeys hash kt ps keys d = .ok (keys', d') → keys.mapM (asKey hash) = some ks →
    keys'.mapM (asKey hash) = some ks' → SameBelow ks d0 d →
    ∃ extra, ks' = ks ++ extra ∧ extra.length = ps.length ∧ SameBelow ks' d0 d' ∧ ∀ k ∈ extra, K k := by
  induction ps with
  | nil =>
    intro hK keys d keys' d' ks ks' h h1 h2 hs
    simp only [pickKeys, Except.ok.injEq, Prod.mk.injEq] at h
    obtain ⟨rfl, rfl⟩ := h
    rw [h1] at h2; cases h2
    exact ⟨[], by simp, rfl, hs, by simp⟩
  | cons p ps ih =>
    intro hK keys d keys' d' ks ks' h h1 h2 hs
    simp only [pickKeys, bind, Except.bind] at h
    cases hp : pickKey hash kt p keys d with
    | error e => simp [hp] at h
    | ok x =>
      obtain ⟨k, d1⟩ := x
      simp only [hp] at h
      obtain ⟨more, rfl, _⟩ := pickKeys_append ps _ _ _ _ h
      obtain ⟨r1, r2, hr1, hr2, rfl⟩ := mapM_append_some h2
      obtain ⟨r3, r4, hr3, hr4, rfl⟩ := mapM_append_some hr1
      rw [h1] at hr3; cases hr3
      obtain ⟨k', hk', rfl⟩ := mapM_singleton_some hr4
      obtain ⟨hs1, hcase⟩ := pickKey_spec hi h1 hs hp
      obtain ⟨extra, he, hlen, hs2, hKe⟩ := ih (fun p' hp' => hK p' (by simp [hp'])) _ _ _ _ _ _ h hr1 h2 (hs1.mono [k'])
      refine ⟨k' :: extra, by simpa using he, by simp [hlen], hs2, ?_⟩
      intro k2 hk2
      rcases List.mem_cons.1 hk2 with rfl | hk2
      · obtain ⟨rfl, hh⟩ := asKey_some hk'
        rcases hcase with hc | ⟨k3, l, hk3, hc⟩
        · exact hK p (by simp) _ hc hh
        · cases hk3
          exact hi.keys _ _ hc k2 (by simp)
      · exact hKe k2 hk2

/-- what a successful round does: one assignment -/
theorem nestRound_spec {hash : A → Bool} {types kt : List (Gen A)} {n : Nat} {K : A → Prop} {d0 d' : Val A}
    {W : List (List A × A)} (hi : NestInv n K d0 W)
    {it : Iter}
    (hK : ∀ j, j < n → ∀ k, randOf kt (it.picks j).typeIx (it.picks j).bits = .ok (.atom k) → hash k = true → K k)
    (hK' : ∀ k, randOf kt it.keyType it.keyBits = .ok (.atom k) → hash k = true → K k)
    (h : nestRound hash n types kt it d0 = .ok d') :
    ∃ ks v, ks ≠ [] ∧ ks.length ≤ n ∧ (∀ k ∈ ks, K k) ∧ randOf types it.valType it.valBits = .ok v ∧
      setPathND ks v d0 = .ok d' ∧ ∃ k ∈ ks, randOf kt it.keyType it.keyBits = .ok (.atom k) ∧ hash k = true := by
  simp only [nestRound, bind, Except.bind] at h
  cases hl : rngChoice (List.range n) it.level with
  | error e => simp [hl] at h
  | ok level =>
    have hlev : level < n := by simpa using rngChoice_mem hl
    simp only [hl] at h
    cases hp : pickKeys hash kt ((List.range level).map it.picks) [] d0 with
    | error e => simp [hp] at h
    | ok x =>
      obtain ⟨keys, d1⟩ := x
      simp only [hp] at h
      cases hv : randOf types it.valType it.valBits with
      | error e => simp [hv] at h
      | ok v =>
        simp only [hv] at h
        cases hk : randOf kt it.keyType it.keyBits with
        | error e => simp [hk] at h
        | ok k =>
          simp only [hk] at h
          split at h
          · rename_i v2 nest2 ks k' hg hks hk'
            have hps : ∀ p ∈ (List.range level).map it.picks, ∀ k,
                randOf kt p.typeIx p.bits = .ok (.atom k) → hash k = true → K k := by
              intro p hp' k2
              obtain ⟨j, hj, rfl⟩ := List.mem_map.1 hp'
              exact hK j (by have := List.mem_range.1 hj; omega) k2
            obtain ⟨ks2, hks2, hr⟩ := getIn_some hg
            rw [hks] at hks2; cases hks2
            obtain ⟨extra, he, hlen, hs, hKe⟩ := pickKeys_spec hi _ hps [] d0 keys d1 [] ks hp rfl hks (SameBelow.refl _ _)
            simp only [List.nil_append] at he
            subst he
            obtain ⟨rfl, hh⟩ := asKey_some hk'
            cases hsp : setPathND (ks ++ [k']) v nest2 with
            | error e => simp [hsp] at h
            | ok d3 =>
              simp only [hsp, Except.ok.injEq] at h
              subst h
              refine ⟨ks ++ [k'], v, by simp, ?_, ?_, rfl, ?_, k', by simp, rfl, hh⟩
              · simp only [List.length_append, hlen, List.length_map, List.length_range, List.length_singleton]; omega
              · intro k2 hk2
                rcases List.mem_append.1 hk2 with hk2 | hk2
                · exact hKe k2 hk2
                · simp at hk2; subst hk2; exact hK' _ hk hh
              · rw [← (hs.read hr).2 [k'] v (by simp)]; exact hsp
          · cases h

theorem nestRounds_spec {hash : A → Bool} {types kt : List (Gen A)} {n : Nat} {K : A → Prop}
    (hV : ∀ g ∈ types, ∀ b v, g.sample b = .ok v → ∃ a, v = .atom a)
    (hK : ∀ ix bits k, randOf kt ix bits = .ok (.atom k) → hash k = true → K k) (its : List Iter) :
    ∀ (d0 d' : Val A) (W : List (List A × A)), NestInv n K d0 W → nestRounds hash n types kt its d0 = .ok d' →
    ∃ W', NestInv n K d' (W ++ W') ∧ List.Forall₂ (fun (it : Iter) w => w.1 ≠ [] ∧ w.1.length ≤ n ∧
      (∀ k ∈ w.1, K k) ∧ randOf types it.valType it.valBits = .ok (.atom w.2)) its W' := by
  induction its with
  | nil =>
    intro d0 d' W hi h
    simp only [nestRounds, Except.ok.injEq] at h
    subst h
    exact ⟨[], by simpa using hi, .nil⟩
  | cons it its ih =>
    intro d0 d' W hi h
    simp only [nestRounds, bind, Except.bind] at h
    cases hr : nestRound hash n types kt it d0 with
    | error e => simp [hr] at h
    | ok d1 =>
      simp only [hr] at h
      obtain ⟨ks, v, hne, hlen, hKs, hv, hset, _⟩ :=
        nestRound_spec hi (fun j _ => hK _ _) (hK _ _) hr
      obtain ⟨a, rfl⟩ : ∃ a, v = .atom a := by
        simp only [randOf, bind, Except.bind] at hv
        cases hg : rngChoice types it.valType with
        | error e => simp [hg] at hv
        | ok g => simp only [hg] at hv; exact hV g (rngChoice_mem hg) _ _ hv
      obtain ⟨W', hW, hF⟩ := ih d1 d' _ (nestInv_set hi hne hlen hKs hset) h
      exact ⟨(ks, a) :: W', by simpa using hW, .cons ⟨hne, hlen, hKs, hv⟩ hF⟩

/-! ### rounds that succeed -/

theorem NestInv.mono {n : Nat} {K K' : A → Prop} {d : Val A} {W : List (List A × A)} (hi : NestInv n K d W)
    (h : ∀ k, K k → K' k) : NestInv n K' d W :=
  ⟨hi.top, hi.leaf, hi.level, fun p u hp k hk => h k (hi.keys p u hp k hk), hi.depth⟩

/-- whatever is on the path `ks` of `d` is a `NestingDict` -/
def Clear (ks : List A) (d : Val A) : Prop :=
  ∀ q rest, ks = q ++ rest → ∀ u, lookupPath q d = some u → ∃ l, u = .map .nesting l

theorem getPath_clear (ks : List A) : ∀ d : Val A, Clear ks d → ∃ l d', getPathND ks d = .ok (.map .nesting l, d') := by
  induction ks with
  | nil =>
    intro d h
    obtain ⟨l, rfl⟩ := h [] [] rfl d rfl
    exact ⟨l, _, rfl⟩
  | cons k ks ih =>
    intro d h
    obtain ⟨l, rfl⟩ := h [] (k :: ks) rfl d rfl
    cases hg : Dict.get? l k with
    | some w =>
      obtain ⟨l', d', hi⟩ := ih w fun q rest he u hu => h (k :: q) rest (by rw [he]; rfl) u (by simp [lookupPath, hg, hu])
      exact ⟨l', .map .nesting (Dict.set l k d'), by
        simp [getPathND, getItemND, hg, hi, bind, Except.bind, pure, Except.pure]⟩
    | none =>
      obtain ⟨l', d', hi⟩ := ih (.map .nesting []) fun q rest he u hu => by
        cases q with
        | nil => simp only [lookupPath, Option.some.injEq] at hu; exact ⟨_, hu.symm⟩
        | cons => simp [lookupPath] at hu
      exact ⟨l', .map .nesting (Dict.set (Dict.set l k (.map .nesting [])) k d'), by
        simp [getPathND, getItemND, hg, hi, bind, Except.bind, pure, Except.pure]⟩

theorem clear_snoc {ks : List A} {k : A} {d : Val A} (h : Clear ks d)
    (h' : ∀ u, lookupPath (ks ++ [k]) d = some u → ∃ l, u = .map .nesting l) : Clear (ks ++ [k]) d := by
  intro q rest he u hu
  rcases List.eq_nil_or_concat rest with rfl | ⟨r, x, rfl⟩
  · simp only [List.append_nil] at he
    subst he
    exact h' u hu
  · rw [List.concat_eq_append, ← List.append_assoc] at he
    have := List.append_inj_left' he rfl
    exact h q r this u hu

theorem mapM_snoc {α β : Type} {f : α → Option β} {l : List α} {x : α} {r : List β} {y : β}
    (h : l.mapM f = some r) (hx : f x = some y) : (l ++ [x]).mapM f = some (r ++ [y]) := by
  rw [List.mapM_append, h]
  simp [hx, bind, pure]

theorem rngChoice_ok {α : Type} {l : List α} (h : l ≠ []) (ix : Nat) : ∃ x, rngChoice l ix = .ok x := by
  have hl : 0 < l.length := List.length_pos_of_ne_nil h
  have := Nat.mod_lt ix hl
  simp only [rngChoice, List.getElem?_eq_getElem this]
  exact ⟨_, rfl⟩

theorem pickKeys_ok {hash : A → Bool} {kt : List (Gen A)} {n : Nat} {K : A → Prop} {d0 : Val A}
    {W : List (List A × A)} (hi : NestInv n K d0 W) (hKh : ∀ k, K k → hash k = true) (ps : List Pick) :
    (∀ p ∈ ps, ∃ k, randOf kt p.typeIx p.bits = .ok (.atom k) ∧ hash k = true ∧ ¬ K k) →
    ∀ (keys : List (Val A)) (d : Val A) (ks : List A), keys.mapM (asKey hash) = some ks → SameBelow ks d0 d →
    Clear ks d0 → ∃ keys' d' ks', pickKeys hash kt ps keys d = .ok (keys', d') ∧
      keys'.mapM (asKey hash) = some ks' ∧ SameBelow ks' d0 d' ∧ Clear ks' d0 := by
  induction ps with
  | nil =>
    intro _ keys d ks h1 h2 h3
    exact ⟨keys, d, ks, rfl, h1, h2, h3⟩
  | cons p ps ih =>
    intro hp keys d ks h1 h2 h3
    obtain ⟨items, d1, hr0⟩ := getPath_clear ks d0 h3
    have hr : getPathND ks d = .ok (.map .nesting items, d1) := by
      have := h2.1 []
      simp only [List.append_nil] at this
      rw [this]; exact hr0
    have hg : getIn hash keys d = some (.map .nesting items, d1) := by simp [getIn, h1, hr]
    have hs1 := h2.read hr
    obtain ⟨k, hk, hh, hnK⟩ := hp p (by simp)
    have hrest := ih fun p' hp' => hp p' (by simp [hp'])
    have hstep : ∃ k', pickKey hash kt p keys d = .ok (.atom k', d1) ∧ hash k' = true ∧ Clear (ks ++ [k']) d0 := by
      simp only [pickKey, hg]
      split
      · refine ⟨k, by simp [hk, Except.map], hh, clear_snoc h3 fun u hu => ?_⟩
        exact absurd (hi.keys _ _ hu k (by simp)) hnK
      · rename_i hc
        simp only [Bool.or_eq_true, decide_eq_true_eq, not_or] at hc
        obtain ⟨x, hx⟩ := rngChoice_ok (l := (items.filter fun kv => isNesting kv.2).map Prod.fst)
          (fun h => hc.1 (by rw [h]; rfl)) p.nestIx
        obtain ⟨l, hl⟩ := nestkey_before hi hr0 (rngChoice_mem hx)
        refine ⟨x, by simp [hx, Except.map], hKh x (hi.keys _ _ hl x (by simp)), clear_snoc h3 fun u hu => ?_⟩
        rw [hl] at hu; cases hu
        exact ⟨l, rfl⟩
    obtain ⟨k', hpk, hh', hcl⟩ := hstep
    have hkey : asKey hash (.atom k' : Val A) = some k' := by simp [asKey, hh']
    obtain ⟨keys', d', ks', ho, r1, r2, r3⟩ := hrest (keys ++ [.atom k']) d1 (ks ++ [k']) (mapM_snoc h1 hkey)
      (hs1.mono [k']) hcl
    exact ⟨keys', d', ks', by simp only [pickKeys, hpk, bind, Except.bind, ho], r1, r2, r3⟩

/-- a round that draws only keys that are new to the dictionary succeeds -/
theorem nestRound_ok {hash : A → Bool} {types kt : List (Gen A)} {n : Nat} (hn : 1 ≤ n) {K : A → Prop} {d0 : Val A}
    {W : List (List A × A)} (hi : NestInv n K d0 W) (hKh : ∀ k, K k → hash k = true) {it : Iter}
    (hp : ∀ j, j < n → ∃ k, randOf kt (it.picks j).typeIx (it.picks j).bits = .ok (.atom k) ∧ hash k = true ∧ ¬ K k)
    (hk : ∃ k, randOf kt it.keyType it.keyBits = .ok (.atom k) ∧ hash k = true ∧ ¬ K k)
    (hv : ∃ v, randOf types it.valType it.valBits = .ok v) : ∃ d', nestRound hash n types kt it d0 = .ok d' := by
  obtain ⟨level, hl⟩ := rngChoice_ok (l := List.range n) (by simp; omega) it.level
  have hlev : level < n := by simpa using rngChoice_mem hl
  have hc0 : Clear [] d0 := by
    intro q rest he u hu
    simp only [List.nil_eq, List.append_eq_nil_iff] at he
    obtain ⟨rfl, rfl⟩ := he
    obtain ⟨l, rfl⟩ := hi.top
    simp only [lookupPath, Option.some.injEq] at hu
    exact ⟨l, hu.symm⟩
  obtain ⟨keys, d1, ks, ho, h1, h2, h3⟩ := pickKeys_ok hi hKh ((List.range level).map it.picks)
    (fun p hp' => by
      obtain ⟨j, hj, rfl⟩ := List.mem_map.1 hp'
      exact hp j (by have := List.mem_range.1 hj; omega)) [] d0 [] rfl (SameBelow.refl _ _) hc0
  obtain ⟨v, hv⟩ := hv
  obtain ⟨k, hk, hh, hnK⟩ := hk
  obtain ⟨items, d2, hr0⟩ := getPath_clear ks d0 h3
  have hr : getPathND ks d1 = .ok (.map .nesting items, d2) := by
    have := h2.1 []
    simp only [List.append_nil] at this
    rw [this]; exact hr0
  have hg : getIn hash keys d1 = some (.map .nesting items, d2) := by simp [getIn, h1, hr]
  obtain ⟨d3, hd3⟩ := C03_write_succeeds (ks ++ [k]) (by simp) v d0 (by
    intro p k' rest he u hu
    have hpre : ∃ r, ks = p ++ r := by
      rcases List.eq_nil_or_concat rest with rfl | ⟨r, x, rfl⟩
      · have := List.append_inj_left' he rfl
        exact ⟨[], by simp [this]⟩
      · rw [List.concat_eq_append, ← List.cons_append, ← List.append_assoc] at he
        exact ⟨_, List.append_inj_left' he rfl⟩
    obtain ⟨r, hr'⟩ := hpre
    obtain ⟨l, rfl⟩ := h3 p r hr' u hu
    exact ⟨.nesting, l, rfl, Or.inr (Or.inl rfl)⟩)
  have hset : setPathND (ks ++ [k]) v d2 = .ok d3 := by rw [(h2.read hr).2 [k] v (by simp)]; exact hd3
  exact ⟨d3, by simp [nestRound, bind, Except.bind, hl, ho, hv, hk, hg, h1, asKey, hh, hset]⟩

/-! ### `todict` -/

theorem get?_plainItems (l : List (A × Val A)) (k : A) :
    Dict.get? (plainItems l) k = (Dict.get? l k).map plainTree := by
  induction l with
  | nil => simp [plainItems]
  | cons x r ih =>
    obtain ⟨k', v⟩ := x
    simp only [plainItems, Dict.get?_cons, ih]
    split <;> rfl

theorem keys_plainItems (l : List (A × Val A)) : Dict.keys (plainItems l) = Dict.keys l := by
  induction l with
  | nil => simp [plainItems]
  | cons x r ih => obtain ⟨k', v⟩ := x; simp [plainItems, ih]

/-- looking up in the plain copy of a dictionary whose levels are all `NestingDict`s -/
theorem lookup_plain (p : List A) : ∀ v : Val A, (∀ q t l, lookupPath q v = some (.map t l) → t = .nesting) →
    lookupPath p (plainTree v) = (lookupPath p v).map plainTree := by
  induction p with
  | nil => intro v _; rfl
  | cons k p ih =>
    intro v hv
    cases v with
    | atom a => rfl
    | map t l =>
      have ht : t = .nesting := hv [] t l rfl
      subst ht
      simp only [plainTree, Tag.isDict, if_true, lookupPath, get?_plainItems]
      cases hg : Dict.get? l k with
      | none => rfl
      | some w =>
        simp only [Option.map_some]
        refine ih w fun q t' l' hq => hv (k :: q) t' l' ?_
        simp only [lookupPath, hg, hq]

theorem randomNestedDict_ok {hash : A → Bool} {fuel n : Nat} {types : List (Gen A)} {kt : Option (List (Gen A))}
    {its : List Iter} {r : Val A} (h : randomNestedDict hash fuel n types kt its = .ok r) :
    ∃ d, nestRounds hash n types (kt.getD (defaultKeytypes types)) its (.map .nesting []) = .ok d ∧
      ∃ s, todict fuel d = some (r, s) := by
  simp only [randomNestedDict, bind, Except.bind] at h
  cases hr : nestRounds hash n types (kt.getD (defaultKeytypes types)) its (.map .nesting []) with
  | error e => simp [hr] at h
  | ok d =>
    simp only [hr] at h
    refine ⟨d, rfl, ?_⟩
    cases ht : todict fuel d with
    | none => simp [ht] at h
    | some x => obtain ⟨a, s⟩ := x; simp only [ht, Except.ok.injEq] at h; subst h; exact ⟨s, rfl⟩

theorem plain_inv {n : Nat} {K : A → Prop} {d : Val A} {W : List (List A × A)} (hi : NestInv n K d W) :
    (∀ p a, LeafAt (plainTree d) p a ↔ LastWrite W p a) ∧ PlainLevels (plainTree d) ∧
    (∀ p u, lookupPath p (plainTree d) = some u → ∀ k ∈ p, K k) := by
  have hl := fun p => lookup_plain p d fun q t l hq => (hi.level q t l hq).1
  refine ⟨?_, ?_, ?_⟩
  · intro p a
    rw [← hi.leaf, LeafAt, hl]
    cases hp : lookupPath p d with
    | none => simp
    | some w =>
      cases w with
      | atom b => simp [plainTree]
      | map t l =>
        obtain ⟨rfl, _⟩ := hi.level p t l hp
        simp [plainTree, Tag.isDict]
  · intro p t l hp
    rw [hl] at hp
    cases hq : lookupPath p d with
    | none => simp [hq] at hp
    | some w =>
      cases w with
      | atom b => simp [hq, plainTree] at hp
      | map t' l' =>
        obtain ⟨rfl, hwf, hne⟩ := hi.level p t' l' hq
        simp only [hq, plainTree, Tag.isDict, if_true, Option.map_some, Option.some.injEq, Val.map.injEq] at hp
        obtain ⟨rfl, rfl⟩ := hp
        refine ⟨rfl, ?_, fun h => ?_⟩
        · simpa [Dict.WF, keys_plainItems] using hwf
        · have := hne h
          cases l' with
          | nil => exact absurd rfl this
          | cons x r => obtain ⟨k, v⟩ := x; simp [plainItems]
  · intro p u hp
    rw [hl] at hp
    cases hq : lookupPath p d with
    | none => simp [hq] at hp
    | some w => exact hi.keys p w hq

theorem todict_plain {n : Nat} {K : A → Prop} {d : Val A} {W : List (List A × A)} (hi : NestInv n K d W) {fuel : Nat}
    (hf : n < fuel) : ∃ s, todict fuel d = some (plainTree d, s) := by
  have hdep := hi.depth
  obtain ⟨l, rfl⟩ := hi.top
  exact ⟨_, by rw [todict_eq .nesting l fuel (by omega)]; rfl⟩

end Verif.Lemmas
