import Verif.Lemmas.Rmerge
/-!
# C10–C12: `rmerge`
-/
set_option linter.unusedSectionVars false
namespace Verif.Props
open Verif Verif.Model Verif.Spec Verif.Lemmas
variable {A : Type} [DecidableEq A]

/-- a value that `rmerge` merges by default: an instance of `dict` or `OrderedDict` -/
def IsDictVal (v : Val A) (items : List (A × Val A)) : Prop := ∃ t, v = .map t items ∧ t.isDict = true

/-- **C10**. The path law of `rmerge(a, b)` with default `mtypes`. The last clause says which keys there are and in
what order. -/
theorem C10_rmerge_law (a b : List (A × Val A)) (ha : Dict.WF a) (hb : Dict.WF b) (k : A) :
    let m := rmerge rmergeDefault a b
    (Dict.get? b k = none → Dict.get? m k = Dict.get? a k) ∧
    (Dict.get? a k = none → Dict.get? m k = Dict.get? b k) ∧
    (∀ v w l l', Dict.get? a k = some v → Dict.get? b k = some w → IsDictVal v l → IsDictVal w l' →
      Dict.get? m k = some (.map .dict (rmerge rmergeDefault l l'))) ∧
    (∀ v w, Dict.get? a k = some v → Dict.get? b k = some w →
      ¬ ((∃ l, IsDictVal v l) ∧ ∃ l', IsDictVal w l') → Dict.get? m k = some w) ∧
    Dict.keys m = Dict.keys a ++ (Dict.keys b).filter (fun k => decide (k ∉ Dict.keys a)) := by
  intro m
  have law := rmerge_get? rmergeDefault a b ha hb k
  refine ⟨?_, ?_, ?_, ?_, rmerge_keys _ a b ha hb⟩
  · intro h
    rw [law, h]
    cases Dict.get? a k with
    | none => rfl
    | some v => cases v <;> rfl
  · intro h
    rw [law, h]
    rfl
  · rintro v w l l' h1 h2 ⟨t, rfl, ht⟩ ⟨t', rfl, ht'⟩
    rw [law, h1, h2]
    simp [mergeVal, rmergeDefault, ht, ht']
  · intro v w h1 h2 hn
    rw [law, h1, h2]
    cases v with
    | atom x => cases w <;> rfl
    | map t l =>
      cases w with
      | atom x => rfl
      | map t' l' =>
        simp only [mergeVal]
        by_cases hc : (rmergeDefault t && rmergeDefault t') = true
        · simp only [Bool.and_eq_true] at hc
          exact absurd ⟨⟨l, t, rfl, hc.1⟩, l', t', rfl, hc.2⟩ hn
        · rw [if_neg hc]

/-- witness, the docstring example: rmerge({'a': 1, 'b': {'a': 1}}, {'b': {'b': 1}, 'c': 2}) -/
example : rmerge (A := Nat) rmergeDefault [(10, .atom 1), (11, .map .dict [(10, .atom 1)])]
    [(11, .map .dict [(11, .atom 1)]), (12, .atom 2)] =
    [(10, .atom 1), (11, .map .dict [(10, .atom 1), (11, .atom 1)]), (12, .atom 2)] := rfl

mutual
/-- a value up to the class of dict used (`OrderedDict`, `NestingDict` and `dict` with equal items are `==`) -/
def classErased : Val A → Val A
  | .atom a => .atom a
  | .map t l => .map (if t.isDict then .dict else t) (classErasedItems l)
def classErasedItems : List (A × Val A) → List (A × Val A)
  | [] => []
  | (k, v) :: r => (k, classErased v) :: classErasedItems r
end

theorem classErasedItems_keys (l : List (A × Val A)) : Dict.keys (classErasedItems l) = Dict.keys l := by
  induction l with
  | nil => rfl
  | cons x r ih =>
    obtain ⟨k, v⟩ := x
    simp only [classErasedItems, Dict.keys_cons, ih]

theorem classErasedItems_get? (l : List (A × Val A)) (k : A) :
    Dict.get? (classErasedItems l) k = (Dict.get? l k).map classErased := by
  induction l with
  | nil => rfl
  | cons x r ih =>
    obtain ⟨k', v⟩ := x
    simp only [classErasedItems, Dict.get?_cons, ih]
    split <;> rfl

/-- dicts with the same keys in the same order and the same values are the same -/
theorem erased_ext {l r : List (A × Val A)} (wf : Dict.WF l) (hk : Dict.keys l = Dict.keys r)
    (h : ∀ k v w, Dict.get? l k = some v → Dict.get? r k = some w → classErased v = classErased w) :
    classErasedItems l = classErasedItems r := by
  apply Dict.ext_of_keys (by unfold Dict.WF; rw [classErasedItems_keys]; exact wf)
  · rw [classErasedItems_keys, classErasedItems_keys, hk]
  · intro k
    rw [classErasedItems_get?, classErasedItems_get?]
    by_cases hm : k ∈ Dict.keys l
    · have hm' : k ∈ Dict.keys r := hk ▸ hm
      rw [← Dict.get?_isSome, Option.isSome_iff_exists] at hm hm'
      obtain ⟨v, hv⟩ := hm
      obtain ⟨w, hw⟩ := hm'
      rw [hv, hw]
      simp [h k v w hv hw]
    · have hm' : k ∉ Dict.keys r := hk ▸ hm
      rw [← Dict.get?_eq_none] at hm hm'
      rw [hm, hm']

theorem mergeVal_none_right (mt : Tag → Bool) (x : Option (Val A)) : mergeVal mt x none = x := by
  rcases x with _ | x
  · rfl
  · cases x <;> rfl

/-- **C11** (identities). `rmerge(a, {})` is `a` and `rmerge({}, b)` is `b`, exactly, for any `mtypes`. -/
theorem C11_identities (mt : Tag → Bool) (a : List (A × Val A)) (ha : Dict.WF a) :
    rmerge mt a [] = a ∧ rmerge mt [] a = a := by
  constructor
  · apply Dict.ext_of_keys (rmerge_wf mt a [] ha Dict.wf_nil)
    · rw [rmerge_keys mt a [] ha Dict.wf_nil]; simp
    · intro k
      rw [rmerge_get? mt a [] ha Dict.wf_nil, Dict.get?_nil, mergeVal_none_right]
  · apply Dict.ext_of_keys (rmerge_wf mt [] a Dict.wf_nil ha)
    · rw [rmerge_keys mt [] a Dict.wf_nil ha]; simp
    · intro k
      rw [rmerge_get? mt [] a Dict.wf_nil ha]
      rfl

/-- **C11** (idempotence). `rmerge(a, a) == a`, with all keys in the same order at every level; only the class of the
merged levels may differ (they become plain dicts). -/
theorem C11_idempotent (mt : Tag → Bool) (hmt : ∀ t, mt t = true → t.isDict = true) (t : Tag) (a : List (A × Val A))
    (ha : (Val.map t a).WF) : classErasedItems (rmerge mt a a) = classErasedItems a := by
  have gen : ∀ v : Val A, v.WF → ∀ mt : Tag → Bool, (∀ t, mt t = true → t.isDict = true) →
      classErasedItems (rmerge mt v.items v.items) = classErasedItems v.items := by
    intro v
    induction v using Val.induct with
    | hatom x => intros; rfl
    | hmap t l ih =>
      intro hwf mt hmt
      rw [Val.wf_map] at hwf
      simp only [Val.items_map]
      apply erased_ext (rmerge_wf mt l l hwf.1 hwf.1)
      · rw [rmerge_keys mt l l hwf.1 hwf.1]
        have : (Dict.keys l).filter (fun k => decide (k ∉ Dict.keys l)) = [] := by
          rw [List.filter_eq_nil_iff]; intro x hx; simp [hx]
        rw [this]; simp
      · intro k v w hv hw
        rw [rmerge_get? mt l l hwf.1 hwf.1, hw] at hv
        have hm := Dict.mem_of_get? hw
        cases w with
        | atom x => simp only [mergeVal, Option.some.injEq] at hv; rw [← hv]
        | map t' l' =>
          simp only [mergeVal, Bool.and_self] at hv
          split at hv
          · rename_i ht
            cases hv
            have := ih k _ hm (hwf.2 _ _ hm) rmergeDefault (fun _ h => h)
            simp only [Val.items_map] at this
            have e : (Tag.dict).isDict = true := rfl
            simp only [classErased, this, hmt _ ht, e, if_true]
          · cases hv; rfl
  exact gen (.map t a) ha mt hmt

/-- **C11** (extends `b`). Every scalar path of `b` is found unchanged in `rmerge(a, b)`. -/
theorem C11_extends_right (p : List A) : ∀ (mt : Tag → Bool) (t t' : Tag) (a b : List (A × Val A)) (x : A),
    (Val.map t a).WF → (Val.map t b).WF → lookupPath p (.map t b) = some (.atom x) →
    lookupPath p (.map t' (rmerge mt a b)) = some (.atom x) := by
  induction p with
  | nil => intro mt t t' a b x _ _ h; simp [lookupPath] at h
  | cons k ks ih =>
    intro mt t t' a b x ha hb h
    rw [Val.wf_map] at ha hb
    simp only [lookupPath] at h ⊢
    cases hbk : Dict.get? b k with
    | none => simp [hbk] at h
    | some w =>
      simp only [hbk] at h
      rw [rmerge_get? mt a b ha.1 hb.1, hbk]
      cases hak : Dict.get? a k with
      | none => simpa [mergeVal] using h
      | some v =>
        cases v with
        | atom y => simpa [mergeVal] using h
        | map t1 l1 =>
          cases w with
          | atom y => simpa [mergeVal] using h
          | map t2 l2 =>
            simp only [mergeVal]
            by_cases hc : (mt t1 && mt t2) = true
            · rw [if_pos hc]
              have hwa := ha.2 _ _ (Dict.mem_of_get? hak)
              have hwb := hb.2 _ _ (Dict.mem_of_get? hbk)
              rw [Val.wf_map] at hwa hwb
              cases ks with
              | nil => simp [lookupPath] at h
              | cons k2 ks2 =>
                refine ih rmergeDefault t2 .dict l1 l2 x ?_ ?_ h
                · exact Val.wf_map.2 hwa
                · exact Val.wf_map.2 hwb
            · rw [if_neg hc]; exact h

/-- **C11** (keeps what `b` does not mention). A scalar path of `a` survives if `b` has nothing at that path and only
dicts, facing dicts of `a`, at the non-empty proper prefixes of it. -/
theorem C11_keeps_left (p : List A) : ∀ (t t' : Tag) (a b : List (A × Val A)) (x : A),
    (Val.map t a).WF → (Val.map t b).WF → lookupPath p (.map t a) = some (.atom x) →
    lookupPath p (.map t b) = none →
    (∀ q r u, p = q ++ r → q ≠ [] → lookupPath q (.map t b) = some u →
      u.isA Tag.isDict = true ∧ ∃ w, lookupPath q (.map t a) = some w ∧ w.isA Tag.isDict = true) →
    lookupPath p (.map t' (rmerge rmergeDefault a b)) = some (.atom x) := by
  induction p with
  | nil => intro t t' a b x _ _ h; simp [lookupPath] at h
  | cons k ks ih =>
    intro t t' a b x ha hb h hnone hpre
    rw [Val.wf_map] at ha hb
    simp only [lookupPath] at h hnone ⊢
    cases hak : Dict.get? a k with
    | none => simp [hak] at h
    | some v =>
      simp only [hak] at h
      rw [rmerge_get? rmergeDefault a b ha.1 hb.1, hak]
      cases hbk : Dict.get? b k with
      | none => rw [mergeVal_none_right]; exact h
      | some w =>
        simp only [hbk] at hnone
        obtain ⟨hw, v', hv', hvd⟩ := hpre [k] ks w rfl (by simp) (by simp [lookupPath, hbk])
        simp only [lookupPath, hak, Option.some.injEq] at hv'
        subst hv'
        cases v with
        | atom y => cases hvd
        | map t1 l1 =>
          cases w with
          | atom y => cases hw
          | map t2 l2 =>
            simp only [Val.isA_map] at hw hvd
            simp only [mergeVal, rmergeDefault, hw, hvd, Bool.and_self, if_true]
            have hwa := ha.2 _ _ (Dict.mem_of_get? hak)
            have hwb := hb.2 _ _ (Dict.mem_of_get? hbk)
            rw [Val.wf_map] at hwa hwb
            have e1 : ∀ q (s s' : Tag) (l : List (A × Val A)), q ≠ [] → lookupPath q (.map s l) = lookupPath q (.map s' l) := by
              intro q s s' l hq
              cases q with
              | nil => exact absurd rfl hq
              | cons => rfl
            cases ks with
            | nil => simp [lookupPath] at h
            | cons k2 ks2 =>
              refine ih t1 .dict l1 l2 x (Val.wf_map.2 hwa) (Val.wf_map.2 hwb) h ?_ ?_
              · rw [e1 _ t1 t2 l2 (by simp)]; exact hnone
              · intro q r u he hq hu
                have := hpre (k :: q) r u (by rw [he]; rfl) (by simp) (by
                  simp only [lookupPath, hbk]; rw [e1 _ t2 t1 l2 hq]; exact hu)
                simpa [lookupPath, hak] using this

/-- **C11**: `rmerge` is not associative: a = {1: {2: 3}}, b = {1: 5}, c = {1: {4: 6}}. -/
theorem C11_not_associative : ∃ a b c : List (Nat × Val Nat), Dict.WF a ∧ Dict.WF b ∧ Dict.WF c ∧
    rmerge rmergeDefault (rmerge rmergeDefault a b) c ≠ rmerge rmergeDefault a (rmerge rmergeDefault b c) := by
  refine ⟨[(1, .map .dict [(2, .atom 3)])], [(1, .atom 5)], [(1, .map .dict [(4, .atom 6)])], ?_, ?_, ?_, ?_⟩
  · simp [Dict.WF, Dict.keys]
  · simp [Dict.WF, Dict.keys]
  · simp [Dict.WF, Dict.keys]
  · have e1 : rmerge rmergeDefault (rmerge rmergeDefault [(1, .map .dict [(2, .atom 3)])] [(1, .atom 5)])
        [(1, .map .dict [(4, .atom 6)])] = [((1 : Nat), Val.map .dict [(4, Val.atom (6 : Nat))])] := rfl
    have e2 : rmerge rmergeDefault [(1, .map .dict [(2, .atom 3)])] (rmerge rmergeDefault [(1, .atom 5)]
        [(1, .map .dict [(4, .atom 6)])]) =
        [((1 : Nat), Val.map .dict [(2, Val.atom (3 : Nat)), (4, Val.atom 6)])] := rfl
    rw [e1, e2]
    simp

/-- two values of a shared key that are both of a class in `mt` are merged recursively under the same `mt` -/
def HonoursMtypes (mt : Tag → Bool) (a b : List (A × Val A)) : Prop :=
  ∀ k t1 l1 t2 l2, Dict.get? a k = some (.map t1 l1) → Dict.get? b k = some (.map t2 l2) → mt t1 = true →
    mt t2 = true → Dict.get? (rmerge mt a b) k = some (.map .dict (rmerge mt l1 l2))

/-- **C12 is false of the code**: with `mtypes` accepting also a non-dict mapping class, the second level is merged
with the default `mtypes`, so mappings of that class are not merged there. -/
theorem C12_mtypes_not_honoured : ¬ ∀ (mt : Tag → Bool) (a b : List (Nat × Val Nat)), Dict.WF a → Dict.WF b →
    HonoursMtypes mt a b := by
  intro h
  have h := h (fun _ => true)
    [(1, .map .dict [(2, .map .other [(3, .atom 4)])])] [(1, .map .dict [(2, .map .other [(5, .atom 6)])])]
    (by simp [Dict.WF, Dict.keys]) (by simp [Dict.WF, Dict.keys]) 1 .dict _ .dict _ rfl rfl rfl rfl
  have e1 : Dict.get? (rmerge (fun _ => true) [((1 : Nat), Val.map .dict [(2, Val.map .other [(3, Val.atom (4 : Nat))])])]
    [(1, .map .dict [(2, .map .other [(5, .atom 6)])])]) 1 = some (.map .dict [(2, .map .other [(5, .atom 6)])]) := rfl
  have e2 : rmerge (fun _ => true) [((2 : Nat), Val.map .other [(3, Val.atom (4 : Nat))])]
    [(2, .map .other [(5, .atom 6)])] = [(2, .map .dict [(3, .atom 4), (5, .atom 6)])] := rfl
  rw [e1, e2] at h
  simp at h

/-- **C12 (partial)**. `mtypes` is honoured at the top level: a shared key whose values are both of a class in `mt` is
merged (deeper levels with the default classes), any other shared key takes `b`'s value. Missing: deeper levels. For
the default `mtypes` nothing is missing. -/
theorem C12_mtypes_top_level_partial (mt : Tag → Bool) (a b : List (A × Val A)) (ha : Dict.WF a) (hb : Dict.WF b)
    (k : A) :
    (∀ t1 l1 t2 l2, Dict.get? a k = some (.map t1 l1) → Dict.get? b k = some (.map t2 l2) → mt t1 = true →
      mt t2 = true → Dict.get? (rmerge mt a b) k = some (.map .dict (rmerge rmergeDefault l1 l2))) ∧
    (∀ v w, Dict.get? a k = some v → Dict.get? b k = some w → (v.isA mt && w.isA mt) = false →
      Dict.get? (rmerge mt a b) k = some w) ∧
    HonoursMtypes rmergeDefault a b := by
  refine ⟨?_, ?_, ?_⟩
  · intro t1 l1 t2 l2 h1 h2 h3 h4
    rw [rmerge_get? mt a b ha hb, h1, h2]
    simp [mergeVal, h3, h4]
  · intro v w h1 h2 h3
    rw [rmerge_get? mt a b ha hb, h1, h2]
    cases v <;> cases w <;> simp_all [mergeVal]
  · intro k t1 l1 t2 l2 h1 h2 h3 h4
    rw [rmerge_get? rmergeDefault a b ha hb, h1, h2]
    simp [mergeVal, h3, h4]

example : rmerge (A := Nat) (fun _ => true) [(1, .map .other [(3, .atom 4)])] [(1, .map .other [(5, .atom 6)])] =
    [(1, .map .dict [(3, .atom 4), (5, .atom 6)])] := rfl

end Verif.Props
