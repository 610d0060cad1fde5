import Verif.Model.Structures
import Verif.Lemmas.Rmerge
import Mathlib.Data.List.Induction
/-!
# C13–C16, C20, C21
-/
set_option linter.unusedSectionVars false
namespace Verif.Props
open Verif Verif.Model Verif.Lemmas

section insert
variable {κ α : Type} [DecidableEq κ]

theorem insertAfter_fold_noPrior (nk : κ) (nv : α) (prior : κ) (l d : Dict κ α) (hp : prior ∉ Dict.keys l) :
    l.foldl (fun d kv => let d := d.set kv.1 kv.2; if kv.1 = prior then d.set nk nv else d) d = Dict.update d l := by
  induction l generalizing d with
  | nil => rfl
  | cons x r ih =>
    obtain ⟨k, v⟩ := x
    simp only [Dict.keys_cons, List.mem_cons, not_or] at hp
    simp only [List.foldl_cons, Dict.update_cons]
    rw [if_neg fun h => hp.1 h.symm, ih _ hp.2]

theorem update_disjoint (d e : Dict κ α) (h : (Dict.keys (d ++ e)).Nodup) : Dict.update d e = d ++ e := by
  induction e generalizing d with
  | nil => simp [Dict.update_nil]
  | cons x r ih =>
    obtain ⟨k, v⟩ := x
    have hk : k ∉ Dict.keys d := by
      rw [Dict.keys_append, Dict.keys_cons, List.nodup_append] at h
      intro hm
      exact h.2.2 k hm k (by simp) rfl
    rw [Dict.update_cons, Dict.set_of_not_mem _ _ hk, ih _ (by simpa [Dict.keys] using h)]
    simp

theorem set_append_mem {d e : Dict κ α} {k : κ} {v w : α} (hk : k ∉ Dict.keys d) :
    Dict.set (d ++ (k, w) :: e) k v = d ++ (k, v) :: e := by
  induction d with
  | nil => simp [Dict.set]
  | cons x r ih =>
    obtain ⟨k', v'⟩ := x
    simp only [Dict.keys_cons, List.mem_cons, not_or] at hk
    have : ¬ k' = k := fun h => hk.1 h.symm
    simp [Dict.set, this, ih hk.2]

theorem insertAfter_split (nk : κ) (nv : α) (prior : κ) (v : α) (pre post : Dict κ α)
    (hwf : Dict.WF (pre ++ (prior, v) :: post)) :
    insertAfter nk nv prior (pre ++ (prior, v) :: post) =
      Dict.update (Dict.set (pre ++ [(prior, v)]) nk nv) post := by
  have hnd : (Dict.keys pre ++ prior :: Dict.keys post).Nodup := by simpa [Dict.WF, Dict.keys] using hwf
  rw [List.nodup_append, List.nodup_cons] at hnd
  obtain ⟨h1, ⟨h2, h3⟩, h4⟩ := hnd
  have hpre : prior ∉ Dict.keys pre := fun h => h4 prior h prior (by simp) rfl
  unfold insertAfter
  rw [List.foldl_append, List.foldl_cons, insertAfter_fold_noPrior _ _ _ pre _ hpre,
    update_disjoint [] pre (by simpa using h1), insertAfter_fold_noPrior _ _ _ post _ h2]
  simp only [List.nil_append, if_true]
  rw [Dict.set_of_not_mem _ _ hpre]

/-- **C13** (new key): if `prior` is in the mapping and `new_key` is not, the pair is inserted directly after. -/
theorem C13_insert_after (nk : κ) (nv : α) (prior : κ) (v : α) (pre post : Dict κ α)
    (hwf : Dict.WF (pre ++ (prior, v) :: post)) (hnew : nk ∉ Dict.keys (pre ++ (prior, v) :: post)) :
    insertAfter nk nv prior (pre ++ (prior, v) :: post) = pre ++ (prior, v) :: (nk, nv) :: post := by
  rw [insertAfter_split _ _ _ _ _ _ hwf]
  have hnew' : nk ∉ Dict.keys (pre ++ [(prior, v)]) := by simp [Dict.keys] at hnew ⊢; exact ⟨hnew.1, hnew.2.1⟩
  rw [Dict.set_of_not_mem _ _ hnew', update_disjoint]
  · simp
  · have h : (Dict.keys pre ++ prior :: Dict.keys post).Nodup := by simpa [Dict.WF, Dict.keys] using hwf
    have hn : nk ∉ Dict.keys pre ++ prior :: Dict.keys post := by simpa [Dict.keys] using hnew
    simp only [Dict.keys_append, Dict.keys_cons, Dict.keys_nil, List.append_assoc, List.cons_append, List.nil_append]
    simp only [List.nodup_append, List.nodup_cons, List.mem_append, List.mem_cons, not_or] at h hn ⊢
    refine ⟨h.1, ⟨⟨fun e => hn.2.1 e.symm, h.2.1.1⟩, hn.2.2, h.2.1.2⟩, ?_⟩
    rintro a ha b (rfl | rfl | hb)
    · exact h.2.2 a ha b (by simp)
    · rintro rfl; exact hn.1 ha
    · exact h.2.2 a ha b (by simp [hb])

/-- **C13** (absent prior key): an unchanged copy; the new pair is dropped. -/
theorem C13_absent_prior (nk : κ) (nv : α) (prior : κ) (m : Dict κ α) (hwf : Dict.WF m) (hp : prior ∉ Dict.keys m) :
    insertAfter nk nv prior m = m := by
  unfold insertAfter
  rw [insertAfter_fold_noPrior _ _ _ _ _ hp, update_disjoint [] m (by simpa [Dict.WF] using hwf)]
  simp

/-- **C13** (new key already after the prior key): it moves directly after the prior key but keeps its *old* value. -/
theorem C13_present_after (nk : κ) (nv old : α) (prior : κ) (v : α) (pre mid post : Dict κ α)
    (hwf : Dict.WF (pre ++ (prior, v) :: (mid ++ (nk, old) :: post))) :
    insertAfter nk nv prior (pre ++ (prior, v) :: (mid ++ (nk, old) :: post)) =
      pre ++ (prior, v) :: (nk, old) :: (mid ++ post) := by
  rw [insertAfter_split _ _ _ _ _ _ hwf]
  have h : (Dict.keys pre ++ prior :: (Dict.keys mid ++ nk :: Dict.keys post)).Nodup := by
    simpa [Dict.WF, Dict.keys] using hwf
  simp only [List.nodup_append, List.nodup_cons, List.mem_append, List.mem_cons, not_or] at h
  obtain ⟨hpre, ⟨⟨hp1, hp2, hp3⟩, hmid, ⟨hnk, hpost⟩, hdis⟩, hall⟩ := h
  have hne : nk ∉ Dict.keys (pre ++ [(prior, v)]) := by
    simp only [Dict.keys_append, Dict.keys_cons, Dict.keys_nil, List.mem_append, List.mem_cons, List.not_mem_nil,
      or_false, not_or]
    exact ⟨fun hh => hall nk hh nk (by simp) rfl, fun e => hp2 e.symm⟩
  have hnm : nk ∉ Dict.keys mid := fun hh => hdis nk hh nk (by simp) rfl
  rw [Dict.set_of_not_mem _ _ hne]
  have hupd : ∀ (d e f : Dict κ α), Dict.update d (e ++ f) = Dict.update (Dict.update d e) f := by
    intro d e f; simp [Dict.update]
  have hnd1 : (Dict.keys (((pre ++ [(prior, v)]) ++ [(nk, nv)]) ++ mid)).Nodup := by
    simp only [Dict.keys_append, Dict.keys_cons, Dict.keys_nil, List.append_assoc, List.cons_append, List.nil_append,
      List.nodup_append, List.nodup_cons, List.mem_cons, not_or]
    refine ⟨hpre, ⟨⟨fun e => hp2 e, hp1⟩, hnm, hmid⟩, ?_⟩
    rintro a ha b (rfl | rfl | hb)
    · exact hall a ha b (by simp)
    · exact hall a ha b (by simp)
    · exact hall a ha b (by simp [hb])
  rw [hupd, update_disjoint _ mid hnd1, Dict.update_cons]
  have e1 : (((pre ++ [(prior, v)]) ++ [(nk, nv)]) ++ mid) = (pre ++ [(prior, v)]) ++ (nk, nv) :: mid := by simp
  rw [e1, set_append_mem hne, update_disjoint]
  · simp
  · simp only [Dict.keys_append, Dict.keys_cons, Dict.keys_nil, List.append_assoc, List.cons_append, List.nil_append,
      List.nodup_append, List.nodup_cons, List.mem_cons, List.mem_append, not_or]
    refine ⟨hpre, ⟨⟨fun e => hp2 e, hp1, hp3⟩, ⟨hnm, hnk⟩, hmid, hpost, ?_⟩, ?_⟩
    · intro a ha b hb; exact hdis a ha b (by simp [hb])
    · rintro a ha b (rfl | rfl | hb | hb)
      · exact hall a ha b (by simp)
      · exact hall a ha b (by simp)
      · exact hall a ha b (by simp [hb])
      · exact hall a ha b (by simp [hb])

/-- **C13** (new key already before the prior key, or equal to it): it stays where it is and gets the new value. -/
theorem C13_present_before (nk : κ) (nv old : α) (prior : κ) (v : α) (pre mid post : Dict κ α) :
    (Dict.WF (pre ++ (nk, old) :: (mid ++ (prior, v) :: post)) →
      insertAfter nk nv prior (pre ++ (nk, old) :: (mid ++ (prior, v) :: post)) =
        pre ++ (nk, nv) :: (mid ++ (prior, v) :: post)) ∧
    (Dict.WF (pre ++ (prior, v) :: post) →
      insertAfter prior nv prior (pre ++ (prior, v) :: post) = pre ++ (prior, nv) :: post) := by
  constructor
  · intro hwf
    have e0 : pre ++ (nk, old) :: (mid ++ (prior, v) :: post) = (pre ++ (nk, old) :: mid) ++ (prior, v) :: post := by
      simp
    rw [e0] at hwf ⊢
    rw [insertAfter_split _ _ _ _ _ _ hwf]
    have hk : nk ∉ Dict.keys pre := by
      simp only [Dict.WF, Dict.keys_append, Dict.keys_cons, List.append_assoc, List.cons_append, List.nodup_append] at hwf
      exact fun h => hwf.2.2 nk h nk (by simp) rfl
    have e1 : (pre ++ (nk, old) :: mid) ++ [(prior, v)] = pre ++ (nk, old) :: (mid ++ [(prior, v)]) := by simp
    rw [e1, set_append_mem hk, update_disjoint]
    · simp
    · simpa [Dict.WF, Dict.keys] using hwf
  · intro hwf
    rw [insertAfter_split _ _ _ _ _ _ hwf]
    have hk : prior ∉ Dict.keys pre := by
      simp only [Dict.WF, Dict.keys_append, Dict.keys_cons, List.nodup_append] at hwf
      exact fun h => hwf.2.2 prior h prior (by simp) rfl
    rw [set_append_mem hk, update_disjoint]
    · simp
    · simpa [Dict.WF, Dict.keys] using hwf

example : insertAfter (κ := Nat) (α := Nat) 9 90 2 [(1, 10), (2, 20), (3, 30)] =
    [(1, 10), (2, 20), (9, 90), (3, 30)] := rfl
example : insertAfter (κ := Nat) (α := Nat) 3 90 1 [(1, 10), (2, 20), (3, 30)] =
    [(1, 10), (3, 30), (2, 20)] := rfl
end insert

/-! ## C14 -/
section getfrom
variable {O K : Type}

/-- a key resolves by item access, or by attribute access when item access raises one of the three caught errors -/
def Resolves (getitem getattr : O → K → Except PyErr O) (o : O) (k : K) (o' : O) : Prop :=
  getitem o k = .ok o' ∨
    ((getitem o k = .error .keyError ∨ getitem o k = .error .indexError ∨ getitem o k = .error .typeError) ∧
      getattr o k = .ok o')

/-- a chain of resolutions -/
inductive ResolvesAll (getitem getattr : O → K → Except PyErr O) : O → List K → O → Prop
  | nil (o) : ResolvesAll getitem getattr o [] o
  | cons {o k o' ks o''} : Resolves getitem getattr o k o' → ResolvesAll getitem getattr o' ks o'' →
      ResolvesAll getitem getattr o (k :: ks) o''

/-- a key resolves to neither: item access raises a caught error and attribute access raises `AttributeError` -/
def Misses (getitem getattr : O → K → Except PyErr O) (o : O) (k : K) : Prop :=
  (getitem o k = .error .keyError ∨ getitem o k = .error .indexError ∨ getitem o k = .error .typeError) ∧
    getattr o k = .error .attributeError

theorem getitemattr_resolves {getitem getattr : O → K → Except PyErr O} {o : O} {k : K} {o' : O}
    (h : Resolves getitem getattr o k o') : getitemattr getitem getattr o k = .ok o' := by
  rcases h with h | ⟨h | h | h, h'⟩ <;> simp [getitemattr, h]
  all_goals exact h'

theorem getitemattr_misses {getitem getattr : O → K → Except PyErr O} {o : O} {k : K}
    (h : Misses getitem getattr o k) : getitemattr getitem getattr o k = .error .attributeError := by
  obtain ⟨h | h | h, h'⟩ := h <;> simp [getitemattr, h]
  all_goals exact h'

/-- **C14 (partial)**. `get_from` returns the object at the end of the chain if every key resolves, and the default if
after a resolving prefix a key misses (attribute access raising `AttributeError`). Missing: a key that is not a string
and is absent makes attribute access raise `TypeError`, which escapes; see `C14_non_string_key_escapes`. -/
theorem C14_get_from_partial (getitem getattr : O → K → Except PyErr O) (default o : O) :
    (∀ ks o', ResolvesAll getitem getattr o ks o' → getFrom getitem getattr default o ks = .ok o') ∧
    (∀ pre k post o', ResolvesAll getitem getattr o pre o' → Misses getitem getattr o' k →
      getFrom getitem getattr default o (pre ++ k :: post) = .ok default) := by
  constructor
  · intro ks o' h
    induction h with
    | nil => rfl
    | cons h1 _ ih => simp [getFrom, getitemattr_resolves h1, ih]
  · intro pre k post o' h hm
    induction h with
    | nil => simp [getFrom, getitemattr_misses hm]
    | cons h1 _ ih => simp [getFrom, getitemattr_resolves h1, ih hm]

/-- **C14** (converse): a returned value is the end of a full chain of resolutions or the default. -/
theorem C14_get_from_only (getitem getattr : O → K → Except PyErr O) (default : O) (ks : List K) :
    ∀ o r, getFrom getitem getattr default o ks = .ok r →
      ResolvesAll getitem getattr o ks r ∨ r = default := by
  induction ks with
  | nil => intro o r h; simp [getFrom] at h; subst h; exact Or.inl (.nil _)
  | cons k ks ih =>
    intro o r h
    simp only [getFrom] at h
    cases hg : getitemattr getitem getattr o k with
    | ok o' =>
      simp only [hg] at h
      have hr : Resolves getitem getattr o k o' := by
        unfold getitemattr at hg
        cases hi : getitem o k with
        | ok v => simp [hi] at hg; exact Or.inl (by rw [hi, hg])
        | error e =>
          cases e <;> simp [hi] at hg
          · exact Or.inr ⟨Or.inl hi, hg⟩
          · exact Or.inr ⟨Or.inr (Or.inl hi), hg⟩
          · exact Or.inr ⟨Or.inr (Or.inr hi), hg⟩
      rcases ih o' r h with h | h
      · exact Or.inl (.cons hr h)
      · exact Or.inr h
    | error e =>
      rw [hg] at h
      cases e <;> simp at h
      exact Or.inr h.symm

/-- keys of the example: strings (`Sum.inl`) or integers (`Sum.inr`) -/
abbrev ExKey := List Char ⊕ Nat

/-- a plain dict (of scalars) as object: `none` is the object found, `some d` a dict; subscription and attribute access
as CPython does for a `dict` without attributes other than `items` -/
def exGetitem : Option (Dict ExKey Nat) → ExKey → Except PyErr (Option (Dict ExKey Nat))
  | none, _ => .error .typeError
  | some d, k => match Dict.get? d k with
    | some _ => .ok none
    | none => .error .keyError
def exGetattr : Option (Dict ExKey Nat) → ExKey → Except PyErr (Option (Dict ExKey Nat))
  | _, .inr _ => .error .typeError        -- "attribute name must be string"
  | some _, .inl s => if s = "items".toList then .ok none else .error .attributeError
  | none, .inl _ => .error .attributeError

/-- **C14 is false of the code** for keys that are not strings: `get_from({'a': 1}, [7], default)` raises `TypeError`
although neither an item nor an attribute exists. -/
theorem C14_non_string_key_escapes : ∃ (o dflt : Option (Dict ExKey Nat)) (k : ExKey),
    exGetitem o k = .error .keyError ∧ (∀ o', exGetattr o k ≠ .ok o') ∧
    getFrom exGetitem exGetattr dflt o [k] = .error .typeError :=
  ⟨some [(.inl "a".toList, 1)], some [], .inr 7, rfl, by intro o'; simp [exGetattr], rfl⟩

example : getFrom exGetitem exGetattr (some []) (some [(.inl "a".toList, 1)]) [.inl "a".toList] = .ok none := rfl
example : getFrom exGetitem exGetattr (some []) (some [(.inl "a".toList, 1)]) [.inl "b".toList] = .ok (some []) := rfl
end getfrom

/-! ## C15 -/
section separate
variable {α : Type}

/-- `xs` is an order-preserving merge of `ys` and `zs` -/
inductive Interleaves : List α → List α → List α → Prop
  | nil : Interleaves [] [] []
  | left {x ys zs xs} : Interleaves ys zs xs → Interleaves (x :: ys) zs (x :: xs)
  | right {x ys zs xs} : Interleaves ys zs xs → Interleaves ys (x :: zs) (x :: xs)

theorem separateByLoop_ok (ref : α → PredResult) (xs hits misses : List α) :
    separateByLoop (fun x => .ok (ref x)) xs hits misses =
      .ok (hits ++ xs.filter (fun x => ref x == .true_), misses ++ xs.filter (fun x => !(ref x == .true_))) := by
  induction xs generalizing hits misses with
  | nil => simp [separateByLoop]
  | cons x xs ih =>
    simp only [separateByLoop, bind, Except.bind]
    by_cases h : ref x = .true_
    · rw [if_pos h, ih]; simp [h]
    · rw [if_neg h, ih]; simp [h]

/-- **C15**. With a predicate that does not raise, `separate_by` returns hits and misses that interleave to the input
(so every item is in exactly one list, with order kept); an item is a hit exactly when `ref(item)` is the object
`True` — other truthy results are misses. -/
theorem C15_separate_by (ref : α → PredResult) (xs : List α) :
    ∃ hits misses, separateBy xs (fun x => .ok (ref x)) = .ok (hits, misses) ∧ Interleaves hits misses xs ∧
      (∀ x ∈ hits, ref x = .true_) ∧ (∀ x ∈ misses, ref x ≠ .true_) := by
  refine ⟨_, _, by rw [separateBy, separateByLoop_ok], ?_, ?_, ?_⟩
  · simp only [List.nil_append]
    induction xs with
    | nil => exact .nil
    | cons x xs ih =>
      by_cases h : ref x = .true_
      · simp [h]; exact .left (by simpa using ih)
      · simp [h]; exact .right (by simpa using ih)
  · intro x hx; simpa using (List.mem_filter.1 hx).2
  · intro x hx; simpa using (List.mem_filter.1 hx).2

/-- **C15** (errors): the first raising item's exception propagates. -/
theorem C15_raises (ref : α → Except PyErr PredResult) (pre : List α) (x : α) (post : List α) (e : PyErr)
    (hpre : ∀ y ∈ pre, ∃ r, ref y = .ok r) (hx : ref x = .error e) :
    separateBy (pre ++ x :: post) ref = .error e := by
  unfold separateBy
  suffices H : ∀ h m, separateByLoop ref (pre ++ x :: post) h m = .error e from H [] []
  intro h m
  induction pre generalizing h m with
  | nil => simp [separateByLoop, hx, bind, Except.bind]
  | cons y ys ih =>
    obtain ⟨r, hr⟩ := hpre y (by simp)
    simp only [List.cons_append, separateByLoop, hr, bind, Except.bind]
    have := ih fun z hz => hpre z (List.mem_cons_of_mem _ hz)
    split <;> exact this _ _

example : separateBy [1, 2, 3, 4] (fun n => .ok (if n = 2 then .truthy else if n % 2 = 0 then .true_ else .false_)) =
    .ok ([4], [1, 2, 3]) := rfl
end separate

/-! ## C16 -/
section hashdict
variable {K H V : Type} [DecidableEq K] [DecidableEq H]

/-- the item last assigned to `k` in a history of assignments -/
def lastAssigned (k : K) (hist : List (K × V)) : Option V := (hist.reverse.find? fun x => x.1 = k).map Prod.snd

/-- the first item with hash `h` in a history of assignments -/
def firstWithHash (hasher : V → H) (h : H) (hist : List (K × V)) : Option V :=
  (hist.find? fun x => hasher x.2 = h).map Prod.snd

/-- the state after a history of assignments -/
def hashDictAfter (hasher : V → H) (hist : List (K × V)) : HashDict K H V :=
  hist.foldl (fun d x => d.setItem hasher x.1 x.2) HashDict.empty

theorem hashDict_inv (hasher : V → H) (hist : List (K × V)) :
    (∀ k, (hashDictAfter hasher hist).dict_.get? k = (lastAssigned k hist).map hasher) ∧
    (∀ h, (hashDictAfter hasher hist).reverse.get? h = firstWithHash hasher h hist) ∧
    Dict.WF (hashDictAfter hasher hist).reverse := by
  induction hist using List.reverseRecOn with
  | nil => exact ⟨fun _ => rfl, fun _ => rfl, Dict.wf_nil⟩
  | append_singleton hist x ih =>
    obtain ⟨k', v⟩ := x
    obtain ⟨i1, i2, i3⟩ := ih
    have hstep : hashDictAfter hasher (hist ++ [(k', v)]) = (hashDictAfter hasher hist).setItem hasher k' v := by
      simp [hashDictAfter]
    rw [hstep]
    refine ⟨?_, ?_, ?_⟩
    · intro k
      simp only [HashDict.setItem, Dict.get?_set, i1, lastAssigned, List.reverse_append, List.reverse_cons,
        List.reverse_nil, List.nil_append, List.cons_append, List.find?_cons]
      by_cases h : k' = k <;> simp [h]
    · intro h
      simp only [HashDict.setItem]
      have hf : firstWithHash hasher h (hist ++ [(k', v)]) =
          match firstWithHash hasher h hist with
          | some w => some w
          | none => if hasher v = h then some v else none := by
        simp only [firstWithHash, List.find?_append]
        cases hist.find? (fun x => hasher x.2 = h) with
        | some y => simp
        | none => by_cases hh : hasher v = h <;> simp [hh]
      rw [hf]
      split
      · rename_i hm
        rw [← Dict.get?_isSome, i2] at hm
        by_cases hh : hasher v = h
        · subst hh
          rw [i2]
          obtain ⟨w, hw⟩ := Option.isSome_iff_exists.1 hm
          rw [hw]
        · rw [i2]
          cases firstWithHash hasher h hist <;> simp [hh]
      · rename_i hm
        by_cases hh : hasher v = h
        · subst hh
          rw [← Dict.get?_eq_none, i2] at hm
          rw [Dict.get?_set_self, hm]
          simp
        · rw [Dict.get?_set_ne _ _ (fun e => hh e.symm), i2]
          cases firstWithHash hasher h hist <;> simp [hh]
    · simp only [HashDict.setItem]
      split
      · exact i3
      · exact Dict.wf_set i3 _ _

/-- **C16**. After any history of assignments, `d[k]` raises `KeyError` if `k` was never assigned, and otherwise is the
first item ever stored whose hash equals that of the item last assigned to `k`; if the hash separates the stored items
this is the item last assigned itself. -/
theorem C16_lookup (hasher : V → H) (hist : List (K × V)) (k : K) :
    (lastAssigned k hist = none → (hashDictAfter hasher hist).getItem k = .error .keyError) ∧
    (∀ v, lastAssigned k hist = some v → ∃ w, (hashDictAfter hasher hist).getItem k = .ok w ∧
      hasher w = hasher v ∧ firstWithHash hasher (hasher v) hist = some w ∧
      ((∀ x ∈ hist, ∀ y ∈ hist, hasher x.2 = hasher y.2 → x.2 = y.2) → w = v)) := by
  obtain ⟨i1, i2, _⟩ := hashDict_inv hasher hist
  constructor
  · intro h
    simp [HashDict.getItem, i1, h]
  · intro v hv
    have hmem : ∃ x ∈ hist, x.2 = v := by
      simp only [lastAssigned, Option.map_eq_some_iff] at hv
      obtain ⟨x, hx, rfl⟩ := hv
      exact ⟨x, by simpa using List.mem_of_find?_eq_some hx, rfl⟩
    obtain ⟨x, hx, rfl⟩ := hmem
    have hsome : (firstWithHash hasher (hasher x.2) hist).isSome := by
      simp only [firstWithHash, Option.isSome_map, List.find?_isSome]
      exact ⟨x, hx, by simp⟩
    obtain ⟨w, hw⟩ := Option.isSome_iff_exists.1 hsome
    have hw' := hw
    simp only [firstWithHash, Option.map_eq_some_iff] at hw'
    obtain ⟨y, hy, rfl⟩ := hw'
    have hyh : hasher y.2 = hasher x.2 := by simpa using List.find?_some hy
    refine ⟨y.2, ?_, hyh, hw, ?_⟩
    · simp [HashDict.getItem, i1, hv, i2, hw]
    · intro hsep
      exact hsep y (List.mem_of_find?_eq_some hy) x hx hyh

/-- **C16** (counts). The number of stored unique values is the number of distinct hashes ever assigned. -/
theorem C16_counts (hasher : V → H) (hist : List (K × V)) :
    ∃ hs : List H, hs.Nodup ∧ (∀ h, h ∈ hs ↔ ∃ x ∈ hist, hasher x.2 = h) ∧
      (hashDictAfter hasher hist).counts.2 = hs.length := by
  obtain ⟨_, i2, i3⟩ := hashDict_inv hasher hist
  refine ⟨Dict.keys (hashDictAfter hasher hist).reverse, i3, ?_, ?_⟩
  · intro h
    rw [← Dict.get?_isSome, i2]
    simp only [firstWithHash, Option.isSome_map, List.find?_isSome, decide_eq_true_eq]
  · simp [HashDict.counts, Dict.keys]

/-- witness: items hashed by parity; the second even item assigned to key 2 reads back as the first even item -/
example : (hashDictAfter (K := Nat) (V := Nat) (fun n => n % 2) [(1, 4), (2, 7), (2, 10)]).getItem 2 = .ok 4 := rfl
example : (hashDictAfter (K := Nat) (V := Nat) id [(1, 4), (2, 7), (2, 10)]).getItem 2 = .ok 10 := rfl
end hashdict

/-! ## C20, C21 -/
section number
variable {κ α : Type} [DecidableEq κ]

theorem foldl_set_nodup {κ α : Type} [DecidableEq κ] (l : Dict κ α) (h : Dict.WF l) :
    l.foldl (fun (d : Dict κ α) kv => d.set kv.1 kv.2) [] = l := by
  have := update_disjoint [] l (by simpa [Dict.WF] using h)
  simpa [Dict.update] using this

/-- **C20** (`reindex_mapping`). The result lists the values in order under keys 0, 1, …, and is a fixed point. -/
theorem C20_reindex (m : Dict κ α) :
    Dict.keys (reindexMapping m) = List.range m.length ∧ Dict.values (reindexMapping m) = Dict.values m ∧
    reindexMapping (reindexMapping m) = reindexMapping m := by
  have key : ∀ {κ : Type} (m : Dict κ α), reindexMapping m = (List.range m.length).zip (Dict.values m) := by
    intro κ m
    unfold reindexMapping
    apply foldl_set_nodup
    unfold Dict.WF Dict.keys
    rw [List.map_fst_zip (by simp [Dict.values])]
    exact List.nodup_range
  have h1 : Dict.keys (reindexMapping m) = List.range m.length := by
    rw [key]; unfold Dict.keys; exact List.map_fst_zip (by simp [Dict.values])
  have h2 : Dict.values (reindexMapping m) = Dict.values m := by
    rw [key]; unfold Dict.values; exact List.map_snd_zip (by simp)
  refine ⟨h1, h2, ?_⟩
  rw [key (reindexMapping m), h2]
  have : (reindexMapping m).length = m.length := by
    have := congrArg List.length h1
    simpa [Dict.keys] using this
  rw [this, key]

/-- **C20** (`enumerate_as_mapping`). `None` gives the empty dict, a mapping gives itself, an iterable gives its
elements in order under keys 0, 1, …; on the result it is the identity. -/
theorem C20_enumerate (ofNat : Nat → κ) (hinj : ∀ i j, ofNat i = ofNat j → i = j) (m : Dict κ α) (l : List α) :
    enumerateAsMapping ofNat (.none : SeqOrMap κ α) = [] ∧ enumerateAsMapping ofNat (.mapping m) = m ∧
    Dict.keys (enumerateAsMapping (α := α) ofNat (.iterable l)) = (List.range l.length).map ofNat ∧
    Dict.values (enumerateAsMapping (α := α) ofNat (.iterable l)) = l ∧
    (∀ i (h : i < l.length), Dict.get? (enumerateAsMapping ofNat (.iterable l)) (ofNat i) = some l[i]) ∧
    enumerateAsMapping ofNat (.mapping (enumerateAsMapping ofNat (.iterable l))) =
      enumerateAsMapping ofNat (.iterable l) := by
  have hkeys : Dict.keys (l.zipIdx.map fun x => (ofNat x.2, x.1)) = (List.range l.length).map ofNat := by
    simp only [Dict.keys, List.map_map]
    have : (Prod.fst ∘ fun x : α × Nat => (ofNat x.2, x.1)) = ofNat ∘ Prod.snd := rfl
    rw [this, ← List.map_map, List.zipIdx_map_snd, List.range_eq_range']
  have hwf : Dict.WF (l.zipIdx.map fun x => (ofNat x.2, x.1)) := by
    unfold Dict.WF
    rw [hkeys]
    exact List.Pairwise.map _ (fun i j hij he => hij (hinj i j he)) List.nodup_range
  have e : enumerateAsMapping (α := α) ofNat (.iterable l) = l.zipIdx.map fun x => (ofNat x.2, x.1) :=
    foldl_set_nodup _ hwf
  refine ⟨rfl, rfl, by rw [e]; exact hkeys, ?_, ?_, rfl⟩
  · rw [e]
    simp only [Dict.values, List.map_map]
    have : (Prod.snd ∘ fun x : α × Nat => (ofNat x.2, x.1)) = Prod.fst := rfl
    rw [this, List.zipIdx_map_fst]
  · intro i h
    rw [e]
    apply Dict.get?_of_mem hwf
    refine List.mem_map.2 ⟨(l[i], i), ?_, rfl⟩
    rw [List.mem_zipIdx_iff_getElem?]
    simp [h]

example : reindexMapping [("a", 5), ("b", 7)] = [(0, 5), (1, 7)] := rfl
example : enumerateAsMapping (κ := Nat) id (.iterable ["x", "y"]) = [(0, "x"), (1, "y")] := rfl

/-- **C21**. `listify` lists the elements of any collection other than a string, wraps everything else, and is
idempotent. -/
theorem C21_listify (x : Thing) :
    (∀ b elems, x = .coll b elems → listify x = elems) ∧
    ((∀ b elems, x ≠ .coll b elems) → listify x = [x]) ∧
    listify (.coll true (listify x)) = listify x := by
  refine ⟨?_, ?_, rfl⟩
  · rintro b elems rfl; rfl
  · intro h
    cases x with
    | coll b e => exact absurd rfl (h b e)
    | scalar n => rfl
    | str s => rfl

example : listify (.str "ab".toList) = [.str "ab".toList] := rfl
example : listify (.coll false [.scalar 1, .str "ab".toList]) = [.scalar 1, .str "ab".toList] := rfl
end number

end Verif.Props
