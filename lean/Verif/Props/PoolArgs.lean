import Verif.Lemmas.PoolArgs
import Verif.Props.Pickle
import Verif.Props.Pool
/-! # C144: `MaybePool.map` of functions that change their arguments -/
namespace Verif.Props
open Verif Verif.Model Verif.Spec

/-- C144, in full: in every mode the result of a record is what the function gives for the argument as the caller has it -/
def C144_full : Prop :=
  ∀ (c : Codec (PHeap × PRef)) (f : PyFunc) (h : PHeap) (as : List PRef) (mode : PoolMode), GraphCodec c → ByValue f → KeepsOK f →
    (∀ a ∈ as, OKFrom h a) → (∀ n, mode = .chunks n → 1 ≤ n) → OneByOne c f h as mode

/-! ## the pickle codec brings values back -/

/-- **C136** (only what is reached matters): objects elsewhere in memory need not be as Python has them -/
theorem C136_round_trip_from (short : Nat → Bool) (lim : Nat) (h : PHeap) (r : PRef) (hok : OKFrom h r) (b : Bytes)
    (hb : (pickleCodec short lim).encode (h, r) = .ok b) (rest : Bytes) :
    ∃ h' r', (pickleCodec short lim).decode (b ++ rest) = .ok (h', r') ∧ SameGraph h r h' r' := by
  classical
  let h' : PHeap := h.mapIdx fun a n => if PReach h r a then n else .list []
  have hag : ∀ a, PReach h r a → h'[a]? = h[a]? := by
    intro a ha
    simp only [h', List.getElem?_mapIdx, if_pos ha]
    cases h[a]? <;> rfl
  have hs := Lemmas.Pickle.same_agree hok hag
  have hok' : HeapOK h' := by
    intro a n hn
    by_cases ha : PReach h r a
    · obtain ⟨m, hm, hmo⟩ := Lemmas.Pickle.okFrom_agree hok hag a ((Lemmas.Pickle.reach_agree hag).2 ha)
      rw [hn] at hm; cases hm
      exact hmo
    · simp only [h', List.getElem?_mapIdx, if_neg ha] at hn
      cases hh : h[a]? with
      | none => rw [hh] at hn; cases hn
      | some m => rw [hh] at hn; cases hn; trivial
  have hb' : (pickleCodec short lim).encode (h', r) = .ok b := by
    show dumpsP short lim h' r = _
    rw [← Lemmas.Pickle.dumps_same short lim hs]
    exact hb
  obtain ⟨H, R, h1, h2⟩ := C136_round_trip short lim h' r hok' b hb' rest
  exact ⟨H, R, h1, Lemmas.Pickle.SameGraph.trans hs h2⟩

theorem pickle_graphCodec (short : Nat → Bool) (lim : Nat) : GraphCodec (pickleCodec short lim) := by
  intro h r b hok hb
  have := C136_round_trip_from short lim h r hok b hb []
  rwa [List.append_nil] at this

/-! ## calls -/

theorem sent_spec {c : Codec (PHeap × PRef)} (hc : GraphCodec c) {h : PHeap} {r : PRef} (hok : OKFrom h r) :
    (∃ h' r', sent c (h, r) = .ok (h', r') ∧ SameGraph h r h' r') ∨ (∃ e, sent c (h, r) = .error e ∧ c.encode (h, r) = .error e) := by
  unfold sent
  cases hb : c.encode (h, r) with
  | error e => exact .inr ⟨e, rfl, rfl⟩
  | ok b =>
    obtain ⟨h', r', h1, h2⟩ := hc h r b hok hb
    exact .inl ⟨h', r', h1, h2⟩

/-- a result as it should be, or none because of the codec -/
def ResultOK (c : Codec (PHeap × PRef)) (f : PyFunc) (h : PHeap) (a : PRef) (x : Except PyErr (PHeap × PRef)) : Prop :=
  (∃ h' r, x = .ok (h', r) ∧ SameGraph (f h a).2 (f h a).1 h' r) ∨ ∃ e v, x = .error e ∧ c.encode v = .error e

theorem poolCall_ok {c : Codec (PHeap × PRef)} (hc : GraphCodec c) {f : PyFunc} (hv : ByValue f) (hk : KeepsOK f) {h : PHeap} {a : PRef}
    (hok : OKFrom h a) : ResultOK c f h a (poolCall c f h a) := by
  unfold poolCall
  rcases sent_spec hc hok with ⟨H, s, h1, h2⟩ | ⟨e, h1, h2⟩
  · have s1 := hv _ _ _ _ hok h2
    have o1 := hk _ _ (Lemmas.Pickle.okFrom_same h2 hok)
    simp only [h1, bind, Except.bind]
    rcases sent_spec hc o1 with ⟨H', s', g1, g2⟩ | ⟨e, g1, g2⟩
    · exact .inl ⟨H', s', g1, Lemmas.Pickle.SameGraph.trans s1 g2⟩
    · exact .inr ⟨e, _, g1, g2⟩
  · exact .inr ⟨e, _, by rw [h1]; rfl, h2⟩

/-- whatever the function may change, some arguments do not disturb each other, here or after they were sent -/
def Undisturbed (f : PyFunc) (h : PHeap) (as : List PRef) : Prop :=
  ∀ (H : PHeap) (xs : List PRef) (R : Nat → Nat → Prop), (∀ a b b', R a b → R a b' → b = b') →
    (∀ a a' b, R a b → R a' b → a = a') → (∀ a b, R a b → ∃ n n', h[a]? = some n ∧ H[b]? = some n' ∧ NodeRel R n n') → List.Forall₂ (RefRel R) as xs →
    ∃ W, Lemmas.Pickle.CallsApart f W H xs

theorem forall₂_self {α : Type} {p : α → α → Prop} : ∀ {l : List α}, (∀ x ∈ l, p x x) → List.Forall₂ p l l
  | [], _ => .nil
  | x :: l, h => .cons (h x (by simp)) (forall₂_self fun y hy => h y (List.mem_cons_of_mem _ hy))

theorem undisturbed_here {f : PyFunc} {h : PHeap} {as : List PRef} (hu : Undisturbed f h as) (hok : ∀ a ∈ as, OKFrom h a) :
    ∃ W, Lemmas.Pickle.CallsApart f W h as := by
  refine hu h as (fun x y => x = y ∧ ∃ a ∈ as, PReach h a x) ?_ ?_ ?_ ?_
  · rintro a b b' ⟨rfl, _⟩ ⟨rfl, _⟩; rfl
  · rintro a a' b ⟨rfl, _⟩ ⟨rfl, _⟩; rfl
  · rintro a b ⟨rfl, x, hx, hr⟩
    obtain ⟨n, hn, _⟩ := hok x hx a hr
    exact ⟨n, n, hn, hn, Lemmas.Pickle.nodeRel_refl fun b hb => ⟨rfl, x, hx, .step hr hn hb⟩⟩
  · refine forall₂_self fun x hx => ?_
    cases x <;> constructor
    exact ⟨rfl, _, hx, .here rfl⟩

theorem forall₂_mem {α β : Type} {p : α → β → Prop} {l : List α} {m : List β} (h : List.Forall₂ p l m) :
    List.Forall₂ (fun x y => p x y ∧ x ∈ l ∧ y ∈ m) l m := by
  induction h with
  | nil => exact .nil
  | cons h1 _ ih =>
    exact .cons ⟨h1, by simp, by simp⟩ (ih.imp fun _ _ h => ⟨h.1, List.mem_cons_of_mem _ h.2.1, List.mem_cons_of_mem _ h.2.2⟩)

theorem forall₂_trans {α β γ : Type} {p : α → β → Prop} {q : β → γ → Prop} {t : α → γ → Prop} (ht : ∀ x y z, p x y → q y z → t x z)
    {l : List α} {m : List β} {k : List γ} (h1 : List.Forall₂ p l m) (h2 : List.Forall₂ q m k) : List.Forall₂ t l k := by
  induction h1 generalizing k with
  | nil => cases h2; exact .nil
  | cons hp _ ih => cases h2 with | cons hq h2 => exact .cons (ht _ _ _ hp hq) (ih h2)

/-- the list is still one element as the other -/
theorem chunkCall_ok {c : Codec (PHeap × PRef)} (hc : GraphCodec c) {f : PyFunc} (hv : ByValue f) (hk : KeepsOK f) {h : PHeap}
    {as : List PRef} (hok : ∀ a ∈ as, OKFrom h a) (hu : Undisturbed f h as) :
    (∃ l, chunkCall c f h as = .ok l ∧ List.Forall₂ (fun a v => SameGraph (f h a).2 (f h a).1 v.1 v.2) as l) ∨
    ∃ e v, chunkCall c f h as = .error e ∧ c.encode v = .error e := by
  unfold chunkCall
  rcases sent_spec hc (Lemmas.Pickle.okFrom_list hok) with ⟨H, s, h1, h2⟩ | ⟨e, h1, h2⟩
  · obtain ⟨R, r1, r2, r3, r4⟩ := Lemmas.Pickle.list_sent h2
    have same : ∀ a ∈ as, ∀ a', RefRel R a a' → SameGraph h a H a' := fun a ha a' hr =>
      Lemmas.Pickle.SameGraph.trans (Lemmas.Pickle.same_agree (hok a ha) fun x hx => List.getElem?_append_left (Lemmas.Pickle.reach_lt (hok a ha) hx))
        ⟨R, r1, r2, hr, r3⟩
    have rm := forall₂_mem r4
    -- the correspondence, as far as the arguments lead
    let S : Nat → Nat → Prop := fun x y => R x y ∧ ∃ a ∈ as, PReach h a x
    have s3 : ∀ x y, S x y → ∃ n n', h[x]? = some n ∧ H[y]? = some n' ∧ NodeRel S n n' := by
      rintro x y ⟨hxy, a, ha, hr⟩
      obtain ⟨n, n', k1, k2, k3⟩ := r3 x y hxy
      rw [List.getElem?_append_left (Lemmas.Pickle.reach_lt (hok a ha) hr)] at k1
      exact ⟨n, n', k1, k2, Lemmas.Pickle.nodeRel_imp k3 fun b b' hb hbb => ⟨hbb, a, ha, .step hr k1 hb⟩⟩
    have s4 : List.Forall₂ (RefRel S) as (pyElems (H, s)) := by
      refine rm.imp fun a a' hm => ?_
      obtain ⟨hr, ha, _⟩ := hm
      cases hr <;> constructor
      exact ⟨‹_›, _, ha, .here rfl⟩
    obtain ⟨W, hW⟩ := hu H _ S (fun a b b' h1 h2 => r1 a b b' h1.1 h2.1) (fun a a' b h1 h2 => r2 a a' b h1.1 h2.1) s3 s4
    have okx : ∀ x ∈ pyElems (H, s), OKFrom H x := by
      have : ∀ {l m : List PRef}, List.Forall₂ (fun a a' => RefRel R a a' ∧ a ∈ as ∧ a' ∈ pyElems (H, s)) l m → ∀ x ∈ m, OKFrom H x := by
        intro l m hlm
        induction hlm with
        | nil => intro x hx; cases hx
        | cons hp _ ih =>
          intro x hx
          rcases List.mem_cons.1 hx with e | hx
          · subst e; exact Lemmas.Pickle.okFrom_same (same _ hp.2.1 _ hp.1) (hok _ hp.2.1)
          · exact ih x hx
      exact this rm
    obtain ⟨_, _, res⟩ := Lemmas.Pickle.callAll_spec hv hk _ H hW okx (Nat.le_refl _) (fun _ _ _ _ => rfl)
    have res' : List.Forall₂ (fun a r => SameGraph (f h a).2 (f h a).1 (callAll f H (pyElems (H, s))).2 r ∧ OKFrom h a) as
        (callAll f H (pyElems (H, s))).1 :=
      forall₂_trans (fun a a' r hp hq => ⟨Lemmas.Pickle.SameGraph.trans (hv _ _ _ _ (hok a hp.2.1) (same a hp.2.1 a' hp.1)) hq, hok a hp.2.1⟩) rm res
    have okr : ∀ r ∈ (callAll f H (pyElems (H, s))).1, OKFrom (callAll f H (pyElems (H, s))).2 r := by
      have : ∀ {l m : List PRef}, List.Forall₂ (fun a r => SameGraph (f h a).2 (f h a).1 (callAll f H (pyElems (H, s))).2 r ∧ OKFrom h a) l m →
          ∀ r ∈ m, OKFrom (callAll f H (pyElems (H, s))).2 r := by
        intro l m hlm
        induction hlm with
        | nil => intro x hx; cases hx
        | cons hp _ ih =>
          intro x hx
          rcases List.mem_cons.1 hx with e | hx
          · subst e; exact Lemmas.Pickle.okFrom_same hp.1 (hk _ _ hp.2)
          · exact ih x hx
      exact this res'
    have e1 : sent c (pyList h as) = .ok (H, s) := h1
    simp only [e1, bind, Except.bind]
    rcases sent_spec hc (Lemmas.Pickle.okFrom_list okr) with ⟨H', s', g1, g2⟩ | ⟨e, g1, g2⟩
    · have e2 : sent c (pyList (callAll f H (pyElems (H, s))).2 (callAll f H (pyElems (H, s))).1) = .ok (H', s') := g1
      simp only [e2]
      refine .inl ⟨_, rfl, ?_⟩
      obtain ⟨R', t1, t2, t3, t4⟩ := Lemmas.Pickle.list_sent g2
      rw [List.forall₂_map_right_iff]
      refine forall₂_trans (fun a r r' hp hq => ?_) res' (forall₂_mem t4)
      have okr' := okr r hq.2.1
      exact Lemmas.Pickle.SameGraph.trans hp.1 (Lemmas.Pickle.SameGraph.trans (Lemmas.Pickle.same_agree okr' fun x hx =>
        List.getElem?_append_left (Lemmas.Pickle.reach_lt okr' hx)) ⟨R', t1, t2, hq.1, t3⟩)
    · have e2 : sent c (pyList (callAll f H (pyElems (H, s))).2 (callAll f H (pyElems (H, s))).1) = .error e := g1
      simp only [e2]
      exact .inr ⟨e, _, rfl, g2⟩
  · have e1 : sent c (pyList h as) = .error e := h1
    simp only [e1, bind, Except.bind]
    exact .inr ⟨e, _, rfl, h2⟩

theorem undisturbed_sub {f : PyFunc} {h : PHeap} {as : List PRef} (hu : ∀ ch, ch.Sublist as → Undisturbed f h ch) (hok : ∀ a ∈ as, OKFrom h a)
    {c : Codec (PHeap × PRef)} (hc : GraphCodec c) (hv : ByValue f) (hk : KeepsOK f) : ∀ chs : List (List PRef), (∀ ch ∈ chs, ch.Sublist as) →
    List.Forall₂ (ResultOK c f h) chs.flatten (chs.flatMap fun ch => match chunkCall c f h ch with
      | .ok l => l.map .ok
      | .error e => ch.map fun _ => .error e)
  | [], _ => .nil
  | ch :: chs, hs => by
    rw [List.flatten_cons, List.flatMap_cons]
    refine List.rel_append ?_ (undisturbed_sub hu hok hc hv hk chs fun x hx => hs x (List.mem_cons_of_mem _ hx))
    have hsub := hs ch (by simp)
    rcases chunkCall_ok hc hv hk (fun a ha => hok a (hsub.subset ha)) (hu ch hsub) with ⟨l, h1, h2⟩ | ⟨e, v, h1, h2⟩
    · simp only [h1]
      rw [List.forall₂_map_right_iff]
      exact h2.imp fun a v hv => .inl ⟨v.1, v.2, rfl, hv⟩
    · simp only [h1]
      rw [List.forall₂_map_right_iff]
      exact forall₂_self fun _ _ => .inr ⟨e, v, rfl, h2⟩

theorem oneByOne_of {c : Codec (PHeap × PRef)} {f : PyFunc} {h : PHeap} {as : List PRef} {mode : PoolMode} (hm : mode ≠ .serial)
    (hr : List.Forall₂ (ResultOK c f h) as (mapObjects c f h as mode).1) : OneByOne c f h as mode := by
  refine ⟨hr.length_eq.symm, fun i a x ha hx => ?_⟩
  obtain ⟨h1, e1⟩ := List.getElem?_eq_some_iff.1 ha
  obtain ⟨h2, e2⟩ := List.getElem?_eq_some_iff.1 hx
  have := hr.get h1 h2
  simp only [List.get_eq_getElem, e1, e2] at this
  exact this.imp id fun h => ⟨hm, h⟩

/-- every mode gives what single calls give when the arguments do not disturb each other -/
theorem modes_agree {c : Codec (PHeap × PRef)} (hc : GraphCodec c) {f : PyFunc} (hv : ByValue f) (hk : KeepsOK f) {h : PHeap} {as : List PRef}
    (hok : ∀ a ∈ as, OKFrom h a) (hu : ∀ ch, ch.Sublist as → Undisturbed f h ch) (mode : PoolMode) (hn : ∀ n, mode = .chunks n → 1 ≤ n) :
    OneByOne c f h as mode := by
  cases mode with
  | serial =>
    obtain ⟨W, hW⟩ := undisturbed_here (hu as (List.Sublist.refl _)) hok
    obtain ⟨_, _, res⟩ := Lemmas.Pickle.callAll_spec hv hk as h hW hok (Nat.le_refl _) (fun _ _ _ _ => rfl)
    refine ⟨by simp [mapObjects, res.length_eq], fun i a x ha hx => ?_⟩
    simp only [mapObjects, List.getElem?_map, Option.map_eq_some_iff] at hx
    obtain ⟨r, hr, rfl⟩ := hx
    obtain ⟨h1, e1⟩ := List.getElem?_eq_some_iff.1 ha
    obtain ⟨h2, e2⟩ := List.getElem?_eq_some_iff.1 hr
    have := res.get h1 h2
    simp only [List.get_eq_getElem, e1, e2] at this
    exact .inl ⟨_, r, rfl, this⟩
  | pool =>
    refine oneByOne_of (by simp) ?_
    simp only [mapObjects]
    rw [List.forall₂_map_right_iff]
    exact forall₂_self fun a ha => poolCall_ok hc hv hk (hok a ha)
  | chunks n =>
    refine oneByOne_of (by simp) ?_
    obtain ⟨_, h2, _⟩ := C19_chunks n (hn n rfl) as
    have := undisturbed_sub hu hok hc hv hk (divide n as) fun ch hch => by rw [← h2]; exact List.sublist_flatten_of_mem hch
    rw [h2] at this
    exact this

/-- C144, what holds of the full claim (functions that change nothing): in every mode, for any number of workers, and whatever
the records share, the result of each record is what the function gives for its argument -/
theorem C144_changes_none_partial (c : Codec (PHeap × PRef)) (hc : GraphCodec c) (f : PyFunc) (hv : ByValue f) (hk : KeepsOK f)
    (hf : ChangesNone f) (h : PHeap) (as : List PRef) (hok : ∀ a ∈ as, OKFrom h a) (mode : PoolMode) (hn : ∀ n, mode = .chunks n → 1 ≤ n) :
    OneByOne c f h as mode := by
  refine modes_agree hc hv hk hok (fun ch _ H xs R _ _ _ _ => ⟨fun _ _ => False, fun h r => (hf h r).length_le, ?_, ?_, ?_⟩) mode hn
  · intro a _ h _ _ x hx _
    obtain ⟨t, ht⟩ := hf h a
    rw [← ht, List.getElem?_append_left hx]
  · exact List.pairwise_of_forall fun _ _ _ _ h => h
  · exact List.pairwise_of_forall fun _ _ _ _ _ _ _ h => h

/-- C144, what holds of the full claim (functions that change what they are given): the same, if no list or dict is in the
arguments of two records -/
theorem C144_apart_partial (c : Codec (PHeap × PRef)) (hc : GraphCodec c) (f : PyFunc) (hv : ByValue f) (hk : KeepsOK f)
    (hf : ChangesOwn f) (h : PHeap) (as : List PRef) (hok : ∀ a ∈ as, OKFrom h a) (hap : Apart h as) (mode : PoolMode)
    (hn : ∀ n, mode = .chunks n → 1 ≤ n) : OneByOne c f h as mode := by
  refine modes_agree hc hv hk hok (fun ch hsub H xs R h1 h2 h4 hx => ?_) mode hn
  have hapc : Apart h ch := List.Pairwise.sublist hsub hap
  have hokc : ∀ a ∈ ch, OKFrom h a := fun a ha => hok a (hsub.subset ha)
  -- a place both lead to after they were sent is one both led to
  have hapx : Apart H xs := by
    clear hsub
    induction hx with
    | nil => exact .nil
    | @cons a a' as' xs' hr hl ih =>
      obtain ⟨p1, p2⟩ := List.pairwise_cons.1 hapc
      refine List.pairwise_cons.2 ⟨fun b' hb' x n hxa hxb hxn hcc => ?_, ih p2 fun a ha => hokc a (List.mem_cons_of_mem _ ha)⟩
      obtain ⟨b, hb, hrb⟩ : ∃ b ∈ as', RefRel R b b' := by
        clear p1 p2 ih hapc hokc
        induction hl with
        | nil => cases hb'
        | cons hp _ ih =>
          rcases List.mem_cons.1 hb' with e | hb'
          · subst e; exact ⟨_, by simp, hp⟩
          · obtain ⟨b, k1, k2⟩ := ih hb'; exact ⟨b, List.mem_cons_of_mem _ k1, k2⟩
      obtain ⟨u, u1, u2⟩ := Lemmas.Pickle.reach_back hr h4 hxa
      obtain ⟨w, w1, w2⟩ := Lemmas.Pickle.reach_back hrb h4 hxb
      cases h2 _ _ _ u1 w1
      obtain ⟨m, m', k1, k2, k3⟩ := h4 _ _ u1
      rw [k2] at hxn; cases hxn
      refine p1 b hb u m u2 w2 k1 ?_
      cases k3 <;> trivial
  have hokx : ∀ x ∈ xs, ∃ a ∈ ch, RefRel R a x := by
    clear hapx hapc hsub hokc
    induction hx with
    | nil => intro x hx; cases hx
    | cons hp _ ih =>
      intro x hx
      rcases List.mem_cons.1 hx with e | hx
      · subst e; exact ⟨_, by simp, hp⟩
      · obtain ⟨a, k1, k2⟩ := ih x hx; exact ⟨a, List.mem_cons_of_mem _ k1, k2⟩
  have there : ∀ x ∈ xs, ∀ b, PReach H x b → ∃ n, H[b]? = some n := by
    intro x hx b hb
    obtain ⟨a, _, hr⟩ := hokx x hx
    obtain ⟨u, u1, _⟩ := Lemmas.Pickle.reach_back hr h4 hb
    obtain ⟨_, n', _, k2, _⟩ := h4 _ _ u1
    exact ⟨n', k2⟩
  refine ⟨fun a x => ∃ n, H[x]? = some n ∧ PReach H a x ∧ CanChange n, hf.grows, ?_, ?_, ?_⟩
  · intro a ha g hg hag x hx hw
    have e := List.getElem?_eq_getElem hx
    rw [e]
    refine hf.others g a x _ e fun hcc => hw ?_
    have hr := (Lemmas.Pickle.reach_agree hag).1 hcc.1
    exact ⟨g[x], by rw [← hag x hr]; exact e, hr, hcc.2⟩
  · refine hapx.imp fun {a b} hab x hb => ?_
    rintro ⟨n, h1, h2, h3⟩
    exact hab x n h2 hb h1 h3
  · refine List.Pairwise.imp_of_mem (fun {a b} ha hb hab g hg hag x hx => ?_) hapx
    rintro ⟨n, k1, k2, k3⟩
    have hga : OKFrom g a := by
      obtain ⟨a0, ha0, hr0⟩ := hokx a ha
      exact Lemmas.Pickle.okFrom_agree (Lemmas.Pickle.okFrom_same ⟨R, h1, h2, hr0, h4⟩ (hokc a0 ha0)) hag
    rcases hf.returns g a x hga hx with hr | hr
    · exact hab x n ((Lemmas.Pickle.reach_agree hag).1 hr) k2 k1 k3
    · have := (List.getElem?_eq_some_iff.1 k1).1
      omega

/-- **C144**: with a pool the caller's objects are as they were. Without one they are as the calls, one after another, leave them. -/
theorem C144_callers_objects (c : Codec (PHeap × PRef)) (f : PyFunc) (h : PHeap) (as : List PRef) (mode : PoolMode) :
    (mode ≠ .serial → (mapObjects c f h as mode).2 = h) ∧ (mapObjects c f h as .serial).2 = as.foldl (fun h a => (f h a).2) h := by
  refine ⟨fun hm => by cases mode <;> first | rfl | exact absurd rfl hm, ?_⟩
  show (callAll f h as).2 = _
  induction as generalizing h with
  | nil => rfl
  | cons a as ih => exact ih (f h a).2

/-- **C144**: strings, bytes and tuples of the caller stay as they were in every mode -/
theorem C144_callers_constants (c : Codec (PHeap × PRef)) (f : PyFunc) (hf : ChangesOwn f) (h : PHeap) (as : List PRef) (mode : PoolMode)
    (a : Nat) (n : PNode) (hn : h[a]? = some n) (hc : ¬ CanChange n) : (mapObjects c f h as mode).2[a]? = some n := by
  by_cases hm : mode = .serial
  · subst hm
    rw [(C144_callers_objects c f h as .serial).2]
    induction as generalizing h with
    | nil => exact hn
    | cons b as ih => exact ih (f h b).2 (hf.others h b a n hn fun k => hc k.2)
  · rw [(C144_callers_objects c f h as mode).1 hm]
    exact hn

/-! ## witnesses -/

/-- `def f(x): x.append(1); return len(x)` -/
def appendLen : PyFunc := fun h r =>
  match r with
  | .obj a => match h[a]? with
    | some (.list xs) => (.int (xs.length + 1), h.set a (.list (xs ++ [.int 1])))
    | _ => (.none, h)
  | _ => (.none, h)

theorem same_plain {h h' : PHeap} {r : PRef} (hr : ∀ a, r ≠ .obj a) : SameGraph h r h' r := by
  refine ⟨fun _ _ => False, fun _ _ _ h => h.elim, fun _ _ _ h => h.elim, ?_, fun _ _ h => h.elim⟩
  cases r <;> constructor
  exact hr _ rfl

theorem okFrom_plain {h : PHeap} {r : PRef} (hr : ∀ a, r ≠ .obj a) : OKFrom h r := by
  intro a ha
  exfalso
  induction ha with
  | here e => exact hr _ e
  | step _ _ _ ih => exact ih

theorem appendLen_plain (h : PHeap) (r : PRef) (a : Nat) : (appendLen h r).1 ≠ .obj a := by
  unfold appendLen
  split
  · split <;> simp
  · simp

theorem appendLen_byValue : ByValue appendLen := by
  intro h r h' r' _ hs
  have e : (appendLen h r).1 = (appendLen h' r').1 := by
    obtain ⟨R, _, _, h3, h4⟩ := hs
    unfold appendLen
    cases h3 with
    | obj hr =>
      obtain ⟨n, n', k1, k2, k3⟩ := h4 _ _ hr
      simp only [k1, k2]
      cases k3 with
      | list hx => simp [hx.length_eq]
      | _ => rfl
    | _ => rfl
  rw [e]
  exact same_plain (appendLen_plain h' r')

theorem appendLen_keepsOK : KeepsOK appendLen := fun h r _ => okFrom_plain (appendLen_plain h r)

theorem appendLen_own : ChangesOwn appendLen := by
  refine ⟨fun h r => ?_, fun h r a n hn hc => ?_, fun h r a _ ha => ?_⟩
  · unfold appendLen
    split
    · split <;> simp
    · simp
  · unfold appendLen
    split
    · rename_i b
      split
      · rename_i xs hb
        by_cases e : b = a
        · subst e
          rw [hn] at hb; cases hb
          exact absurd ⟨.here rfl, trivial⟩ hc
        · simp only
          rw [List.getElem?_set_ne e]
          exact hn
      · exact hn
    · exact hn
  · exact absurd (okFrom_plain (appendLen_plain h r) a ha) (by
      exfalso
      have : ∀ {g : PHeap} {s : PRef}, (∀ a, s ≠ .obj a) → ∀ {b}, ¬ PReach g s b := by
        intro g s hs b hb
        induction hb with
        | here e => exact hs _ e
        | step _ _ _ ih => exact ih
      exact this (appendLen_plain h r) ha)

/-- C144 in full is false: without a pool the second of two calls with the same list finds it changed by the first -/
theorem C144_full_false : ¬ C144_full := by
  intro hc
  have hok : OKFrom [.list []] (.obj 0) := by
    intro a ha
    have : a = 0 := by
      induction ha with
      | here e => cases e; rfl
      | step _ h1 h2 ih => subst ih; cases h1; cases h2
    subst this
    exact ⟨_, rfl, trivial⟩
  obtain ⟨_, h2⟩ := hc (pickleCodec (fun _ => true) 10) appendLen [.list []] [.obj 0, .obj 0] .serial (pickle_graphCodec _ _) appendLen_byValue
    appendLen_keepsOK (by simpa using hok) (by simp)
  rcases h2 1 (.obj 0) _ rfl rfl with ⟨h', r, e, R, _, _, hr, _⟩ | ⟨hm, _⟩
  · cases e
    revert hr
    intro hr
    cases hr
  · exact hm rfl

/-- 1 and 2 without a pool or with one worker and chunks, 1 and 1 otherwise -/
example : (mapObjects (pickleCodec (fun _ => true) 10) appendLen [.list []] [.obj 0, .obj 0] .serial).1.map (Except.map Prod.snd) =
      [.ok (.int 1), .ok (.int 2)] := by decide

example : (mapObjects (pickleCodec (fun _ => true) 10) appendLen [.list []] [.obj 0, .obj 0] .pool).1.map (Except.map Prod.snd) =
      [.ok (.int 1), .ok (.int 1)] := by decide

example : (mapObjects (pickleCodec (fun _ => true) 10) appendLen [.list []] [.obj 0, .obj 0] (.chunks 1)).1.map (Except.map Prod.snd) =
      [.ok (.int 1), .ok (.int 2)] := by decide

example : (mapObjects (pickleCodec (fun _ => true) 10) appendLen [.list []] [.obj 0, .obj 0] (.chunks 2)).1.map (Except.map Prod.snd) =
      [.ok (.int 1), .ok (.int 1)] := by decide

theorem okFrom_of_heapOK {h : PHeap} (hok : HeapOK h) (hc : Closed h) {r : PRef} (hr : ∀ a, r = .obj a → a < h.length) : OKFrom h r := by
  have lt : ∀ {a}, PReach h r a → a < h.length := by
    intro a ha
    induction ha with
    | here e => exact hr _ e
    | step _ h1 h2 _ => exact hc _ _ h1 _ h2
  exact fun a ha => ⟨_, List.getElem?_eq_getElem (lt ha), hok a _ (List.getElem?_eq_getElem (lt ha))⟩

/-- two lists with one string in both -/
def twoLists : PHeap := [.list [.obj 2], .list [.obj 2, .int 5], .str [97]]

theorem twoLists_ok (r : PRef) (hr : ∀ a, r = .obj a → a < 3) : OKFrom twoLists r := by
  refine okFrom_of_heapOK (fun a n hn => ?_) (fun a n hn b hb => ?_) hr
  · match a with
    | 0 | 1 => cases hn; trivial
    | 2 => cases hn; simp [NodeOK]
    | a + 3 => simp [twoLists] at hn
  · match a with
    | 0 | 1 => cases hn; simp [PNode.refs] at hb; simp [twoLists, hb]
    | 2 => cases hn; cases hb
    | a + 3 => simp [twoLists] at hn

theorem twoLists_apart : Apart twoLists [.obj 0, .obj 1] := by
  have key : ∀ i a, i < 2 → PReach twoLists (.obj i) a → a = i ∨ a = 2 := by
    intro i a hi ha
    induction ha with
    | here e => cases e; exact .inl rfl
    | @step a b n _ h1 h2 ih =>
      rcases ih with rfl | rfl
      · match a, hi with
        | 0, _ => cases h1; simp [PNode.refs] at h2; exact .inr h2
        | 1, _ => cases h1; simp [PNode.refs] at h2; exact .inr h2
      · cases h1; cases h2
  refine List.pairwise_cons.2 ⟨fun s hs a n h0 h1 hn hc => ?_, List.pairwise_singleton _ _⟩
  simp only [List.mem_singleton] at hs
  subst hs
  have k0 := key 0 a (by omega) h0
  have k1 := key 1 a (by omega) h1
  have : a = 2 := by omega
  subst this
  cases hn
  exact hc

example (mode : PoolMode) (hn : ∀ n, mode = .chunks n → 1 ≤ n) :
    OneByOne (pickleCodec (fun _ => true) 10) appendLen twoLists [.obj 0, .obj 1] mode :=
  C144_apart_partial _ (pickle_graphCodec _ _) appendLen appendLen_byValue appendLen_keepsOK appendLen_own twoLists _
    (by
      intro a ha
      refine twoLists_ok a fun b hb => ?_
      subst hb
      simp at ha
      omega)
    twoLists_apart mode hn

example : (mapObjects (pickleCodec (fun _ => true) 10) appendLen twoLists [.obj 0, .obj 1] (.chunks 1)).1.map (Except.map Prod.snd) =
      [.ok (.int 2), .ok (.int 3)] := by decide

/-- `lambda x: x`: what it returns is the caller's own object without a pool, and a copy with one -/
def identF : PyFunc := fun h r => (r, h)

example (mode : PoolMode) (hn : ∀ n, mode = .chunks n → 1 ≤ n) :
    OneByOne (pickleCodec (fun _ => true) 10) identF twoLists [.obj 1, .obj 1, .obj 0] mode :=
  C144_changes_none_partial _ (pickle_graphCodec _ _) identF (fun _ _ _ _ _ h => h) (fun _ _ h => h) (fun h _ => List.prefix_refl h) twoLists _
    (by
      intro a ha
      refine twoLists_ok a fun b hb => ?_
      subst hb
      simp at ha
      omega)
    mode hn

end Verif.Props
