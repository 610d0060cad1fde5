import Verif.Lemmas.TagIndex
/-! # Histories of calls on a TagIndex -/
namespace Verif.Model
open Verif Verif.Spec

/-- a call on a `TagIndex` by one of several clients, each with its own index object and lock class -/
inductive IxOp where
  | add (client : Nat) (mode : LockMode) (key : Key) (existsOk : Bool)
  | del (client : Nat) (mode : LockMode) (key : Key)
  | list (client : Nat)
  /-- a new client constructs `TagIndex(name, create=False)` -/
  | join

/-- run a history of non-overlapping calls: the clients' index objects, the store, the results -/
def playIx (E : Env) (name : Str) : List IxOp → List Index → Store → List IxResult × Store
  | [], _, s => ([], s)
  | .join :: t, cl, s => match (tagIndexInit name false).run E s with
    | (.ok ix, s') => ((.joined :: (playIx E name t (cl ++ [ix]) s').1), (playIx E name t (cl ++ [ix]) s').2)
    | (.err e, s') => (.other e :: (playIx E name t cl s').1, (playIx E name t cl s').2)
    | (.stuck, s') => (.stuck :: (playIx E name t cl s').1, (playIx E name t cl s').2)
  | .add c mode key eo :: t, cl, s => match cl[c]? with
    | none => (.noClient :: (playIx E name t cl s).1, (playIx E name t cl s).2)
    | some ix => match (indexAdd E mode ix key eo).run E s with
      | (.ok n, s') => (.position (.ok n) :: (playIx E name t cl s').1, (playIx E name t cl s').2)
      | (.err e, s') => (.position (.error e) :: (playIx E name t cl s').1, (playIx E name t cl s').2)
      | (.stuck, s') => (.stuck :: (playIx E name t cl s').1, (playIx E name t cl s').2)
  | .del c mode key :: t, cl, s => match cl[c]? with
    | none => (.noClient :: (playIx E name t cl s).1, (playIx E name t cl s).2)
    | some ix => match (indexDel E mode ix key).run E s with
      | (.ok n, s') => (.position (.ok n.1) :: (playIx E name t cl s').1, (playIx E name t cl s').2)
      | (.err e, s') => (.position (.error e) :: (playIx E name t cl s').1, (playIx E name t cl s').2)
      | (.stuck, s') => (.stuck :: (playIx E name t cl s').1, (playIx E name t cl s').2)
  | .list c :: t, cl, s => match cl[c]? with
    | none => (.noClient :: (playIx E name t cl s).1, (playIx E name t cl s).2)
    | some ix => match (indexUpdate E ix).run E s with
      | (.ok l, s') => (.listing l :: (playIx E name t cl s').1, (playIx E name t cl s').2)
      | (.err e, s') => (.other e :: (playIx E name t cl s').1, (playIx E name t cl s').2)
      | (.stuck, s') => (.stuck :: (playIx E name t cl s').1, (playIx E name t cl s').2)

/-- the call, without the lock class, and the key by its text -/
def IxOp.call : IxOp → IxCall
  | .add c _ k eo => .add c k.text eo
  | .del c _ k => .del c k.text
  | .list c => .list c
  | .join => .join

/-- the key of a call -/
def IxOp.key? : IxOp → Option Key
  | .add _ _ k _ => some k
  | .del _ _ k => some k
  | _ => none

/-- the lock class of a call -/
def IxOp.mode? : IxOp → Option LockMode
  | .add _ m _ _ => some m
  | .del _ m _ => some m
  | _ => none

end Verif.Model

namespace Verif.Lemmas
open Verif Verif.Model Verif.Spec
variable {E : Env}

/-- every address of an index that adding and removing keys may touch -/
def tagNames (name x : Str) : Prop := indexNames name x ∨ lockNames name x

/-- an outcome as a result -/
def toExcept {α : Type} : Outcome α → Option (Except PyErr α)
  | .ok a => some (.ok a)
  | .err e => some (.error e)
  | .stuck => none

theorem run_indexAdd {s : Store} (w : s.WF) {ix : Index} {keys : List Str} {fl : Nat} {mode : LockMode}
    (h : IxRep E s ix keys) (hc : LockClean s ix.name fl) (hb : fl + 1 < 256 ^ 5)
    (hok : NamesOK E ix.name) (hm : mode.Runs) {key : Key} (hk : key.hashed E = E.utf8 key.text) (hne : key.text ≠ [])
    (hlen : keys.length + 1 < 256 ^ 8)
    (hinj : ∀ k' ∈ keys, E.sha (E.utf8 k') = E.sha (E.utf8 key.text) → k' = key.text) (existsOk : Bool) :
    ∃ o s' fl', (indexAdd E mode ix key existsOk).run E s = (o, s') ∧
      toExcept o = some (ixAdd keys key.text existsOk).1 ∧
      s'.WF ∧ IxRep E s' ix (ixAdd keys key.text existsOk).2 ∧ LockClean s' ix.name fl' ∧ fl' ≤ fl + 1 ∧
      SameOff (tagNames ix.name) s s' := by
  obtain ⟨o, s1, s2, s3, fl', e, ho, w3, hc3, hfl, hs1, ⟨hr, hrep, hs2⟩, hs3⟩ := run_withLock w hok hm hc hb
    (body := indexAdd_ E ix key existsOk)
    (fun o s1 s2 => toExcept o = some (ixAdd keys key.text existsOk).1 ∧
      IxRep E s2 ix (ixAdd keys key.text existsOk).2 ∧ SameOff (indexNames ix.name) s1 s2) (by
      intro s1 w1 hs1
      have h1 := h.sameLock hs1
      unfold ixAdd
      cases hp : position key.text keys with
      | some i =>
        refine ⟨_, s1, run_indexAddOld h1 hok hk (position_some hp) existsOk, ?_, w1, SameOff.refl _ _, ?_, h1,
          SameOff.refl _ _⟩
        · cases existsOk <;> simp
        · cases existsOk <;> rfl
      | none =>
        rw [position_none] at hp
        obtain ⟨s2, e2, w2, h2, hs2⟩ := run_indexAddNew w1 h1 hok hk hne hlen (fun k' hk' he => hp (hinj k' hk' he ▸ hk'))
          existsOk
        exact ⟨_, s2, e2, by simp, w2, hs2.offLock, rfl, h2, hs2⟩)
  refine ⟨o, s3, fl', e, hr, w3, hrep.sameLock hs3, hc3, hfl, ?_⟩
  exact ((hs1.mono fun x => Or.inr).trans (hs2.mono fun x => Or.inl)).trans (hs3.mono fun x => Or.inr)

theorem run_indexDel {s : Store} (w : s.WF) {ix : Index} {keys : List Str} {fl : Nat} {mode : LockMode}
    (h : IxRep E s ix keys) (hc : LockClean s ix.name fl) (hb : fl + 1 < 256 ^ 5)
    (hok : NamesOK E ix.name) (hm : mode.Runs) {key : Key} (hk : key.hashed E = E.utf8 key.text)
    (hinj : ∀ k' ∈ keys, E.sha (E.utf8 k') = E.sha (E.utf8 key.text) → k' = key.text) :
    ∃ o s' fl', (indexDel E mode ix key).run E s = (o, s') ∧
      (toExcept o).map (fun r => r.map Prod.fst) = some (ixDel keys key.text).1 ∧
      (∀ p, o = .ok p → p.2 = keys.length) ∧
      s'.WF ∧ IxRep E s' ix (ixDel keys key.text).2 ∧ LockClean s' ix.name fl' ∧ fl' ≤ fl + 1 ∧
      SameOff (tagNames ix.name) s s' := by
  obtain ⟨o, s1, s2, s3, fl', e, ho, w3, hc3, hfl, hs1, ⟨hr, hlen, hrep, hs2⟩, hs3⟩ := run_withLock w hok hm hc hb
    (body := indexDel_ E ix key)
    (fun o s1 s2 => (toExcept o).map (fun r => r.map Prod.fst) = some (ixDel keys key.text).1 ∧
      (∀ p, o = .ok p → p.2 = keys.length) ∧
      IxRep E s2 ix (ixDel keys key.text).2 ∧ SameOff (indexNames ix.name) s1 s2) (by
      intro s1 w1 hs1
      have h1 := h.sameLock hs1
      unfold ixDel
      cases hp : position key.text keys with
      | some i =>
        obtain ⟨s2, e2, w2, h2, hs2⟩ := run_indexDelSome w1 h1 hok hk (position_some hp)
        exact ⟨_, s2, e2, by simp, w2, hs2.offLock, rfl, fun p hp => by injection hp with hp; rw [← hp], h2, hs2⟩
      | none =>
        rw [position_none] at hp
        refine ⟨_, s1, run_indexDelNone h1 hok hk (fun k' hk' he => hp (hinj k' hk' he ▸ hk')), by simp, w1,
          SameOff.refl _ _, rfl, by simp, h1, SameOff.refl _ _⟩)
  refine ⟨o, s3, fl', e, hr, hlen, w3, hrep.sameLock hs3, hc3, hfl, ?_⟩
  exact ((hs1.mono fun x => Or.inr).trans (hs2.mono fun x => Or.inl)).trans (hs3.mono fun x => Or.inr)

theorem run_tagIndexInit_attach {s : Store} {ix : Index} {keys : List Str} (h : IxRep E s ix keys)
    (hok : NamesOK E ix.name) : (tagIndexInit ix.name false).run E s = (.ok ix, s) := by
  unfold tagIndexInit
  simp only [if_true]
  rw [run_bind, run_existsBlock _ hok.mem, andThen_ok, h.mem]
  simp only [Option.isSome_some, if_true]
  rw [run_bind, run_attach hok.mem h.mem]; rfl

/-- none of the index's blocks exist (blocks for metadata, which only a `MetaTagIndex` uses, may) -/
def NoIndex (s : Store) (name : Str) : Prop := ∀ sl : Slot, (∀ i, sl ≠ .val i) → s.content (sl.addr name) = none

theorem run_tagIndexInit_create {s : Store} (w : s.WF) {name : Str} (hno : NoIndex s name) (hok : NamesOK E name) :
    ∃ ix s', (tagIndexInit name true).run E s = (.ok ix, s') ∧ ix.name = name ∧ s'.WF ∧ IxRep E s' ix [] ∧
      LockClean s' ix.name 0 ∧ SameOff (tagNames name) s s' := by
  have hm : s.content name = none := by have := hno .mem (by simp); rwa [← addr_mem] at this
  have f := eff_created w name 8
  have hother : ∀ sl : Slot, sl ≠ .mem → (∀ i, sl ≠ .val i) → (s.created name 8).content (sl.addr name) = none := by
    intro sl hsl hv
    rw [f.content, if_neg (by
      intro he
      exact hsl (addr_injective (he.trans (addr_mem name))))]
    exact hno sl hv
  refine ⟨⟨name, s.next⟩, s.created name 8, ?_, rfl, f.wf, ⟨by simp, ?_, by simp, by simp, by simp, ?_, by simp, ?_⟩,
    ⟨Or.inl ⟨hother .count (by simp) (by simp), rfl⟩, fun n => hother (.marker n) (by simp) (by simp), fun n => hother (.lock n) (by simp) (by simp)⟩,
    f.sameOff (Or.inl (indexNames_mem _))⟩
  · unfold tagIndexInit
    simp only [Bool.true_eq_false, if_false]
    rw [run_bind, run_create (by omega) hok.mem (content_none.1 hm)]; rfl
  · simp only [Store.created, if_true, List.length_nil]; rfl
  · intro i _
    simp only []
    rw [addr_key]; exact hother (.key i) (by simp) (by simp)
  · intro hh _; exact hother (.hash hh) (by simp) (by simp)

/-- the keys listed after a history are among those listed before and those named in it -/
theorem mem_swapRemove {keys : List Str} {i : Nat} {k : Str} (hi : i < keys.length) (h : k ∈ swapRemove keys i) :
    k ∈ keys := by
  obtain ⟨j, hj⟩ := List.mem_iff_getElem?.1 h
  rw [getElem?_swapRemove hi] at hj
  split at hj
  · split at hj <;> exact List.mem_of_getElem? hj
  · simp at hj

theorem position_lt {k : Str} {l : List Str} {i : Nat} (h : position k l = some i) : i < l.length := by
  by_contra hc
  have := position_some h
  rw [List.getElem?_eq_none (by omega)] at this
  simp at this

theorem mem_ixAdd {keys : List Str} {k x : Str} {eo : Bool} (h : x ∈ (ixAdd keys k eo).2) : x ∈ keys ∨ x = k := by
  unfold ixAdd at h
  cases hp : position k keys with
  | some i => rw [hp] at h; exact Or.inl h
  | none => rw [hp] at h; simpa using h

theorem mem_ixDel {keys : List Str} {k x : Str} (h : x ∈ (ixDel keys k).2) : x ∈ keys := by
  unfold ixDel at h
  cases hp : position k keys with
  | some i => rw [hp] at h; exact mem_swapRemove (position_lt hp) h
  | none => rw [hp] at h; exact h

theorem length_ixAdd (keys : List Str) (k : Str) (eo : Bool) : (ixAdd keys k eo).2.length ≤ keys.length + 1 := by
  unfold ixAdd
  cases position k keys <;> simp

theorem length_ixDel (keys : List Str) (k : Str) : (ixDel keys k).2.length ≤ keys.length := by
  unfold ixDel
  cases hp : position k keys with
  | some i => simp only []; rw [length_swapRemove (position_lt hp)]; omega
  | none => simp

/-- what the calls of a history must satisfy, with the keys `U` in play -/
structure OpsOK (E : Env) (U : Str → Prop) (ops : List IxOp) : Prop where
  keys : ∀ o ∈ ops, ∀ k, o.key? = some k → k.hashed E = E.utf8 k.text ∧ k.text ≠ [] ∧ U k.text
  modes : ∀ o ∈ ops, ∀ m, o.mode? = some m → m.Runs
  inj : ∀ a b, U a → U b → E.sha (E.utf8 a) = E.sha (E.utf8 b) → a = b

theorem OpsOK.tail {U : Str → Prop} {o : IxOp} {ops : List IxOp} (h : OpsOK E U (o :: ops)) : OpsOK E U ops :=
  ⟨fun o' ho => h.keys o' (by simp [ho]), fun o' ho => h.modes o' (by simp [ho]), h.inj⟩

theorem playIx_spec {U : Str → Prop} (ix : Index) (hok : NamesOK E ix.name) (ops : List IxOp) (hops : OpsOK E U ops)
    (cl : List Index) (hcl : ∀ c ∈ cl, c = ix) (s : Store) (w : s.WF) (keys : List Str) (fl : Nat)
    (h : IxRep E s ix keys) (hU : ∀ k ∈ keys, U k) (hc : LockClean s ix.name fl)
    (hfl : fl + ops.length < 256 ^ 5) (hlen : keys.length + ops.length < 256 ^ 5) :
    ∃ s' fl', playIx E ix.name ops cl s = ((ixPlay (ops.map IxOp.call) cl.length keys).1, s') ∧ s'.WF ∧
      IxRep E s' ix (ixPlay (ops.map IxOp.call) cl.length keys).2 ∧ LockClean s' ix.name fl' ∧ fl' ≤ fl + ops.length ∧
      SameOff (tagNames ix.name) s s' := by
  induction ops generalizing cl s keys fl with
  | nil => exact ⟨s, fl, rfl, w, h, hc, by simp, SameOff.refl _ _⟩
  | cons o t ih =>
    simp only [List.length_cons] at hfl hlen
    have hp8 : (256 : Nat) ^ 5 < 256 ^ 8 := by decide
    cases o with
    | join =>
      obtain ⟨s', fl', e, w', h', hc', hle, hs⟩ := ih hops.tail (cl ++ [ix])
        (by intro c hc; rw [List.mem_append] at hc; rcases hc with hc | hc
            · exact hcl c hc
            · simpa using hc) s w keys fl h hU hc (by omega) (by omega)
      refine ⟨s', fl', ?_, w', by simpa [ixPlay, IxOp.call] using h', hc', by simp; omega, hs⟩
      simp only [playIx, run_tagIndexInit_attach h hok, e]
      simp [ixPlay, IxOp.call]
    | list c =>
      obtain ⟨s', fl', e, w', h', hc', hle, hs⟩ := ih hops.tail cl hcl s w keys fl h hU hc (by omega) (by omega)
      refine ⟨s', fl', ?_, w', ?_, hc', by simp; omega, hs⟩
      · simp only [playIx, List.map_cons, IxOp.call, ixPlay]
        by_cases hcl' : c < cl.length
        · rw [if_pos hcl', List.getElem?_eq_getElem hcl']
          have : cl[c] = ix := hcl _ (List.getElem_mem _)
          simp only [this, run_indexUpdate h hok, e]
        · rw [if_neg hcl', List.getElem?_eq_none (by omega)]
          simp only [e]
      · simp only [List.map_cons, IxOp.call, ixPlay]
        split <;> exact h'
    | add c mode key eo =>
      by_cases hcl' : c < cl.length
      · obtain ⟨hk, hne, hUk⟩ := hops.keys _ (List.mem_cons_self) key rfl
        obtain ⟨o, s1, fl1, e1, hr, w1, h1, hc1, hle1, hs1⟩ := run_indexAdd w h hc (by omega) hok
          (hops.modes _ (List.mem_cons_self) mode rfl) hk hne (by omega) (fun k' hk' => hops.inj _ _ (hU k' hk') hUk) eo
        have hl1 := length_ixAdd keys key.text eo
        obtain ⟨s', fl', e, w', h', hc', hle, hs⟩ := ih hops.tail cl hcl s1 w1 _ fl1 h1
          (fun k' hk' => by rcases mem_ixAdd hk' with h | h
                            · exact hU k' h
                            · rw [h]; exact hUk) hc1 (by omega) (by omega)
        refine ⟨s', fl', ?_, w', ?_, hc', by simp; omega, hs1.trans hs⟩
        · simp only [playIx, List.map_cons, IxOp.call, ixPlay, if_pos hcl']
          rw [List.getElem?_eq_getElem hcl']
          have : cl[c] = ix := hcl _ (List.getElem_mem _)
          simp only [this, e1]
          cases o with
          | ok n => simp only [toExcept] at hr; injection hr with hr; simp only [← hr, e]
          | err er => simp only [toExcept] at hr; injection hr with hr; simp only [← hr, e]
          | stuck => simp [toExcept] at hr
        · simp only [List.map_cons, IxOp.call, ixPlay, if_pos hcl']; exact h'
      · obtain ⟨s', fl', e, w', h', hc', hle, hs⟩ := ih hops.tail cl hcl s w keys fl h hU hc (by omega) (by omega)
        refine ⟨s', fl', ?_, w', ?_, hc', by simp; omega, hs⟩
        · simp only [playIx, List.map_cons, IxOp.call, ixPlay, if_neg hcl']
          rw [List.getElem?_eq_none (by omega)]
          simp only [e]
        · simp only [List.map_cons, IxOp.call, ixPlay, if_neg hcl']; exact h'
    | del c mode key =>
      by_cases hcl' : c < cl.length
      · obtain ⟨hk, hne, hUk⟩ := hops.keys _ (List.mem_cons_self) key rfl
        obtain ⟨o, s1, fl1, e1, hr, _, w1, h1, hc1, hle1, hs1⟩ := run_indexDel w h hc (by omega) hok
          (hops.modes _ (List.mem_cons_self) mode rfl) hk (fun k' hk' => hops.inj _ _ (hU k' hk') hUk)
        have hl1 := length_ixDel keys key.text
        obtain ⟨s', fl', e, w', h', hc', hle, hs⟩ := ih hops.tail cl hcl s1 w1 _ fl1 h1
          (fun k' hk' => hU k' (mem_ixDel hk')) hc1 (by omega) (by omega)
        refine ⟨s', fl', ?_, w', ?_, hc', by simp; omega, hs1.trans hs⟩
        · simp only [playIx, List.map_cons, IxOp.call, ixPlay, if_pos hcl']
          rw [List.getElem?_eq_getElem hcl']
          have : cl[c] = ix := hcl _ (List.getElem_mem _)
          simp only [this, e1]
          cases o with
          | ok n => simp only [toExcept, Option.map_some] at hr; injection hr with hr; simp only [← hr, e]; rfl
          | err er => simp only [toExcept, Option.map_some] at hr; injection hr with hr; simp only [← hr, e]; rfl
          | stuck => simp [toExcept] at hr
        · simp only [List.map_cons, IxOp.call, ixPlay, if_pos hcl']; exact h'
      · obtain ⟨s', fl', e, w', h', hc', hle, hs⟩ := ih hops.tail cl hcl s w keys fl h hU hc (by omega) (by omega)
        refine ⟨s', fl', ?_, w', ?_, hc', by simp; omega, hs⟩
        · simp only [playIx, List.map_cons, IxOp.call, ixPlay, if_neg hcl']
          rw [List.getElem?_eq_none (by omega)]
          simp only [e]
        · simp only [List.map_cons, IxOp.call, ixPlay, if_neg hcl']; exact h'

/-- the key a call may add -/
def _root_.Verif.Spec.IxCall.adds? : IxCall → Option Str
  | .add _ k _ => some k
  | _ => none

theorem length_ixPlay (cs : List IxCall) (n : Nat) (keys : List Str) :
    (ixPlay cs n keys).2.length ≤ keys.length + cs.length := by
  induction cs generalizing n keys with
  | nil => simp [ixPlay]
  | cons c t ih =>
    cases c with
    | join => have := ih (n + 1) keys; simp only [ixPlay, List.length_cons]; omega
    | list c => have := ih n keys; simp only [ixPlay, List.length_cons]; split <;> simp only [] <;> omega
    | add c k eo =>
      simp only [ixPlay, List.length_cons]
      split
      · have := ih n (ixAdd keys k eo).2; have := length_ixAdd keys k eo; simp only []; omega
      · have := ih n keys; simp only []; omega
    | del c k =>
      simp only [ixPlay, List.length_cons]
      split
      · have := ih n (ixDel keys k).2; have := length_ixDel keys k; simp only []; omega
      · have := ih n keys; simp only []; omega

theorem ixPlay_mem {U : Str → Prop} (cs : List IxCall) (n : Nat) (keys : List Str) (hk : ∀ k ∈ keys, U k)
    (hc : ∀ c ∈ cs, ∀ k, c.adds? = some k → U k) : ∀ k ∈ (ixPlay cs n keys).2, U k := by
  induction cs generalizing n keys with
  | nil => exact hk
  | cons c t ih =>
    have ht : ∀ c ∈ t, ∀ k, c.adds? = some k → U k := fun c' h' => hc c' (List.mem_cons_of_mem _ h')
    cases c with
    | join => exact ih (n + 1) keys hk ht
    | list c => simp only [ixPlay]; split <;> exact ih n keys hk ht
    | add c k eo =>
      simp only [ixPlay]
      split
      · exact ih n _ (fun k' hk' => by
          rcases mem_ixAdd hk' with h | h
          · exact hk k' h
          · rw [h]; exact hc _ List.mem_cons_self k rfl) ht
      · exact ih n keys hk ht
    | del c k =>
      simp only [ixPlay]
      split
      · exact ih n _ (fun k' hk' => hk k' (mem_ixDel hk')) ht
      · exact ih n keys hk ht

theorem mem_swapRemove_iff {keys : List Str} (hnd : keys.Nodup) {i : Nat} {k : Str} (hi : keys[i]? = some k) {x : Str} :
    x ∈ swapRemove keys i ↔ x ∈ keys ∧ x ≠ k := by
  have li : i < keys.length := by
    by_contra hc; rw [List.getElem?_eq_none (by omega)] at hi; simp at hi
  have inj : ∀ (a b : Nat) (y : Str), keys[a]? = some y → keys[b]? = some y → a = b := by
    intro a b y ha hb
    rw [List.Nodup, List.pairwise_iff_getElem] at hnd
    obtain ⟨la, ha⟩ := List.getElem?_eq_some_iff.1 ha
    obtain ⟨lb, hb⟩ := List.getElem?_eq_some_iff.1 hb
    by_contra hne
    rcases Nat.lt_or_gt_of_ne hne with h | h
    · exact hnd a b la lb h (ha.trans hb.symm)
    · exact hnd b a lb la h (hb.trans ha.symm)
  constructor
  · intro h
    refine ⟨mem_swapRemove li h, ?_⟩
    rintro rfl
    obtain ⟨j, hj⟩ := List.mem_iff_getElem?.1 h
    rw [getElem?_swapRemove li] at hj
    split at hj
    · split at hj
      · have := inj _ _ _ hj hi; omega
      · have := inj _ _ _ hj hi; omega
    · simp at hj
  · rintro ⟨h, hne⟩
    obtain ⟨j, hj⟩ := List.mem_iff_getElem?.1 h
    have lj : j < keys.length := by
      by_contra hc; rw [List.getElem?_eq_none (by omega)] at hj; simp at hj
    have hji : j ≠ i := by rintro rfl; rw [hi] at hj; injection hj with hj; exact hne hj.symm
    rw [List.mem_iff_getElem?]
    by_cases hjl : j = keys.length - 1
    · exact ⟨i, by rw [getElem?_swapRemove li, if_pos (by omega), if_pos rfl, ← hjl]; exact hj⟩
    · exact ⟨j, by rw [getElem?_swapRemove li, if_pos (by omega), if_neg hji]; exact hj⟩

end Verif.Lemmas
