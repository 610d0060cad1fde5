import Verif.Lemmas.FakePad
import Verif.Lemmas.MetaPad
import Verif.Spec.MixPad
/-!
# A notepad used both with and without an index
-/
namespace Verif.Model
open Verif Verif.Spec
variable {V : Type}

/-- a call of some client of the prefix; `ix` tells whether it has an index, `mode` its lock -/
inductive MixOp (V : Type) where
  | set (ix : Bool) (mode : LockMode) (k : Key) (v : V) (existsOk : Bool)
  | get (ix : Bool) (k : Key)
  | del (ix : Bool) (mode : LockMode) (k : Key)
  | keys
  | items
  | clear (mode : LockMode)

def MixOp.call : MixOp V → MixCall V
  | .set ix _ k v eo => .set ix k.text v eo
  | .get _ k => .get k.text
  | .del ix _ k => .del ix k.text
  | .keys => .keys
  | .items => .items
  | .clear _ => .clear

/-- the client's object -/
def mixPad (pre : Str) (ix : Index) (b : Bool) (mode : LockMode) : Pad := ⟨pre, if b then .tag ix else .fake, mode⟩

def mixRes {α : Type} (f : Except PyErr α → MixRes V) (o : Outcome α) : MixRes V :=
  match o with
  | .ok a => f (.ok a)
  | .err e => f (.error e)
  | .stuck => .broken

/-- what `keys()` gives -/
def mixKeys : Except PyErr (Option (List Str)) → MixRes V
  | .ok (some l) => .keys l
  | _ => .broken

/-- a call, run to its end: its result, and the memory afterwards -/
def runMix (E : Env) (c : Codec V) (isNone : V → Bool) (pre : Str) (ix : Index) (s : Store) : MixOp V → MixRes V × Store
  | .set b mode k v eo => let r := (padSet E c (mixPad pre ix b mode) k v eo).run E s; (mixRes .done r.1, r.2)
  | .get b k => let r := (padGet c isNone (mixPad pre ix b .fake) k).run E s; (mixRes .value r.1, r.2)
  | .del b mode k => let r := (padDel E (mixPad pre ix b mode) k).run E s; (mixRes .done r.1, r.2)
  | .keys => let r := (padKeys E (mixPad pre ix true .fake)).run E s; (mixRes mixKeys r.1, r.2)
  | .items => let r := (padItems E c isNone (mixPad pre ix true .fake)).run E s; (mixRes .items r.1, r.2)
  | .clear mode => let r := (padClear E (mixPad pre ix true mode)).run E s; (mixRes .done r.1, r.2)

def playMix (E : Env) (c : Codec V) (isNone : V → Bool) (pre : Str) (ix : Index) : List (MixOp V) → Store → List (MixRes V) × Store
  | [], s => ([], s)
  | o :: t, s =>
    let r := runMix E c isNone pre ix s o
    let rest := playMix E c isNone pre ix t r.2
    (r.1 :: rest.1, rest.2)

end Verif.Model

namespace Verif.Lemmas
open Verif Verif.Model Verif.Spec
variable {V : Type} {E : Env} {c : Codec V} {isNone : V → Bool} {pre : Str} {U : Str → Prop}

/-- the calls in play -/
def MixOK (E : Env) (c : Codec V) (isNone : V → Bool) (U : Str → Prop) : MixOp V → Prop
  | .set _ mode k v _ => mode.Runs ∧ k.hashed E = E.utf8 k.text ∧ U k.text ∧ ∃ b, Stable c isNone v b
  | .get _ k => U k.text
  | .del _ mode k => mode.Runs ∧ k.hashed E = E.utf8 k.text ∧ U k.text
  | .clear mode => mode.Runs
  | _ => True

/-- the value blocks hold the dictionary -/
def MixVals (c : Codec V) (isNone : V → Bool) (pre : Str) (s : Store) (m : Str → Option V) : Prop :=
  ∀ k, ¬ indexWord <+: k → match m k with
    | none => s.content (padAddr pre k) = none
    | some v => ∃ b, Stable c isNone v b ∧ s.content (padAddr pre k) = some b

/-- the memory holds the state -/
structure MixRep (E : Env) (c : Codec V) (isNone : V → Bool) (pre : Str) (U : Str → Prop) (s : Store) (ix : Index) (st : MixState V)
    (fl : Nat) : Prop where
  wf : s.WF
  name : ix.name = indexName pre
  rep : IxRep E s ix st.listed
  lock : LockClean s (indexName pre) fl
  used : ∀ k ∈ st.listed, U k
  vals : MixVals c isNone pre s st.val

theorem MixVals.same {s s' : Store} {m : Str → Option V} (h : MixVals c isNone pre s m)
    (hs : ∀ k, ¬ indexWord <+: k → s'.content (padAddr pre k) = s.content (padAddr pre k)) : MixVals c isNone pre s' m := by
  intro k hk
  rw [hs k hk]
  exact h k hk

theorem MixVals.eff {s s' : Store} {m : Str → Option V} (h : MixVals c isNone pre s m) {k : Str} {x : Option V} {b : Option Bytes}
    (he : Eff s s' (padAddr pre k) b)
    (hx : match x with | none => b = none | some v => ∃ b', Stable c isNone v b' ∧ b = some b') :
    MixVals c isNone pre s' (upd m k x) := by
  intro k' hk'
  simp only [upd]
  rw [he.content]
  by_cases hkk : k' = k
  · subst hkk
    simp only [if_pos]
    cases x <;> exact hx
  · rw [if_neg fun e => hkk (pad_inj e), if_neg hkk]
    exact h k' hk'

theorem MixVals.absent {s : Store} {m : Str → Option V} (h : MixVals c isNone pre s m) {k : Str} (hk : ¬ indexWord <+: k) :
    s.content (padAddr pre k) = none ↔ m k = none := by
  have := h k hk
  cases hm : m k with
  | none => rw [hm] at this; simpa using this
  | some v =>
    rw [hm] at this
    obtain ⟨b, _, hb⟩ := this
    simp [hb]

theorem MixVals.readAs {s : Store} {m : Str → Option V} (h : MixVals c isNone pre s m) {k : Str} (hk : ¬ indexWord <+: k) :
    Lemmas.readAs c isNone (s.content (padAddr pre k)) = (match m k with | some v => .ok v | none => .err .fileNotFound) := by
  have := h k hk
  cases hm : m k with
  | none => rw [hm] at this; simp only at this; rw [this]; rfl
  | some v =>
    rw [hm] at this
    obtain ⟨b, ⟨_, _, h1, h2⟩, hb⟩ := this
    rw [hb]
    simp [Lemmas.readAs, h1, h2]

/-- the outcome without what is returned -/
def mixDone {α : Type} : Outcome α → Outcome Unit
  | .ok _ => .ok ()
  | .err e => .err e
  | .stuck => .stuck

section
variable (hU : KeysOK E pre U) (hok : NamesOK E (indexName pre)) {s : Store} {ix : Index} {st : MixState V} {fl : Nat}

/-- one value block changes -/
theorem MixRep.eff (h : MixRep E c isNone pre U s ix st fl) {s' : Store} {k : Str} (hk : ¬ indexWord <+: k) {x : Option V} {b : Option Bytes}
    (he : Eff s s' (padAddr pre k) b)
    (hx : match x with | none => b = none | some v => ∃ b', Stable c isNone v b' ∧ b = some b') :
    MixRep E c isNone pre U s' ix ⟨st.listed, upd st.val k x⟩ fl := by
  have hs := he.sameOff (P := fun x => x = padAddr pre k) rfl
  exact ⟨he.wf, h.name, h.rep.same hs (fun sl _ => by rw [h.name]; exact slot_ne_pad hk sl),
    h.lock.same (hs.mono fun x hx hl => by obtain ⟨sl, _, he⟩ := hl; exact slot_ne_pad hk sl (he.symm.trans hx)), h.used, h.vals.eff he hx⟩

include hU hok in
/-- `set` by a client with an index -/
theorem run_mixSet_tag (h : MixRep E c isNone pre U s ix st fl) (hfl : fl + 1 < 256 ^ 5) (hlen : st.listed.length + 1 < 256 ^ 8)
    {mode : LockMode} (hm : mode.Runs) {key : Key} (hk : key.hashed E = E.utf8 key.text) (hUk : U key.text) {v : V} {b : Bytes}
    (hv : Stable c isNone v b) (eo : Bool) :
    ∃ s' fl' r, (padSet E c (mixPad pre ix true mode) key v eo).run E s = (r, s') ∧ toExcept r = some (mixSet st true key.text v eo).1 ∧
      MixRep E c isNone pre U s' ix (mixSet st true key.text v eo).2 fl' ∧ fl' ≤ fl + 1 ∧
      (mixSet st true key.text v eo).2.listed.length ≤ st.listed.length + 1 ∧ SameOff (padTouch pre) s s' := by
  have hok' : NamesOK E ix.name := by rw [h.name]; exact hok
  have hfree := hU.free _ hUk
  obtain ⟨o, s1, fl', e1, ho, w1, h1, hc1, hfl1, hs1⟩ := run_indexAdd h.wf h.rep (by rw [h.name]; exact h.lock) hfl hok' hm hk
    (hU.nonempty _ hUk) hlen (fun k' hk' => hU.inj _ _ (h.used k' hk') hUk) eo
  rw [h.name] at hs1 hc1
  have hcont : ∀ k, ¬ indexWord <+: k → s1.content (padAddr pre k) = s.content (padAddr pre k) := fun k hk => (hs1 _ (pad_not_tag hk)).2
  have hs1' : SameOff (padTouch pre) s s1 := hs1.mono fun x => Or.inl
  have hadd : (ixAdd st.listed key.text eo).2 = if key.text ∉ st.listed then st.listed ++ [key.text] else st.listed := by
    unfold ixAdd
    cases hp : position key.text st.listed with
    | none => rw [if_pos (position_none.1 hp)]
    | some i => rw [if_neg (fun hn => hn (mem_iff_position.2 ⟨i, hp⟩))]
  have hrep1 : MixRep E c isNone pre U s1 ix ⟨(ixAdd st.listed key.text eo).2, st.val⟩ fl' := by
    refine ⟨w1, h.name, h1, hc1, fun k hk => ?_, h.vals.same hcont⟩
    rcases mem_ixAdd hk with hk | hk
    · exact h.used k hk
    · rw [hk]; exact hUk
  have hlen1 := length_ixAdd st.listed key.text eo
  have e1' : (padIndexAdd E (mixPad pre ix true mode) key false eo).run E s =
      (mixDone o, s1) := by
    simp only [padIndexAdd, mixPad, if_true, Bool.false_eq_true, if_false]
    rw [run_bind, e1]
    cases o <;> rfl
  unfold padSet
  rw [not_reserved hfree]
  simp only [Bool.false_eq_true, if_false]
  rw [run_bind, run_attempt, run_bind, e1']
  unfold mixSet
  by_cases hcase : eo = false ∧ key.text ∈ st.listed
  · have hcase' : eo = false ∧ true = true ∧ key.text ∈ st.listed := ⟨hcase.1, rfl, hcase.2⟩
    rw [if_pos hcase']
    obtain ⟨i, hi⟩ := mem_iff_position.1 hcase.2
    have hx : ixAdd st.listed key.text eo = (.error .fileExists, st.listed) := by unfold ixAdd; rw [hi, hcase.1]; rfl
    rw [hx] at ho hrep1
    obtain rfl : o = .err .fileExists := by cases o <;> simp [toExcept] at ho; rw [ho]
    exact ⟨s1, fl', .err .keyError, rfl, rfl, hrep1, hfl1, by simp, hs1'⟩
  · have hcase' : ¬ (eo = false ∧ true = true ∧ key.text ∈ st.listed) := fun hx => hcase ⟨hx.1, hx.2.2⟩
    rw [if_neg hcase']
    simp only [true_and]
    rw [← hadd]
    obtain ⟨j, rfl⟩ : ∃ j, o = .ok j := by
      unfold ixAdd at ho
      cases hp : position key.text st.listed with
      | none =>
        rw [hp] at ho
        cases o <;> simp [toExcept] at ho
        exact ⟨_, rfl⟩
      | some i =>
        rw [hp] at ho
        have he : eo = true := by
          by_contra hc
          exact hcase ⟨by simpa using hc, mem_iff_position.2 ⟨i, hp⟩⟩
        subst he
        cases o <;> simp [toExcept] at ho
        exact ⟨_, rfl⟩
    simp only [mixDone]
    rw [andThen_ok, run_bind]
    by_cases hx : eo = false ∧ (st.val key.text).isSome = true
    · rw [if_pos hx]
      have hne : s1.content (padAddr pre key.text) ≠ none := fun hc => by
        rw [hrep1.vals.absent hfree] at hc
        simp only at hc
        rw [hc] at hx
        cases hx.2
      have e2 : (memorize c v (padAddr (mixPad pre ix true mode).pre key.text) eo).run E s1 = (.err .fileExists, s1) := by
        rw [hx.1]; exact run_memorize_refused (hU.ok _ hUk) hne
      rw [e2]
      exact ⟨s1, fl', .err .keyError, rfl, rfl, hrep1, hfl1, by simpa using hlen1, hs1'⟩
    · rw [if_neg hx]
      obtain ⟨s2, e2, f2⟩ := run_memorize (E := E) (c := c) w1 (v := v) (a := padAddr pre key.text) (existsOk := eo) (hU.ok _ hUk)
        hv.1 hv.2.1 (by
          cases eo with
          | true => exact Or.inl rfl
          | false =>
            refine Or.inr ((hrep1.vals.absent hfree).2 ?_)
            simp only
            cases hm : st.val key.text with
            | none => rfl
            | some v => exact absurd ⟨rfl, by rw [hm]; rfl⟩ hx)
      have e2' : (memorize c v (padAddr (mixPad pre ix true mode).pre key.text) eo).run E s1 = (.ok (padAddr pre key.text), s2) := e2
      rw [e2']
      exact ⟨s2, fl', .ok (), rfl, rfl, hrep1.eff hfree f2 (x := some v) ⟨b, hv, rfl⟩, hfl1, by simpa using hlen1,
        hs1'.trans (f2.sameOff (Or.inr ⟨_, hfree, rfl⟩))⟩

include hU in
/-- `set` by a client without one -/
theorem run_mixSet_fake (h : MixRep E c isNone pre U s ix st fl) {mode : LockMode} {key : Key} (hUk : U key.text) {v : V} {b : Bytes}
    (hv : Stable c isNone v b) (eo : Bool) :
    ∃ s' r, (padSet E c (mixPad pre ix false mode) key v eo).run E s = (r, s') ∧ toExcept r = some (mixSet st false key.text v eo).1 ∧
      MixRep E c isNone pre U s' ix (mixSet st false key.text v eo).2 fl ∧
      (mixSet st false key.text v eo).2.listed.length ≤ st.listed.length + 1 ∧ SameOff (padTouch pre) s s' := by
  have hfree := hU.free _ hUk
  have e0 : (padIndexAdd E (mixPad pre ix false mode) key false eo).run E s = (.ok (), s) := rfl
  unfold padSet
  rw [not_reserved hfree]
  simp only [Bool.false_eq_true, if_false]
  rw [run_bind, run_attempt, run_bind, e0, andThen_ok, run_bind]
  unfold mixSet
  simp only [Bool.false_eq_true, false_and, and_false, if_false]
  by_cases hx : eo = false ∧ (st.val key.text).isSome = true
  · rw [if_pos hx]
    have hne : s.content (padAddr pre key.text) ≠ none := fun hc => by
      rw [h.vals.absent hfree] at hc
      rw [hc] at hx
      cases hx.2
    have e2 : (memorize c v (padAddr (mixPad pre ix false mode).pre key.text) eo).run E s = (.err .fileExists, s) := by
      rw [hx.1]; exact run_memorize_refused (hU.ok _ hUk) hne
    rw [e2]
    exact ⟨s, .err .keyError, rfl, rfl, h, by simp, SameOff.refl _ _⟩
  · rw [if_neg hx]
    obtain ⟨s2, e2, f2⟩ := run_memorize (E := E) (c := c) h.wf (v := v) (a := padAddr pre key.text) (existsOk := eo) (hU.ok _ hUk)
      hv.1 hv.2.1 (by
        cases eo with
        | true => exact Or.inl rfl
        | false =>
          refine Or.inr ((h.vals.absent hfree).2 ?_)
          cases hm : st.val key.text with
          | none => rfl
          | some v => exact absurd ⟨rfl, by rw [hm]; rfl⟩ hx)
    have e2' : (memorize c v (padAddr (mixPad pre ix false mode).pre key.text) eo).run E s = (.ok (padAddr pre key.text), s2) := e2
    rw [e2']
    exact ⟨s2, .ok (), rfl, rfl, h.eff hfree f2 (x := some v) ⟨b, hv, rfl⟩, by simp, f2.sameOff (Or.inr ⟨_, hfree, rfl⟩)⟩

include hU hok in
/-- `del` -/
theorem run_mixDel (h : MixRep E c isNone pre U s ix st fl) (hfl : fl + 1 < 256 ^ 5) {mode : LockMode} (hm : mode.Runs) {key : Key}
    (hk : key.hashed E = E.utf8 key.text) (hUk : U key.text) (bx : Bool) :
    ∃ s' fl' r, (padDel E (mixPad pre ix bx mode) key).run E s = (r, s') ∧ toExcept r = some (mixDel st bx key.text).1 ∧
      MixRep E c isNone pre U s' ix (mixDel st bx key.text).2 fl' ∧
      fl' + (mixDel st bx key.text).2.listed.length ≤ fl + st.listed.length + 1 ∧ fl' ≤ fl + 1 ∧
      (mixDel st bx key.text).2.listed.length ≤ st.listed.length ∧
      ((mixDel st bx key.text).1 = .ok () → fl' + (mixDel st bx key.text).2.listed.length ≤ fl + st.listed.length) ∧
      SameOff (padTouch pre) s s' := by
  have hok' : NamesOK E ix.name := by rw [h.name]; exact hok
  have hfree := hU.free _ hUk
  have hokp : E.okName (padAddr (mixPad pre ix bx mode).pre key.text) = true := hU.ok _ hUk
  have hpt : padTouch pre (padAddr pre key.text) := Or.inr ⟨_, hfree, rfl⟩
  unfold padDel
  rw [not_reservedExact hfree]
  simp only [Bool.false_eq_true, if_false]
  rw [run_bind, run_attempt, run_bind]
  unfold mixDel
  cases hmk : st.val key.text with
  | none =>
    have hb := (h.vals.absent hfree).2 hmk
    rw [run_deleteBlock_none hokp (content_none.1 hb)]
    exact ⟨s, fl, .err .keyError, rfl, rfl, h, by simp, by omega, by simp, by simp, SameOff.refl _ _⟩
  | some v =>
    have hb : s.content (padAddr pre key.text) ≠ none := fun hc => by
      rw [(h.vals.absent hfree).1 hc] at hmk; cases hmk
    obtain ⟨i, hi⟩ : ∃ i, s.names (padAddr pre key.text) = some i := by
      cases hn : s.names (padAddr pre key.text) with
      | none => exact absurd (content_none.2 hn) hb
      | some i => exact ⟨i, rfl⟩
    have f1 := eff_unlinked h.wf (padAddr pre key.text)
    have h1 := h.eff hfree f1 (x := none) rfl
    rw [run_deleteBlock hokp hi, andThen_ok]
    simp only [reduceCtorEq, if_false]
    cases bx with
    | false =>
      simp only [Bool.false_eq_true, if_false]
      exact ⟨_, fl, .ok (), rfl, rfl, h1, by simp, by omega, by simp, by simp, f1.sameOff hpt⟩
    | true =>
      simp only [if_true]
      obtain ⟨o, s2, fl2, e2, ho, _, w2, h2, hc2, hfl2, hs2⟩ := run_indexDel f1.wf h1.rep (by rw [h.name]; exact h1.lock) hfl hok' hm hk
        (fun k' hk' => hU.inj _ _ (h.used k' hk') hUk)
      rw [h.name] at hs2 hc2
      have hcont : ∀ k, ¬ indexWord <+: k → s2.content (padAddr pre k) =
          (s.unlinked (padAddr pre key.text)).content (padAddr pre k) := fun k hk => (hs2 _ (pad_not_tag hk)).2
      have e2' : (padIndexDel E (mixPad pre ix true mode) key).run E (s.unlinked (padAddr (mixPad pre ix true mode).pre key.text)) =
          (mixDone o, s2) := by
        simp only [padIndexDel, mixPad, if_true]
        rw [run_bind, e2]
        cases o <;> rfl
      rw [e2']
      simp only at ho h2
      have hoff : SameOff (padTouch pre) s s2 := (f1.sameOff hpt).trans (hs2.mono fun x => Or.inl)
      cases hp : position key.text st.listed with
      | none =>
        have hnm := position_none.1 hp
        have hd : ixDel st.listed key.text = (.error .keyError, st.listed) := by unfold ixDel; rw [hp]
        rw [hd] at ho h2 ⊢
        rw [if_neg hnm]
        obtain rfl : o = .err .keyError := by
          cases o <;> simp [toExcept, Except.map] at ho
          rw [ho]
        exact ⟨s2, fl2, .err .keyError, rfl, rfl, ⟨w2, h.name, h2, hc2, h.used, h1.vals.same hcont⟩, by simp; omega, hfl2, by simp,
          by simp, hoff⟩
      | some j =>
        have hmem : key.text ∈ st.listed := mem_iff_position.2 ⟨j, hp⟩
        have hd : ixDel st.listed key.text = (.ok j, swapRemove st.listed j) := by unfold ixDel; rw [hp]
        rw [hd] at ho h2 ⊢
        rw [if_pos hmem]
        obtain ⟨r, rfl⟩ : ∃ r, o = .ok r := by
          cases o <;> simp [toExcept, Except.map] at ho
          exact ⟨_, rfl⟩
        have hl := length_swapRemove (position_lt hp)
        have hlt := position_lt hp
        simp only
        exact ⟨s2, fl2, .ok (), rfl, rfl, ⟨w2, h.name, h2, hc2, fun k hk => h.used k (mem_swapRemove hlt hk), h1.vals.same hcont⟩,
          by omega, hfl2, by omega, fun _ => by omega, hoff⟩

include hU hok in
theorem run_mixDels (l : List Str) (h : MixRep E c isNone pre U s ix st fl) (hl : ∀ k ∈ l, U k)
    (hfl : fl + st.listed.length + 1 < 256 ^ 5) {mode : LockMode} (hm : mode.Runs) :
    ∃ s' fl' r, (padDelAll E (mixPad pre ix true mode) l).run E s = (r, s') ∧ toExcept r = some (mixDels st l).1 ∧
      MixRep E c isNone pre U s' ix (mixDels st l).2 fl' ∧
      fl' + (mixDels st l).2.listed.length ≤ fl + st.listed.length + 1 ∧
      (mixDels st l).2.listed.length ≤ st.listed.length ∧ SameOff (padTouch pre) s s' := by
  induction l generalizing s st fl with
  | nil => exact ⟨s, fl, .ok (), rfl, rfl, h, by simp [mixDels], by simp [mixDels], SameOff.refl _ _⟩
  | cons k t ih =>
    obtain ⟨s1, fl1, r1, e1, hr1, h1, hf1, _, hl1, hg1, hs1⟩ := run_mixDel hU hok h (by omega) hm (key := .str k) rfl (hl k (by simp)) true
    simp only [Key.text] at hr1 h1 hl1 hf1 hg1
    rw [padDelAll, run_bind, e1]
    unfold mixDels
    generalize mixDel st true k = d at hr1 h1 hl1 hf1 hg1
    obtain ⟨a, st1⟩ := d
    simp only at hr1 h1 hl1 hf1 hg1
    cases a with
    | error e =>
      cases r1 <;> simp [toExcept] at hr1
      subst hr1
      exact ⟨s1, fl1, _, rfl, rfl, h1, hf1, hl1, hs1⟩
    | ok u =>
      cases r1 <;> simp [toExcept] at hr1
      have hg1 := hg1 rfl
      obtain ⟨s2, fl2, r2, e2, hr2, h2, hf2, hl2, hs2⟩ := ih h1 (fun x hx => hl x (by simp [hx])) (by omega)
      exact ⟨s2, fl2, r2, by rw [andThen_ok, e2], hr2, h2, by simp only; omega, Nat.le_trans hl2 hl1, hs1.trans hs2⟩

include hU in
theorem run_mixGet (h : MixRep E c isNone pre U s ix st fl) {mode : LockMode} {key : Key} (hUk : U key.text) (b : Bool) :
    ∃ r, (padGet c isNone (mixPad pre ix b mode) key).run E s = (r, s) ∧ toExcept r = some (mixGet st key.text) := by
  refine ⟨_, run_padGet (p := mixPad pre ix b mode) (hU.ok _ hUk), ?_⟩
  have := h.vals.readAs (hU.free _ hUk)
  rw [show (mixPad pre ix b mode).pre = pre from rfl, this]
  unfold mixGet
  cases st.val key.text <;> rfl

include hU in
theorem run_mixItems (h : MixRep E c isNone pre U s ix st fl) {mode : LockMode} (l : List Str) (hl : ∀ k ∈ l, U k) :
    ∃ r, (padItemsOf c isNone (mixPad pre ix true mode) l).run E s = (r, s) ∧ toExcept r = some (mixItems st l) := by
  induction l with
  | nil => exact ⟨.ok [], rfl, rfl⟩
  | cons k t ih =>
    obtain ⟨r, e, hr⟩ := ih fun k hk => hl k (List.mem_cons_of_mem _ hk)
    obtain ⟨r1, e1, hr1⟩ := run_mixGet (mode := mode) hU h (key := .str k) (hl k List.mem_cons_self) true
    simp only [Key.text] at hr1
    rw [padItemsOf, run_bind, e1]
    unfold mixItems
    cases hg : mixGet st k with
    | error x =>
      rw [hg] at hr1
      cases r1 <;> simp [toExcept] at hr1
      subst hr1
      exact ⟨_, rfl, rfl⟩
    | ok v =>
      rw [hg] at hr1
      cases r1 <;> simp [toExcept] at hr1
      subst hr1
      rw [andThen_ok, run_bind, e]
      cases hi : mixItems st t with
      | error x =>
        rw [hi] at hr
        cases r <;> simp [toExcept] at hr
        subst hr
        exact ⟨_, rfl, rfl⟩
      | ok l' =>
        rw [hi] at hr
        cases r <;> simp [toExcept] at hr
        subst hr
        exact ⟨_, rfl, rfl⟩

theorem mixRes_of {α : Type} {f : Except PyErr α → MixRes V} {o : Outcome α} {r : Except PyErr α} (h : toExcept o = some r) : mixRes f o = f r := by
  cases o <;> simp [toExcept] at h <;> subst h <;> rfl

include hU hok in
/-- one call -/
theorem runMix_ok (h : MixRep E c isNone pre U s ix st fl) (o : MixOp V) (ho : MixOK E c isNone U o)
    (hfl : fl + st.listed.length + 2 < 256 ^ 5) :
    ∃ fl', (runMix E c isNone pre ix s o).1 = (mixAnswer st o.call).1 ∧
      MixRep E c isNone pre U (runMix E c isNone pre ix s o).2 ix (mixAnswer st o.call).2 fl' ∧
      fl' + (mixAnswer st o.call).2.listed.length ≤ fl + st.listed.length + 2 ∧ SameOff (padTouch pre) s (runMix E c isNone pre ix s o).2 := by
  have hok' : NamesOK E ix.name := by rw [h.name]; exact hok
  have hp : (256 : Nat) ^ 5 < 256 ^ 8 := by decide
  cases o with
  | set bx mode key v eo =>
    obtain ⟨h1, h2, h3, b, hb⟩ := ho
    cases bx with
    | true =>
      obtain ⟨s', fl', r, e, hr, h', hf, hl, hs⟩ := run_mixSet_tag hU hok h (by omega) (by omega) h1 h2 h3 hb eo
      simp only [runMix, e, MixOp.call, mixAnswer]
      exact ⟨fl', mixRes_of hr, h', by omega, hs⟩
    | false =>
      obtain ⟨s', r, e, hr, h', hl, hs⟩ := run_mixSet_fake (mode := mode) hU h h3 hb eo
      simp only [runMix, e, MixOp.call, mixAnswer]
      exact ⟨fl, mixRes_of hr, h', by omega, hs⟩
  | get bx key =>
    obtain ⟨r, e, hr⟩ := run_mixGet (mode := .fake) hU h ho bx
    simp only [runMix, e, MixOp.call, mixAnswer]
    exact ⟨fl, mixRes_of hr, h, by omega, SameOff.refl _ _⟩
  | del bx mode key =>
    obtain ⟨h1, h2, h3⟩ := ho
    obtain ⟨s', fl', r, e, hr, h', hf, _, _, _, hs⟩ := run_mixDel hU hok h (by omega) h1 h2 h3 bx
    simp only [runMix, e, MixOp.call, mixAnswer]
    exact ⟨fl', mixRes_of hr, h', by omega, hs⟩
  | keys =>
    have e : (padKeys E (mixPad pre ix true .fake)).run E s = (.ok (some st.listed), s) := by
      simp only [padKeys, mixPad, if_true]
      rw [run_bind, run_indexUpdate h.rep hok']; rfl
    simp only [runMix, e, MixOp.call, mixAnswer]
    exact ⟨fl, rfl, h, by omega, SameOff.refl _ _⟩
  | items =>
    obtain ⟨r, e, hr⟩ := run_mixItems (mode := .fake) hU h st.listed h.used
    have e2 : (padItems E c isNone (mixPad pre ix true .fake)).run E s = (r, s) := by
      simp only [padItems, mixPad, if_true]
      rw [run_bind, run_indexUpdate h.rep hok', andThen_ok]; exact e
    simp only [runMix, e2, MixOp.call, mixAnswer]
    exact ⟨fl, mixRes_of hr, h, by omega, SameOff.refl _ _⟩
  | clear mode =>
    obtain ⟨s', fl', r, e, hr, h', hf, hl, hs⟩ := run_mixDels hU hok st.listed h h.used (by omega) (mode := mode) ho
    have e2 : (padClear E (mixPad pre ix true mode)).run E s = (r, s') := by
      simp only [padClear, mixPad, if_true]
      rw [run_bind, run_indexUpdate h.rep hok', andThen_ok]; exact e
    simp only [runMix, e2, MixOp.call, mixAnswer]
    exact ⟨fl', mixRes_of hr, h', by omega, hs⟩

include hU hok in
/-- a history -/
theorem playMix_ok (ops : List (MixOp V)) (h : MixRep E c isNone pre U s ix st fl) (ho : ∀ o ∈ ops, MixOK E c isNone U o)
    (hfl : fl + st.listed.length + 2 * ops.length < 256 ^ 5) :
    ∃ fl', (playMix E c isNone pre ix ops s).1 = (mixPlay (ops.map MixOp.call) st).1 ∧
      MixRep E c isNone pre U (playMix E c isNone pre ix ops s).2 ix (mixPlay (ops.map MixOp.call) st).2 fl' ∧
      fl' + (mixPlay (ops.map MixOp.call) st).2.listed.length ≤ fl + st.listed.length + 2 * ops.length ∧
      SameOff (padTouch pre) s (playMix E c isNone pre ix ops s).2 := by
  induction ops generalizing s st fl with
  | nil => exact ⟨fl, rfl, h, by simp [mixPlay], SameOff.refl _ _⟩
  | cons o t ih =>
    simp only [List.length_cons] at hfl
    obtain ⟨fl1, h1, h2, h3, h4⟩ := runMix_ok hU hok h o (ho o (by simp)) (by omega)
    obtain ⟨fl2, g1, g2, g3, g4⟩ := ih h2 (fun o' ho' => ho o' (by simp [ho'])) (by omega)
    refine ⟨fl2, ?_, g2, ?_, h4.trans g4⟩
    · simp only [playMix, List.map_cons, mixPlay, h1, g1]
    · simp only [List.map_cons, mixPlay, List.length_cons]; omega

end
end Verif.Lemmas

namespace Verif.Lemmas
open Verif Verif.Model Verif.Spec
variable {V : Type} {E : Env} {c : Codec V} {isNone : V → Bool} {pre : Str} {U : Str → Prop}

/-- a client with an index starts on a prefix without one -/
theorem run_mixInit {s : Store} (w : s.WF) (hok : NamesOK E (indexName pre)) (hno : ∀ sl : Slot, s.content (sl.addr (indexName pre)) = none)
    {m : Str → Option V} (hm : MixVals c isNone pre s m) (mode : LockMode) :
    ∃ ix s', (padInit pre true mode).run E s = (.ok (mixPad pre ix true mode), s') ∧ MixRep E c isNone pre U s' ix ⟨[], m⟩ 0 ∧
      SameOff (padTouch pre) s s' := by
  obtain ⟨ix, s', e, hname, w', h, hc, hs⟩ := run_tagIndexInit_create (E := E) w (fun sl _ => hno sl) hok
  refine ⟨ix, s', ?_, ⟨w', hname, h, by rw [← hname]; exact hc, by simp, hm.same fun k hk => (hs _ (pad_not_tag hk)).2⟩, hs.mono fun x => Or.inl⟩
  rw [padInit, run_bind, e]; rfl

/-- `indexClose` when nothing is listed -/
theorem run_mixIndexClose (hok : NamesOK E (indexName pre)) {s : Store} {ix : Index} {st : MixState V} {fl : Nat}
    (h : MixRep E c isNone pre U s ix st fl) (hnil : st.listed = []) :
    ∃ s', (indexClose ix).run E s = (.ok (), s') ∧ s'.WF ∧ (∀ x, tagNames (indexName pre) x → s'.content x = none) ∧
      SameOff (tagNames (indexName pre)) s s' := by
  have hrep := h.rep
  rw [hnil] at hrep
  have tm : tagNames (indexName pre) (indexName pre) := Or.inl (indexNames_mem _)
  have tc : tagNames (indexName pre) (countAddr (indexName pre)) := Or.inr (lockNames_count _)
  have hm1 : s.names (indexName pre) = some ix.memory := by rw [← h.name]; exact hrep.mem
  have f2 := eff_unlinked h.wf (indexName pre)
  have hcm : countAddr (indexName pre) ≠ indexName pre := by
    intro he
    have := addr_injective ((addr_count _).symm.trans (he.trans (addr_mem _)))
    simp at this
  have hfin : ∀ s2 : Store, s2.content (indexName pre) = none → s2.content (countAddr (indexName pre)) = none →
      (∀ x, x ≠ indexName pre → x ≠ countAddr (indexName pre) → s2.content x = s.content x) →
      ∀ x, tagNames (indexName pre) x → s2.content x = none := by
    intro s2 n1 n2 hx x ht
    by_cases hx1 : x = indexName pre
    · rw [hx1]; exact n1
    by_cases hx2 : x = countAddr (indexName pre)
    · rw [hx2]; exact n2
    rw [hx x hx1 hx2]
    rcases ht with ⟨sl, hsl, rfl⟩ | ⟨sl, hsl, rfl⟩
    · cases sl with
      | mem => exact absurd (addr_mem _).symm hx1
      | hash hh => rw [← h.name]; exact hrep.nohash hh (by simp)
      | key i => rw [← addr_key, ← h.name]; exact hrep.nokey i (by simp)
      | _ => simp [Slot.isIndex] at hsl
    · cases sl with
      | count => exact absurd rfl hx2
      | marker n => exact h.lock.marker n
      | lock n => exact h.lock.lock n
      | _ => simp [Slot.isLock] at hsl
  cases hcn : s.names (countAddr (indexName pre)) with
  | none =>
    refine ⟨s.unlinked (indexName pre), ?_, f2.wf, hfin _ (by rw [f2.content, if_pos rfl])
      (by rw [f2.content, if_neg hcm]; exact content_none.2 hcn) (fun x h1 h2 => by rw [f2.content, if_neg h1]),
      f2.sameOff tm⟩
    rw [indexClose, h.name, run_bind, run_unlink hm1, andThen_ok, run_bind, run_existsBlock _ hok.count, andThen_ok,
      f2.names _ hcm, hcn]
    rfl
  | some i =>
    have hcn2 : (s.unlinked (indexName pre)).names (countAddr (indexName pre)) = some i := by
      rw [f2.names _ hcm]; exact hcn
    have f3 := eff_unlinked f2.wf (countAddr (indexName pre))
    refine ⟨(s.unlinked (indexName pre)).unlinked (countAddr (indexName pre)), ?_, f3.wf,
      hfin _ (by rw [f3.content, if_neg hcm.symm, f2.content, if_pos rfl]) (by rw [f3.content, if_pos rfl])
      (fun x h1 h2 => by rw [f3.content, if_neg h2, f2.content, if_neg h1]),
      (f2.sameOff tm).trans (f3.sameOff tc)⟩
    rw [indexClose, h.name, run_bind, run_unlink hm1, andThen_ok, run_bind, run_existsBlock _ hok.count, andThen_ok,
      hcn2]
    simp only [Option.isSome_some, if_true]
    rw [run_bind, run_attach hok.count hcn2, andThen_ok, run_unlink hcn2]

theorem mixDel_listed {st : MixState V} {k : Str} (hk : st.listed.Nodup) (hv : st.val k ≠ none) :
    ∃ r, mixDel st true k = (r, ⟨(ixDel st.listed k).2, upd st.val k none⟩) ∧ (k ∈ st.listed → r = .ok ()) ∧
      (ixDel st.listed k).2.Nodup ∧ ∀ x, x ∈ (ixDel st.listed k).2 ↔ x ∈ st.listed ∧ x ≠ k := by
  refine ⟨if k ∈ st.listed then .ok () else .error .keyError, ?_, fun h => if_pos h, ?_⟩
  · simp only [mixDel, if_neg hv, if_true]
  · unfold ixDel
    cases hp : position k st.listed with
    | none =>
      refine ⟨hk, fun x => ⟨fun h => ⟨h, fun e => position_none.1 hp (e ▸ h)⟩, fun h => h.1⟩⟩
    | some j => exact ⟨nodup_swapRemove hk (position_lt hp), fun x => mem_swapRemove_iff hk (position_some hp)⟩

/-- if all that is listed has a value, removing all succeeds, and leaves what is not listed -/
theorem mixDels_all (l : List Str) (st : MixState V) (hnd : l.Nodup) (hk : st.listed.Nodup) (hl : ∀ k, k ∈ l ↔ k ∈ st.listed)
    (hv : ∀ k ∈ st.listed, st.val k ≠ none) :
    mixDels st l = (.ok (), ⟨[], fun k => if k ∈ l then none else st.val k⟩) := by
  induction l generalizing st with
  | nil =>
    have : st.listed = [] := by
      cases h : st.listed with
      | nil => rfl
      | cons k t => exact absurd ((hl k).2 (by rw [h]; exact List.mem_cons_self)) (by simp)
    cases st
    simp_all [mixDels]
  | cons k t ih =>
    have hm : k ∈ st.listed := (hl k).1 List.mem_cons_self
    obtain ⟨r, e, hr, hd, hiff⟩ := mixDel_listed hk (hv k hm)
    rw [hr hm] at e
    have hkt := (List.nodup_cons.1 hnd).1
    rw [mixDels, e]
    simp only
    rw [ih _ (List.nodup_cons.1 hnd).2 hd (fun x => ?_) (fun x hx => ?_)]
    · congr 2
      funext x
      simp only [upd, List.mem_cons]
      by_cases hx : x = k
      · subst hx; simp
      · simp [hx]
    · rw [hiff, ← hl]
      constructor
      · exact fun h => ⟨by simp [h], fun e => hkt (e ▸ h)⟩
      · rintro ⟨h1, h2⟩
        simpa [h2] using h1
    · rw [hiff] at hx
      simp only [upd, if_neg hx.2]
      exact hv x hx.1

/-- a listed key without a value: removing all fails, and the key stays listed -/
theorem mixDels_stuck (l : List Str) (st : MixState V) (hk : st.listed.Nodup) (k : Str) (hl : k ∈ l) (hm : k ∈ st.listed)
    (hv : st.val k = none) :
    (mixDels st l).1 = .error .keyError ∧ k ∈ (mixDels st l).2.listed ∧ (mixDels st l).2.val k = none := by
  induction l generalizing st with
  | nil => simp at hl
  | cons a t ih =>
    by_cases ha : st.val a = none
    · have e : mixDel st true a = (.error .keyError, st) := by simp only [mixDel, if_pos ha]
      rw [mixDels, e]
      exact ⟨rfl, hm, hv⟩
    · obtain ⟨r, e, hr, hd, hiff⟩ := mixDel_listed hk ha
      have hak : k ≠ a := fun he => ha (he ▸ hv)
      have hm' := (hiff k).2 ⟨hm, hak⟩
      have hv' : upd st.val a none k = none := by simp only [upd, if_neg hak]; exact hv
      rw [mixDels, e]
      cases r with
      | error x =>
        have : a ∉ st.listed := fun h => by cases hr h
        have hx : (mixDel st true a).1 = .error .keyError := by simp only [mixDel, if_neg ha, if_neg this, if_true]
        rw [e] at hx
        exact ⟨hx, hm', hv'⟩
      | ok u => exact ih _ hd ((List.mem_cons.1 hl).resolve_left hak) hm' hv'

/-! ## when clients without an index are careful -/

/-- what is listed is what has a value -/
def MixSame (st : MixState V) : Prop := st.listed.Nodup ∧ ∀ k, k ∈ st.listed ↔ st.val k ≠ none

theorem mixDel_same {st : MixState V} (h : MixSame st) (k : Str) : MixSame (mixDel st true k).2 := by
  by_cases hv : st.val k = none
  · simp only [mixDel, if_pos hv]; exact h
  · obtain ⟨r, e, _, hd, hiff⟩ := mixDel_listed h.1 hv
    rw [e]
    refine ⟨hd, fun x => ?_⟩
    simp only
    rw [hiff, h.2, upd]
    by_cases hx : x = k <;> simp [hx]

theorem mixDels_same (l : List Str) {st : MixState V} (h : MixSame st) : MixSame (mixDels st l).2 := by
  induction l generalizing st with
  | nil => exact h
  | cons k t ih =>
    have h1 := mixDel_same h k
    unfold mixDels
    generalize mixDel st true k = d at h1
    obtain ⟨a, st1⟩ := d
    cases a with
    | error e => exact h1
    | ok u => exact ih h1

theorem mixSet_same {st : MixState V} (h : MixSame st) (k : Str) (v : V) (eo : Bool) : MixSame (mixSet st true k v eo).2 := by
  unfold mixSet
  by_cases hm : k ∈ st.listed
  · by_cases he : eo = false
    · simp only [he, hm, and_self, if_true]; exact h
    · have he : eo = true := by simpa using he
      subst he
      simp only [Bool.true_eq_false, false_and, if_false, hm, not_true_eq_false, and_false]
      refine ⟨h.1, fun x => ?_⟩
      simp only [upd]
      by_cases hx : x = k
      · simp [hx, hm]
      · rw [if_neg hx]; exact h.2 x
  · have hv : st.val k = none := by
      by_contra hc
      exact hm ((h.2 k).2 hc)
    simp only [hm, and_false, if_false, hv, Option.isSome_none, Bool.false_eq_true, not_false_eq_true, and_self, if_true]
    refine ⟨?_, fun x => ?_⟩
    · rw [List.nodup_append]
      exact ⟨h.1, by simp, fun a ha b hb => by
        simp only [List.mem_singleton] at hb
        exact fun he => hm (hb ▸ he ▸ ha)⟩
    · simp only [upd, List.mem_append, List.mem_singleton]
      by_cases hx : x = k
      · simp [hx]
      · simp [hx, h.2 x]

theorem mixPlay_careful (ops : List (MixCall V)) {st : MixState V} (h : MixSame st) (hc : mixCareful ops st) :
    mixPlay ops st = mixPlay (ops.map MixCall.indexed) st ∧ MixSame (mixPlay ops st).2 := by
  induction ops generalizing st with
  | nil => exact ⟨rfl, h⟩
  | cons o t ih =>
    obtain ⟨h1, h2⟩ := hc
    have key : mixAnswer st o = mixAnswer st o.indexed ∧ MixSame (mixAnswer st o).2 := by
      cases o with
      | set ix k v eo =>
        have e : mixSet st ix k v eo = mixSet st true k v eo := by
          rcases h1 with h1 | h1
          · rw [h1]
          · cases ix with
            | true => rfl
            | false =>
              have hv : (st.val k).isSome = true := by
                have := (h.2 k).1 h1
                cases hk : st.val k with
                | none => exact absurd hk this
                | some v => rfl
              cases eo <;> simp [mixSet, h1, hv]
        simp only [mixAnswer, MixCall.indexed, e]
        exact ⟨trivial, mixSet_same h k v eo⟩
      | del ix k =>
        obtain rfl : ix = true := h1
        exact ⟨rfl, mixDel_same h k⟩
      | get k => exact ⟨rfl, h⟩
      | keys => exact ⟨rfl, h⟩
      | items => exact ⟨rfl, h⟩
      | clear => exact ⟨rfl, mixDels_same _ h⟩
    obtain ⟨g1, g2⟩ := ih key.2 h2
    simp only [mixPlay, List.map_cons, ← key.1, ← g1]
    exact ⟨trivial, g2⟩

end Verif.Lemmas
