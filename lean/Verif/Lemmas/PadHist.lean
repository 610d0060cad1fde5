import Verif.Lemmas.Pad
/-! # Histories of calls on notepads -/
namespace Verif.Model
open Verif Verif.Spec
variable {V : Type}

/-- a call on a notepad by one of its clients; each client has its own object and lock class -/
inductive NoteOp (V : Type) where
  | create (mode : LockMode)
  | join (mode : LockMode)
  | set (client : Nat) (key : Key) (v : V) (existsOk : Bool)
  | get (client : Nat) (key : Key)
  | del (client : Nat) (key : Key)
  | keys (client : Nat)
  | items (client : Nat)
  | clear (client : Nat)
  | close (client : Nat)

def NoteOp.call : NoteOp V → NoteCall V
  | .create _ => .create
  | .join _ => .join
  | .set c k v eo => .set c k.text v eo
  | .get c k => .get c k.text
  | .del c k => .del c k.text
  | .keys c => .keys c
  | .items c => .items c
  | .clear c => .clear c
  | .close c => .close c

def outDone : Outcome Unit → NoteRes V
  | .ok _ => .done (.ok ())
  | .err e => .done (.error e)
  | .stuck => .stuck

def outValue : Outcome V → NoteRes V
  | .ok v => .value (.ok v)
  | .err e => .value (.error e)
  | .stuck => .stuck

def outKeys : Outcome (Option (List Str)) → NoteRes V
  | .ok (some l) => .listing (.ok l)
  | .ok none => .listing (.error .typeError)
  | .err e => .listing (.error e)
  | .stuck => .stuck

def outItems : Outcome (List (Str × V)) → NoteRes V
  | .ok l => .items (.ok l)
  | .err e => .items (.error e)
  | .stuck => .stuck

/-- what a call on a client's object runs -/
def padCall (E : Env) (c : Codec V) (isNone : V → Bool) (p : Pad) (s : Store) : NoteOp V → NoteRes V × Store
  | .set _ key v eo => (outDone ((padSet E c p key v eo).run E s).1, ((padSet E c p key v eo).run E s).2)
  | .get _ key => (outValue ((padGet c isNone p key).run E s).1, ((padGet c isNone p key).run E s).2)
  | .del _ key => (outDone ((padDel E p key).run E s).1, ((padDel E p key).run E s).2)
  | .keys _ => (outKeys ((padKeys E p).run E s).1, ((padKeys E p).run E s).2)
  | .items _ => (outItems ((padItems E c isNone p).run E s).1, ((padItems E c isNone p).run E s).2)
  | .clear _ => (outDone ((padClear E p).run E s).1, ((padClear E p).run E s).2)
  | .close _ => (outDone ((padClose E p).run E s).1, ((padClose E p).run E s).2)
  | _ => (.noClient, s)

/-- the client objects after constructing one more -/
def addClient (cl : List Pad) : Outcome Pad → NoteRes V × List Pad
  | .ok p => (.done (.ok ()), cl ++ [p])
  | .err e => (.done (.error e), cl)
  | .stuck => (.stuck, cl)

/-- one call on the notepad with prefix `pre`: the answer, the client objects in use afterwards (none after a `close`),
the store -/
def stepPad (E : Env) (c : Codec V) (isNone : V → Bool) (pre : Str) (cl : List Pad) (s : Store) (op : NoteOp V) :
    NoteRes V × List Pad × Store :=
  match op with
  | .create mode =>
    let r := (padInit pre true mode).run E s
    ((addClient cl r.1).1, (addClient (V := V) cl r.1).2, r.2)
  | .join mode =>
    let r := (padInit pre false mode).run E s
    ((addClient cl r.1).1, (addClient (V := V) cl r.1).2, r.2)
  | op => match op.call.client? with
    | none => (.noClient, cl, s)
    | some n => match cl[n]? with
      | none => (.noClient, cl, s)
      | some p => ((padCall E c isNone p s op).1, (match op with | .close _ => [] | _ => cl), (padCall E c isNone p s op).2)

/-- a history of calls on several notepads, the notepad `i` having the prefix `pre i` -/
def playPads {ι : Type} [DecidableEq ι] (E : Env) (c : Codec V) (isNone : V → Bool) (pre : ι → Str) :
    List (ι × NoteOp V) → (ι → List Pad) → Store → List (ι × NoteRes V) × (ι → List Pad) × Store
  | [], cl, s => ([], cl, s)
  | (i, op) :: t, cl, s =>
    let r := stepPad E c isNone (pre i) (cl i) s op
    let rest := playPads E c isNone pre t (fun j => if j = i then r.2.1 else cl j) r.2.2
    ((i, r.1) :: rest.1, rest.2)

end Verif.Model

namespace Verif.Lemmas
open Verif Verif.Model Verif.Spec
variable {V : Type} {E : Env} {c : Codec V} {isNone : V → Bool}

/-- what a call must satisfy: nonempty text keys in play, values the codec brings back, lock loops that run -/
def OpOK (E : Env) (c : Codec V) (isNone : V → Bool) (U : Str → Prop) : NoteOp V → Prop
  | .create mode => mode.Runs
  | .join mode => mode.Runs
  | .set _ k v _ => k.hashed E = E.utf8 k.text ∧ U k.text ∧ ∃ b, Stable c isNone v b
  | .get _ k => U k.text
  | .del _ k => k.hashed E = E.utf8 k.text ∧ U k.text
  | _ => True

/-- the memory represents the state of the notepad -/
def StRep (E : Env) (c : Codec V) (isNone : V → Bool) (pre : Str) (U : Str → Prop) (s : Store) (cl : List Pad)
    (st : NoteState V) (t : Nat) : Prop :=
  st.clients = cl.length ∧
  match st.map with
  | none => cl = [] ∧ NoPad s pre
  | some m => ∃ ix keys fl, PadRep E c isNone pre U s ix m keys fl ∧ fl + keys.length ≤ 2 * t ∧
      ∀ p ∈ cl, p.pre = pre ∧ p.index = .tag ix ∧ p.mode.Runs

theorem StRep.mono {pre : Str} {U : Str → Prop} {s : Store} {cl : List Pad} {st : NoteState V} {t t' : Nat}
    (h : StRep E c isNone pre U s cl st t) (ht : t ≤ t') : StRep E c isNone pre U s cl st t' := by
  refine ⟨h.1, ?_⟩
  have h2 := h.2
  cases hm : st.map with
  | none => rw [hm] at h2; exact h2
  | some m =>
    rw [hm] at h2
    obtain ⟨ix, keys, fl, h1, h2, h3⟩ := h2
    exact ⟨ix, keys, fl, h1, by omega, h3⟩

theorem StRep.same {pre : Str} {U : Str → Prop} (hU : KeysOK E pre U) {s s' : Store} {cl : List Pad} {st : NoteState V}
    {t : Nat} (h : StRep E c isNone pre U s cl st t) {P : Str → Prop} (hs : SameOff P s s')
    (hP : ∀ x, padTouch pre x → ¬ P x) : StRep E c isNone pre U s' cl st t := by
  refine ⟨h.1, ?_⟩
  have h2 := h.2
  cases hm : st.map with
  | none =>
    rw [hm] at h2
    exact ⟨h2.1, fun x hx => by rw [(hs x (hP x hx)).2]; exact h2.2 x hx⟩
  | some m =>
    rw [hm] at h2
    obtain ⟨ix, keys, fl, h1, h2, h3⟩ := h2
    exact ⟨ix, keys, fl, h1.same hU hs hP, h2, h3⟩

theorem NoPad.noIndex {s : Store} {pre : Str} (h : NoPad s pre) : NoIndex s (indexName pre) := by
  intro sl hsl
  apply h
  cases sl with
  | mem => exact Or.inl (Or.inl ⟨_, rfl, rfl⟩)
  | hash _ => exact Or.inl (Or.inl ⟨_, rfl, rfl⟩)
  | key _ => exact Or.inl (Or.inl ⟨_, rfl, rfl⟩)
  | count => exact Or.inl (Or.inr ⟨_, rfl, rfl⟩)
  | marker _ => exact Or.inl (Or.inr ⟨_, rfl, rfl⟩)
  | lock _ => exact Or.inl (Or.inr ⟨_, rfl, rfl⟩)
  | val i => exact absurd rfl (hsl i)

theorem run_tagIndexInit_exists {s : Store} {ix : Index} {keys : List Str} (h : IxRep E s ix keys)
    (hok : NamesOK E ix.name) : (tagIndexInit ix.name true).run E s = (.err .fileExists, s) := by
  unfold tagIndexInit
  simp only [Bool.true_eq_false, if_false]
  rw [run_bind, run_create_exists (by omega) hok.mem h.mem]; rfl

theorem run_tagIndexInit_missing {s : Store} {name : Str} (h : s.content name = none)
    (hok : NamesOK E name) : (tagIndexInit name false).run E s = (.err .fileNotFound, s) := by
  unfold tagIndexInit
  simp only [if_true]
  rw [run_bind, run_existsBlock _ hok.mem, andThen_ok, content_none.1 h]
  rfl

/-- one call gives a right answer, does what it should, and touches nothing else -/
theorem stepPad_spec {pre : Str} {U : Str → Prop} (hU : KeysOK E pre U) (hok : NamesOK E (indexName pre))
    {s : Store} (w : s.WF) {cl : List Pad} {st : NoteState V} {t : Nat} (h : StRep E c isNone pre U s cl st t)
    (ht : 2 * t + 2 < 256 ^ 5) (op : NoteOp V) (hop : OpOK E c isNone U op) :
    noteAnswer st op.call (stepPad E c isNone pre cl s op).1 ∧ (stepPad E c isNone pre cl s op).2.2.WF ∧
      StRep E c isNone pre U (stepPad E c isNone pre cl s op).2.2 (stepPad E c isNone pre cl s op).2.1
        (noteNext st op.call) (t + 1) ∧
      SameOff (padTouch pre) s (stepPad E c isNone pre cl s op).2.2 := by
  obtain ⟨n, map⟩ := st
  obtain ⟨hn, h2⟩ := h
  simp only at hn h2
  subst hn
  cases map with
  | none =>
    simp only at h2
    obtain ⟨rfl, hno⟩ := h2
    cases op with
    | create mode =>
      obtain ⟨ix, s', e', hname, w', h', hc', hs'⟩ := run_tagIndexInit_create (E := E) w hno.noIndex hok
      have e : (padInit pre true mode).run E s = (.ok ⟨pre, .tag ix, mode⟩, s') := by
        rw [padInit, run_bind, e']; rfl
      simp only [stepPad, e, addClient, noteAnswer, noteNext, NoteOp.call, NoteState.has, NoteCall.client?, if_true]
      refine ⟨trivial, w', ⟨rfl, ix, [], 0, ⟨hname, h', by rw [← hname]; exact hc', by simp, by simp, ?_, by simp⟩,
        by simp, ?_⟩, hs'.mono fun x => Or.inl⟩
      · intro k hk _
        rw [(hs' _ (pad_not_tag hk)).2]
        exact hno _ (Or.inr ⟨k, hk, rfl⟩)
      · intro p hp
        simp only [List.nil_append, List.mem_singleton] at hp
        subst hp
        exact ⟨rfl, rfl, hop⟩
    | join mode =>
      have := run_tagIndexInit_missing (E := E) (hno _ (Or.inl (Or.inl (indexNames_mem _)))) hok
      have e : (padInit pre false mode).run E s = (.err .fileNotFound, s) := by rw [padInit, run_bind, this]; rfl
      simp only [stepPad, e, addClient, noteAnswer, noteNext, NoteOp.call, NoteState.has, NoteCall.client?, if_true]
      exact ⟨trivial, w, ⟨rfl, rfl, hno⟩, SameOff.refl _ _⟩
    | _ =>
      simp only [stepPad, NoteOp.call, NoteCall.client?, List.getElem?_nil, noteAnswer, noteNext, NoteState.has,
        List.length_nil, Nat.not_lt_zero, decide_false, Bool.false_eq_true, if_false]
      exact ⟨trivial, w, ⟨rfl, rfl, hno⟩, SameOff.refl _ _⟩
  | some m =>
    obtain ⟨ix, keys, fl, hrep, hfl, hcl⟩ := h2
    have hok' : NamesOK E ix.name := by rw [hrep.name]; exact hok
    cases op with
    | create mode =>
      have := run_tagIndexInit_exists hrep.rep hok'
      have e : (padInit pre true mode).run E s = (.err .fileExists, s) := by
        rw [padInit, run_bind, ← hrep.name, this]; rfl
      simp only [stepPad, e, addClient, noteAnswer, noteNext, NoteOp.call, NoteState.has, NoteCall.client?, if_true,
        mapAnswer, mapNext]
      exact ⟨trivial, w, ⟨rfl, ix, keys, fl, hrep, by omega, hcl⟩, SameOff.refl _ _⟩
    | join mode =>
      have := run_tagIndexInit_attach hrep.rep hok'
      have e : (padInit pre false mode).run E s = (.ok ⟨pre, .tag ix, mode⟩, s) := by
        rw [padInit, run_bind, ← hrep.name, this]; rfl
      simp only [stepPad, e, addClient, noteAnswer, noteNext, NoteOp.call, NoteState.has, NoteCall.client?, if_true,
        mapAnswer, mapNext]
      refine ⟨trivial, w, ⟨by simp, ix, keys, fl, hrep, by omega, ?_⟩, SameOff.refl _ _⟩
      intro p hp
      rcases List.mem_append.1 hp with hp | hp
      · exact hcl p hp
      · simp only [List.mem_singleton] at hp
        subst hp
        exact ⟨rfl, rfl, hop⟩
    | set n key v eo =>
      by_cases hn : n < cl.length
      · obtain ⟨hp, hpi, hm⟩ := hcl cl[n] (List.getElem_mem hn)
        obtain ⟨hk, hUk, b, hv⟩ := hop
        obtain ⟨s', keys', fl', e, w', h', hf', hs'⟩ := run_padSet hU hok w hrep (by omega) hp hpi hm hk hUk hv eo
        simp only [stepPad, NoteOp.call, NoteCall.client?, List.getElem?_eq_getElem hn, padCall, e, noteAnswer, noteNext,
          NoteState.has, hn, decide_true, if_true, mapAnswer, mapNext]
        refine ⟨by split <;> rfl, w', ⟨rfl, ?_⟩, hs'⟩
        by_cases hc : eo = false ∧ m key.text ≠ none
        · simp only [if_pos hc] at h' ⊢; exact ⟨ix, keys', fl', h', by omega, hcl⟩
        · simp only [if_neg hc] at h' ⊢; exact ⟨ix, keys', fl', h', by omega, hcl⟩
      · simp only [stepPad, NoteOp.call, NoteCall.client?, List.getElem?_eq_none (Nat.not_lt.1 hn), noteAnswer, noteNext,
          NoteState.has, hn, decide_false, Bool.false_eq_true, if_false]
        exact ⟨trivial, w, ⟨rfl, ix, keys, fl, hrep, by omega, hcl⟩, SameOff.refl _ _⟩
    | get n key =>
      by_cases hn : n < cl.length
      · obtain ⟨hp, hpi, hm⟩ := hcl cl[n] (List.getElem_mem hn)
        have e := hrep.get hU hp hop
        simp only [stepPad, NoteOp.call, NoteCall.client?, List.getElem?_eq_getElem hn, padCall, e, noteAnswer, noteNext,
          NoteState.has, hn, decide_true, if_true, mapAnswer, mapNext]
        exact ⟨by cases m key.text <;> rfl, w, ⟨rfl, ix, keys, fl, hrep, by omega, hcl⟩, SameOff.refl _ _⟩
      · simp only [stepPad, NoteOp.call, NoteCall.client?, List.getElem?_eq_none (Nat.not_lt.1 hn), noteAnswer, noteNext,
          NoteState.has, hn, decide_false, Bool.false_eq_true, if_false]
        exact ⟨trivial, w, ⟨rfl, ix, keys, fl, hrep, by omega, hcl⟩, SameOff.refl _ _⟩
    | del n key =>
      by_cases hn : n < cl.length
      · obtain ⟨hp, hpi, hm⟩ := hcl cl[n] (List.getElem_mem hn)
        obtain ⟨hk, hUk⟩ := hop
        obtain ⟨s', keys', fl', e, w', h', hf', hs'⟩ := run_padDel hU hok w hrep (by omega) hp hpi hm hk hUk
        simp only [stepPad, NoteOp.call, NoteCall.client?, List.getElem?_eq_getElem hn, padCall, e, noteAnswer, noteNext,
          NoteState.has, hn, decide_true, if_true, mapAnswer, mapNext]
        exact ⟨by split <;> rfl, w', ⟨rfl, ix, keys', fl', h', by omega, hcl⟩, hs'⟩
      · simp only [stepPad, NoteOp.call, NoteCall.client?, List.getElem?_eq_none (Nat.not_lt.1 hn), noteAnswer, noteNext,
          NoteState.has, hn, decide_false, Bool.false_eq_true, if_false]
        exact ⟨trivial, w, ⟨rfl, ix, keys, fl, hrep, by omega, hcl⟩, SameOff.refl _ _⟩
    | keys n =>
      by_cases hn : n < cl.length
      · obtain ⟨hp, hpi, hm⟩ := hcl cl[n] (List.getElem_mem hn)
        have e : (padKeys E cl[n]).run E s = (.ok (some keys), s) := by
          simp only [padKeys, hpi]; rw [run_bind, run_indexUpdate hrep.rep hok']; rfl
        simp only [stepPad, NoteOp.call, NoteCall.client?, List.getElem?_eq_getElem hn, padCall, e, noteAnswer, noteNext,
          NoteState.has, hn, decide_true, if_true, mapAnswer, mapNext]
        exact ⟨⟨keys, rfl, hrep.rep.nodup, hrep.live⟩, w, ⟨rfl, ix, keys, fl, hrep, by omega, hcl⟩, SameOff.refl _ _⟩
      · simp only [stepPad, NoteOp.call, NoteCall.client?, List.getElem?_eq_none (Nat.not_lt.1 hn), noteAnswer, noteNext,
          NoteState.has, hn, decide_false, Bool.false_eq_true, if_false]
        exact ⟨trivial, w, ⟨rfl, ix, keys, fl, hrep, by omega, hcl⟩, SameOff.refl _ _⟩
    | items n =>
      by_cases hn : n < cl.length
      · obtain ⟨hp, hpi, hm⟩ := hcl cl[n] (List.getElem_mem hn)
        obtain ⟨r, e1, hr1, hr2⟩ := run_padItemsOf hU hrep hp keys (fun _ h => h)
        have e : (padItems E c isNone cl[n]).run E s = (.ok r, s) := by
          simp only [padItems, hpi]; rw [run_bind, run_indexUpdate hrep.rep hok', andThen_ok, e1]
        simp only [stepPad, NoteOp.call, NoteCall.client?, List.getElem?_eq_getElem hn, padCall, e, noteAnswer, noteNext,
          NoteState.has, hn, decide_true, if_true, mapAnswer, mapNext]
        refine ⟨⟨r, rfl, by rw [hr1]; exact hrep.rep.nodup, fun k v => ⟨fun hkv => hr2 _ hkv, fun hkv => ?_⟩⟩, w,
          ⟨rfl, ix, keys, fl, hrep, by omega, hcl⟩, SameOff.refl _ _⟩
        have hk : k ∈ keys := (hrep.live k).2 (by rw [hkv]; simp)
        rw [← hr1] at hk
        obtain ⟨⟨k', v'⟩, hmem, hk'⟩ := List.mem_map.1 hk
        simp only at hk'
        subst hk'
        have := hr2 _ hmem
        simp only at this
        rw [hkv] at this
        injection this with this
        rw [this]; exact hmem
      · simp only [stepPad, NoteOp.call, NoteCall.client?, List.getElem?_eq_none (Nat.not_lt.1 hn), noteAnswer, noteNext,
          NoteState.has, hn, decide_false, Bool.false_eq_true, if_false]
        exact ⟨trivial, w, ⟨rfl, ix, keys, fl, hrep, by omega, hcl⟩, SameOff.refl _ _⟩
    | clear n =>
      by_cases hn : n < cl.length
      · obtain ⟨hp, hpi, hm⟩ := hcl cl[n] (List.getElem_mem hn)
        obtain ⟨s', keys', fl', e', w', h', hf', hs'⟩ := run_padDelAll hU hok hp hpi hm keys hrep.rep.nodup w hrep
          (fun _ => Iff.rfl) (by omega)
        have e : (padClear E cl[n]).run E s = (.ok (), s') := by
          simp only [padClear, hpi]; rw [run_bind, run_indexUpdate hrep.rep hok', andThen_ok, e']
        simp only [stepPad, NoteOp.call, NoteCall.client?, List.getElem?_eq_getElem hn, padCall, e, noteAnswer, noteNext,
          NoteState.has, hn, decide_true, if_true, mapAnswer, mapNext]
        exact ⟨rfl, w', ⟨rfl, ix, keys', fl', h', by omega, hcl⟩, hs'⟩
      · simp only [stepPad, NoteOp.call, NoteCall.client?, List.getElem?_eq_none (Nat.not_lt.1 hn), noteAnswer, noteNext,
          NoteState.has, hn, decide_false, Bool.false_eq_true, if_false]
        exact ⟨trivial, w, ⟨rfl, ix, keys, fl, hrep, by omega, hcl⟩, SameOff.refl _ _⟩
    | close n =>
      by_cases hn : n < cl.length
      · obtain ⟨hp, hpi, hm⟩ := hcl cl[n] (List.getElem_mem hn)
        obtain ⟨s', e, w', h', hs'⟩ := run_padClose hU hok hp hpi hm w hrep (by omega)
        simp only [stepPad, NoteOp.call, NoteCall.client?, List.getElem?_eq_getElem hn, padCall, e, noteAnswer, noteNext,
          NoteState.has, hn, decide_true, if_true, mapAnswer, mapNext]
        exact ⟨rfl, w', ⟨rfl, rfl, h'⟩, hs'⟩
      · simp only [stepPad, NoteOp.call, NoteCall.client?, List.getElem?_eq_none (Nat.not_lt.1 hn), noteAnswer, noteNext,
          NoteState.has, hn, decide_false, Bool.false_eq_true, if_false]
        exact ⟨trivial, w, ⟨rfl, ix, keys, fl, hrep, by omega, hcl⟩, SameOff.refl _ _⟩

end Verif.Lemmas

namespace Verif.Lemmas
open Verif Verif.Model Verif.Spec
variable {V : Type} {E : Env} {c : Codec V} {isNone : V → Bool}

theorem touch_prefix {pre x : Str} (h : padTouch pre x) : (pre ++ ['_']) <+: x := by
  rcases h with h | ⟨k, _, rfl⟩
  · obtain ⟨sl, rfl⟩ := tag_slot h
    exact ⟨"index".toList ++ sl.suffix, by simp [Slot.addr, indexName]⟩
  · exact ⟨k, by simp [padAddr]⟩

/-- neither prefix, with its underscore, begins with the other -/
def Apart (p q : Str) : Prop := ¬ (p ++ ['_']) <+: (q ++ ['_']) ∧ ¬ (q ++ ['_']) <+: (p ++ ['_'])

theorem Apart.touch {p q x : Str} (h : Apart p q) (hp : padTouch p x) : ¬ padTouch q x := by
  intro hq
  have h1 := touch_prefix hp
  have h2 := touch_prefix hq
  rcases Nat.le_total (p ++ ['_']).length (q ++ ['_']).length with hl | hl
  · exact h.1 (List.prefix_of_prefix_length_le h1 h2 hl)
  · exact h.2 (List.prefix_of_prefix_length_le h2 h1 hl)

section
variable {ι : Type} [DecidableEq ι]

/-- the calls made on notepad `i` -/
def callsOf (i : ι) (h : List (ι × NoteOp V)) : List (NoteCall V) :=
  (h.filter (fun x => decide (x.1 = i))).map fun x => x.2.call

/-- the answers given by notepad `i` -/
def answersOf (i : ι) (rs : List (ι × NoteRes V)) : List (NoteRes V) :=
  (rs.filter (fun x => decide (x.1 = i))).map Prod.snd

theorem playPads_spec (pre : ι → Str) (U : ι → Str → Prop) (hU : ∀ i, KeysOK E (pre i) (U i))
    (hok : ∀ i, NamesOK E (indexName (pre i))) (hap : ∀ i j, i ≠ j → Apart (pre i) (pre j))
    (h : List (ι × NoteOp V)) (hh : ∀ x ∈ h, OpOK E c isNone (U x.1) x.2) (cl : ι → List Pad) (s : Store) (w : s.WF)
    (st : ι → NoteState V) (t : Nat) (hst : ∀ i, StRep E c isNone (pre i) (U i) s (cl i) (st i) t)
    (ht : 2 * (t + h.length) < 256 ^ 5) :
    (playPads E c isNone pre h cl s).2.2.WF ∧
    (∀ i, answersOK (st i) (callsOf i h) (answersOf i (playPads E c isNone pre h cl s).1) ∧
      StRep E c isNone (pre i) (U i) (playPads E c isNone pre h cl s).2.2 ((playPads E c isNone pre h cl s).2.1 i)
        (noteEnd (st i) (callsOf i h)) (t + h.length)) ∧
    SameOff (fun x => ∃ i, padTouch (pre i) x) s (playPads E c isNone pre h cl s).2.2 := by
  induction h generalizing cl s st t with
  | nil =>
    refine ⟨w, fun i => ⟨?_, hst i⟩, SameOff.refl _ _⟩
    simp [callsOf, answersOf, playPads, answersOK]
  | cons x rest ih =>
    obtain ⟨i, op⟩ := x
    simp only [List.length_cons] at ht
    obtain ⟨a1, w1, r1, f1⟩ := stepPad_spec (hU i) (hok i) w (hst i) (by omega) op (hh _ List.mem_cons_self)
    obtain ⟨w2, h2, f2⟩ := ih (fun x hx => hh x (List.mem_cons_of_mem _ hx))
      (fun j => if j = i then (stepPad E c isNone (pre i) (cl i) s op).2.1 else cl j)
      (stepPad E c isNone (pre i) (cl i) s op).2.2 w1 (fun j => if j = i then noteNext (st i) op.call else st j) (t + 1)
      (by
        intro j
        by_cases hj : j = i
        · subst hj; simp only [if_true]; exact r1
        · simp only [if_neg hj]
          exact ((hst j).mono (by omega)).same (hU j) f1 fun x hx => (hap j i hj).touch hx)
      (by omega)
    refine ⟨w2, ?_, (f1.mono fun x hx => ⟨i, hx⟩).trans f2⟩
    intro j
    have h2j := h2 j
    by_cases hj : j = i
    · subst hj
      simp only [if_true] at h2j
      simp only [playPads, callsOf, answersOf, List.filter_cons_of_pos, decide_true, List.map_cons, answersOK, noteEnd,
        List.length_cons]
      exact ⟨⟨a1, h2j.1⟩, by rw [show t + (rest.length + 1) = t + 1 + rest.length by omega]; exact h2j.2⟩
    · have hij : ¬ i = j := fun h => hj h.symm
      simp only [if_neg hj] at h2j
      simp only [playPads, callsOf, answersOf, List.length_cons, List.filter_cons, hij, decide_false, Bool.false_eq_true,
        if_false]
      rw [show t + (rest.length + 1) = t + 1 + rest.length by omega]
      exact h2j

end
end Verif.Lemmas
