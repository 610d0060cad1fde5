import Verif.Lemmas.Views
import Verif.Lemmas.PadHist
import Verif.Spec.PadBlocks
/-!
# The blocks of the values of a notepad
-/
namespace Verif.Model
open Verif Verif.Spec
variable {V : Type}

/-- a history of calls on one notepad, by clients with the objects `cl` -/
def playNote (E : Env) (c : Codec V) (isNone : V → Bool) (pre : Str) :
    List (NoteOp V) → List Pad → Store → List (NoteRes V) × List Pad × Store
  | [], cl, s => ([], cl, s)
  | op :: t, cl, s =>
    let r := stepPad E c isNone pre cl s op
    let rest := playNote E c isNone pre t r.2.1 r.2.2
    (r.1 :: rest.1, rest.2)

end Verif.Model

namespace Verif.Lemmas
open Verif Verif.Model Verif.Spec
variable {α V : Type} {E : Env} {D : Str → Prop} {H : Nat → Prop} {pre k : Str} {h : Nat} {b : Block} {s : Store}
  {c : Codec V} {isNone : V → Bool} {U : Str → Prop}

theorem playNote_spec (hU : KeysOK E pre U) (hok : NamesOK E (indexName pre)) (ops : List (NoteOp V))
    (hops : ∀ o ∈ ops, OpOK E c isNone U o) {cl : List Pad} {s : Store} (w : s.WF) {st : NoteState V} {t : Nat}
    (hr : StRep E c isNone pre U s cl st t) (ht : 2 * (t + ops.length) + 2 < 256 ^ 5) :
    answersOK st (ops.map NoteOp.call) (playNote E c isNone pre ops cl s).1 ∧ (playNote E c isNone pre ops cl s).2.2.WF ∧
    StRep E c isNone pre U (playNote E c isNone pre ops cl s).2.2 (playNote E c isNone pre ops cl s).2.1
      (noteEnd st (ops.map NoteOp.call)) (t + ops.length) := by
  induction ops generalizing cl s st t with
  | nil => exact ⟨trivial, w, hr⟩
  | cons op ops ih =>
    simp only [List.length_cons] at ht ⊢
    obtain ⟨h1, w', hr', _⟩ := stepPad_spec hU hok w hr (by omega) op (hops _ List.mem_cons_self)
    obtain ⟨h2, w2, hr2⟩ := ih (fun o ho => hops o (List.mem_cons_of_mem _ ho)) w' hr' (by omega)
    exact ⟨⟨h1, h2⟩, w2, hr2.mono (by omega)⟩

/-- a value is stored in a new block -/
theorem HoldsBlock.memorize (hok : E.okName (padAddr pre k) = true) (hh : HoldsBlock pre k h b s) {v : V} {e : Bytes}
    (henc : c.encode v = .ok e) (he : e ≠ []) (eo : Bool) {key : Str} :
    HoldsBlock pre k h (if key = k ∧ eo = true then ⟨false, b.bytes⟩ else b) ((Model.memorize c v (padAddr pre key) eo).run E s).2 := by
  cases hb : b.held with
  | false =>
    have hb' : (if key = k ∧ eo = true then (⟨false, b.bytes⟩ : Block) else b) = b := by
      cases b; simp only at hb; subst hb; split <;> rfl
    rw [hb']
    exact hh.quiet (H := fun _ => False) (uses_memorizeV (fun hx => by rw [hb] at hx; cases hx.1)) id
  | true =>
    by_cases hk : key = k
    · subst hk
      have hn : s.names (padAddr pre key) = some h := (hh.name _).2 ⟨hb, rfl⟩
      cases eo with
      | false =>
        simp only [Bool.false_eq_true, and_false, if_false]
        rw [Model.memorize]
        simp only [if_true]
        rw [run_bind, run_existsBlock s hok, andThen_ok, hn]
        exact hh
      | true =>
        simp only [and_self, if_true]
        have hz : e.length ≠ 0 := by simpa using he
        have h2 : HoldsBlock pre key h ⟨false, b.bytes⟩ (((s.unlinked (padAddr pre key)).created (padAddr pre key) e.length).wrote s.next e) := by
          have h1 := hh.unlinked
          have hlt := hh.lt
          have hne : h ≠ s.next := by omega
          refine ⟨by show h < s.next + 1; omega, ?_, fun x => ?_⟩
          · simpa [Store.wrote, Store.created, Store.unlinked, hne] using hh.bytes
          · have := h1.name x
            simp only [Store.wrote, Store.created, Bool.false_eq_true, false_and, iff_false] at this ⊢
            split
            · simpa [Store.unlinked] using hne.symm
            · exact this
        have e1 : (Model.memorize c v (padAddr pre key) true).run E s = (.ok (padAddr pre key),
            ((s.unlinked (padAddr pre key)).created (padAddr pre key) e.length).wrote s.next e) := by
          rw [Model.memorize]
          simp only [Bool.true_eq_false, if_false]
          show (do
            let encoded ← Prog.ofExcept (c.encode v)
            let block ← openBlock (padAddr pre key) encoded.length true true
            write block encoded
            pure (padAddr pre key) : Prog Str).run E s = _
          rw [run_bind, henc, run_ofExcept_ok, andThen_ok, run_bind, run_openBlock_over hz hok hn, andThen_ok, run_bind, run_write]
          · rfl
          · simp [Store.created, Store.unlinked]
        rw [e1]
        exact h2
    · rw [if_neg (fun hx => hk hx.1)]
      exact hh.quiet (H := fun _ => False) (uses_memorizeV (fun hx => hk (pad_inj hx.2))) id

theorem uses_padInit (hD : D (indexName pre)) (cr : Bool) (mode : LockMode) : Uses D anyEnd (padInit pre cr mode) H := by
  unfold padInit tagIndexInit
  refine uses_then ?_ fun _ _ _ => trivial
  cases cr
  · simp only [if_true]
    refine uses_then (uses_existsBlock hD) fun b _ _ => ?_
    cases b
    · trivial
    · exact uses_handle (uses_attach hD) fun _ _ _ _ => trivial
  · simp only [Bool.true_eq_false, if_false]
    exact uses_handle (uses_create hD) fun _ _ _ _ => trivial

section
variable {name : Str} (hD : ∀ sl : Slot, D (sl.addr name)) {p : Pad} {ix : Index} (hpi : p.index = .tag ix) (hn : ix.name = name)
include hD hpi hn

theorem uses_padIndexAdd (hm : H ix.memory) (key : Key) (eo : Bool) : Uses D anyEnd (padIndexAdd E p key false eo) H := by
  simp only [padIndexAdd, hpi, Bool.false_eq_true, if_false]
  exact uses_then (uses_indexAdd hD hn hm _ _ _) fun _ _ _ => trivial

theorem uses_padIndexDel (hm : H ix.memory) (key : Key) : Uses D anyEnd (padIndexDel E p key) H := by
  simp only [padIndexDel, hpi]
  exact uses_then (uses_indexDel hD hn hm _ _) fun _ _ _ => trivial

theorem uses_padDel (hm : H ix.memory) (key : Key) (hp : D (padAddr p.pre key.text)) : Uses D anyEnd (padDel E p key) H := by
  unfold padDel
  split
  · trivial
  refine uses_try (uses_then (uses_deleteBlock hp) fun _ H1 h1 => uses_padIndexDel hD hpi hn (h1 _ hm) _) fun r H1 h1 => ?_
  rcases r with e | m
  · cases e <;> trivial
  · trivial

end

section
variable (hU : KeysOK E pre U) {p : Pad} (hg : p.pre = pre) {ix : Index} (hpi : p.index = .tag ix) (hgi : ix.name = indexName pre)
include hU hg hpi hgi

/-- `np[key] = v` that is accepted when the value may be stored -/
theorem HoldsBlock.padSet (hk : U k) (hh : HoldsBlock pre k h b s) (hm : ix.memory ≠ h) {key : Key} (hUk : U key.text) {v : V} {e : Bytes}
    (henc : c.encode v = .ok e) (he : e ≠ []) (eo : Bool) (hdone : eo = true → ∃ s', (padSet E c p key v eo).run E s = (.ok (), s')) :
    HoldsBlock pre k h (if key.text = k ∧ eo = true then ⟨false, b.bytes⟩ else b) ((padSet E c p key v eo).run E s).2 := by
  have hfree := hU.free _ hk
  have h1 := hh.quiet (E := E) (uses_padIndexAdd (E := E) (D := Off b pre k) (H := fun i => i = ix.memory) (elsewhere_slot hfree) hpi hgi rfl key eo)
    (fun he => hm he.symm)
  unfold Model.padSet at hdone ⊢
  rw [not_reserved (hU.free _ hUk)] at hdone ⊢
  simp only [Bool.false_eq_true, if_false] at hdone ⊢
  rw [run_bind, run_attempt, run_bind] at hdone ⊢
  rcases hr : (padIndexAdd E p key false eo).run E s with ⟨o, s1⟩
  rw [hr] at h1 hdone
  simp only at h1
  cases o with
  | ok _ =>
    rw [andThen_ok, run_bind, hg]
    have h2 := h1.memorize (E := E) (hU.ok _ hk) henc he eo (key := key.text)
    rcases hr2 : (Model.memorize c v (padAddr pre key.text) eo).run E s1 with ⟨o2, s2⟩
    rw [hr2] at h2
    cases o2 with
    | ok _ => exact h2
    | err e => cases e <;> exact h2
    | stuck => exact h2
  | err x =>
    cases eo with
    | true =>
      obtain ⟨s', hs'⟩ := hdone rfl
      cases x <;> cases hs'
    | false =>
      simp only [Bool.false_eq_true, and_false, if_false]
      cases x <;> exact h1
  | stuck =>
    cases eo with
    | true =>
      obtain ⟨s', hs'⟩ := hdone rfl
      cases hs'
    | false =>
      simp only [Bool.false_eq_true, and_false, if_false]
      exact h1

/-- `del np[key]` -/
theorem HoldsBlock.padDel (hk : U k) (hh : HoldsBlock pre k h b s) (hm : ix.memory ≠ h) (key : Key) :
    HoldsBlock pre k h (if key.text = k then ⟨false, b.bytes⟩ else b) ((padDel E p key).run E s).2 := by
  have hfree := hU.free _ hk
  by_cases hkk : key.text = k
  · rw [if_pos hkk]
    cases hb : b.held with
    | false =>
      have hb' : (⟨false, b.bytes⟩ : Block) = b := by cases b; simp only at hb; rw [hb]
      rw [hb']
      exact hh.quiet (uses_padDel (D := Off b pre k) (H := fun i => i = ix.memory) (elsewhere_slot hfree) hpi hgi rfl key (fun h => by rw [hb] at h; cases h.1))
        (fun he => hm he.symm)
    | true =>
      have hn : s.names (padAddr p.pre key.text) = some h := (hh.name _).2 ⟨hb, by rw [hg, hkk]⟩
      have hokp : E.okName (padAddr p.pre key.text) = true := by rw [hg, hkk]; exact hU.ok _ hk
      have h1 := hh.unlinked
      have h2 := h1.quiet (E := E)
        (uses_padIndexDel (E := E) (H := fun i => i = ix.memory) (elsewhere_slot (b := ⟨false, b.bytes⟩) hfree) hpi hgi rfl key) (fun he => hm he.symm)
      have e : ((Model.padDel E p key).run E s).2 = ((padIndexDel E p key).run E (s.unlinked (padAddr pre k))).2 := by
        unfold Model.padDel
        rw [not_reservedExact (by rw [hkk]; exact hfree)]
        simp only [Bool.false_eq_true, if_false]
        rw [run_bind, run_attempt, run_bind, run_deleteBlock hokp hn, andThen_ok, hg, hkk]
        rcases (padIndexDel E p key).run E (s.unlinked (padAddr pre k)) with ⟨o, s'⟩
        cases o with
        | ok _ => rfl
        | err e => cases e <;> rfl
        | stuck => rfl
      rw [e]
      exact h2
  · rw [if_neg hkk]
    exact hh.quiet (uses_padDel (D := Off b pre k) (H := fun i => i = ix.memory) (elsewhere_slot hfree) hpi hgi rfl key
      (fun h => hkk (pad_inj (by rw [hg] at h; exact h.2)))) (fun he => hm he.symm)

/-- deleting several keys -/
theorem HoldsBlock.padDelAll (hk : U k) (hm : ix.memory ≠ h) (l : List Str) (hh : HoldsBlock pre k h b s) :
    ∃ b', b'.bytes = b.bytes ∧ HoldsBlock pre k h b' ((padDelAll E p l).run E s).2 := by
  induction l generalizing s b with
  | nil => exact ⟨b, rfl, hh⟩
  | cons x t ih =>
    have h1 := hh.padDel hU hg hpi hgi hk hm (.str x)
    rw [Model.padDelAll, run_bind]
    rcases hr : (Model.padDel E p (.str x)).run E s with ⟨o, s1⟩
    rw [hr] at h1
    have hb : (if (Key.str x).text = k then (⟨false, b.bytes⟩ : Block) else b).bytes = b.bytes := by split <;> rfl
    cases o with
    | ok _ =>
      obtain ⟨b', e, h2⟩ := ih h1
      exact ⟨b', e.trans hb, h2⟩
    | err e => exact ⟨_, hb, h1⟩
    | stuck => exact ⟨_, hb, h1⟩

end

theorem HoldsBlock.off (hh : HoldsBlock pre k h b s) (hc : s.content (padAddr pre k) = none) : HoldsBlock pre k h ⟨false, b.bytes⟩ s := by
  have : b.held = false := by
    cases hb : b.held with
    | false => rfl
    | true =>
      have h4 := content_none.1 hc
      rw [(hh.name _).2 ⟨hb, rfl⟩] at h4
      cases h4
  cases b
  simp only at this
  subst this
  exact hh

/-- one call: the block keeps its bytes, and loses its key when the call drops it -/
theorem stepPad_block (hU : KeysOK E pre U) (hok : NamesOK E (indexName pre)) (w : s.WF) {cl : List Pad} {st : NoteState V} {t : Nat}
    (hr : StRep E c isNone pre U s cl st t) (ht : 2 * t + 2 < 256 ^ 5) (op : NoteOp V) (hop : OpOK E c isNone U op) (hk : U k)
    (hh : HoldsBlock pre k h b s) : ∃ b', b'.bytes = b.bytes ∧ (b'.held = true ↔ b.held = true ∧ ¬ (st.has op.call = true ∧ op.call.drops k)) ∧
      HoldsBlock pre k h b' (stepPad E c isNone pre cl s op).2.2 := by
  have hstep := stepPad_spec hU hok w hr ht op hop
  obtain ⟨n, map⟩ := st
  obtain ⟨hn, h2⟩ := hr
  simp only at hn h2
  subst hn
  have hfree := hU.free _ hk
  have hi : ¬ (b.held = true ∧ indexName pre = padAddr pre k) := by
    have := elsewhere_slot (pre := pre) (b := b) hfree .mem
    rwa [← addr_mem] at this
  have stay : ∀ {s'}, HoldsBlock pre k h b s' → ¬ op.call.drops k → (stepPad E c isNone pre cl s op).2.2 = s' →
      ∃ b', b'.bytes = b.bytes ∧ (b'.held = true ↔ b.held = true ∧ ¬ (NoteState.has (⟨cl.length, map⟩ : NoteState V) op.call = true ∧ op.call.drops k)) ∧
        HoldsBlock pre k h b' (stepPad E c isNone pre cl s op).2.2 := by
    intro s' h1 h2 h3
    exact ⟨b, rfl, ⟨fun hb => ⟨hb, fun h => h2 h.2⟩, fun hb => hb.1⟩, h3 ▸ h1⟩
  have gone : ∀ n, op.call.client? = some n → ¬ n < cl.length → stepPad E c isNone pre cl s op = (.noClient, cl, s) →
      ∃ b', b'.bytes = b.bytes ∧ (b'.held = true ↔ b.held = true ∧ ¬ (NoteState.has (⟨cl.length, map⟩ : NoteState V) op.call = true ∧ op.call.drops k)) ∧
        HoldsBlock pre k h b' (stepPad E c isNone pre cl s op).2.2 := by
    intro n h1 h2 h3
    have hh' : NoteState.has (⟨cl.length, map⟩ : NoteState V) op.call = false := by simp [NoteState.has, h1, h2]
    exact ⟨b, rfl, ⟨fun hb => ⟨hb, fun h => by rw [hh'] at h; cases h.1⟩, fun hb => hb.1⟩, by rw [h3]; exact hh⟩
  cases map with
  | none =>
    simp only at h2
    obtain ⟨rfl, hno⟩ := h2
    cases op with
    | create mode => exact stay (hh.quiet (E := E) (H := fun _ => False) (uses_padInit hi true mode) id) id rfl
    | join mode => exact stay (hh.quiet (E := E) (H := fun _ => False) (uses_padInit hi false mode) id) id rfl
    | set n key v eo => exact gone n rfl (by simp) rfl
    | get n key => exact gone n rfl (by simp) rfl
    | del n key => exact gone n rfl (by simp) rfl
    | keys n => exact gone n rfl (by simp) rfl
    | items n => exact gone n rfl (by simp) rfl
    | clear n => exact gone n rfl (by simp) rfl
    | close n => exact gone n rfl (by simp) rfl
  | some m =>
    obtain ⟨ix, keys, fl, hrep, hfl, hcl⟩ := h2
    have hok' : NamesOK E ix.name := by rw [hrep.name]; exact hok
    have hmem : ix.memory ≠ h := by
      intro he
      have h1 := hrep.rep.mem
      rw [he, hrep.name] at h1
      exact hi ((hh.name _).1 h1)
    cases op with
    | create mode => exact stay (hh.quiet (E := E) (H := fun _ => False) (uses_padInit hi true mode) id) id rfl
    | join mode => exact stay (hh.quiet (E := E) (H := fun _ => False) (uses_padInit hi false mode) id) id rfl
    | set n key v eo =>
      by_cases hn : n < cl.length
      · obtain ⟨hp, hpi, hm⟩ := hcl cl[n] (List.getElem_mem hn)
        obtain ⟨hkh, hUk, e, hv⟩ := hop
        obtain ⟨s', keys', fl', e', _⟩ := run_padSet hU hok w hrep (by omega) hp hpi hm hkh hUk hv eo
        have h1 := hh.padSet (E := E) hU hp hpi hrep.name hk hmem hUk hv.1 hv.2.1 eo (key := key) (fun heo => ⟨s', by
          rw [e', if_neg (by rw [heo]; simp)]⟩)
        refine ⟨if key.text = k ∧ eo = true then ⟨false, b.bytes⟩ else b, by split <;> rfl, ?_, by
          simp only [stepPad, NoteOp.call, NoteCall.client?, List.getElem?_eq_getElem hn, padCall]
          exact h1⟩
        · simp only [NoteOp.call, NoteCall.drops, NoteState.has, NoteCall.client?, hn, decide_true, true_and]
          by_cases hd : key.text = k ∧ eo = true
          · simp only [if_pos hd]; simp [hd.1, hd.2]
          · simp only [if_neg hd]; exact ⟨fun hb => ⟨hb, hd⟩, fun hb => hb.1⟩
      · exact gone n rfl hn (by simp only [stepPad, NoteOp.call, NoteCall.client?, List.getElem?_eq_none (Nat.not_lt.1 hn)])
    | get n key =>
      by_cases hn : n < cl.length
      · obtain ⟨hp, hpi, hm⟩ := hcl cl[n] (List.getElem_mem hn)
        have e := hrep.get hU hp hop
        exact stay hh id (by simp only [stepPad, NoteOp.call, NoteCall.client?, List.getElem?_eq_getElem hn, padCall, e])
      · exact gone n rfl hn (by simp only [stepPad, NoteOp.call, NoteCall.client?, List.getElem?_eq_none (Nat.not_lt.1 hn)])
    | del n key =>
      by_cases hn : n < cl.length
      · obtain ⟨hp, hpi, hm⟩ := hcl cl[n] (List.getElem_mem hn)
        have h1 := hh.padDel (E := E) hU hp hpi hrep.name hk hmem key
        refine ⟨if key.text = k then ⟨false, b.bytes⟩ else b, by split <;> rfl, ?_, by
          simp only [stepPad, NoteOp.call, NoteCall.client?, List.getElem?_eq_getElem hn, padCall]
          exact h1⟩
        · simp only [NoteOp.call, NoteCall.drops, NoteState.has, NoteCall.client?, hn, decide_true, true_and]
          by_cases hd : key.text = k
          · simp only [if_pos hd]; simp [hd]
          · simp only [if_neg hd]; exact ⟨fun hb => ⟨hb, hd⟩, fun hb => hb.1⟩
      · exact gone n rfl hn (by simp only [stepPad, NoteOp.call, NoteCall.client?, List.getElem?_eq_none (Nat.not_lt.1 hn)])
    | keys n =>
      by_cases hn : n < cl.length
      · obtain ⟨hp, hpi, hm⟩ := hcl cl[n] (List.getElem_mem hn)
        have e : (padKeys E cl[n]).run E s = (.ok (some keys), s) := by
          simp only [padKeys, hpi]; rw [run_bind, run_indexUpdate hrep.rep hok']; rfl
        exact stay hh id (by simp only [stepPad, NoteOp.call, NoteCall.client?, List.getElem?_eq_getElem hn, padCall, e])
      · exact gone n rfl hn (by simp only [stepPad, NoteOp.call, NoteCall.client?, List.getElem?_eq_none (Nat.not_lt.1 hn)])
    | items n =>
      by_cases hn : n < cl.length
      · obtain ⟨hp, hpi, hm⟩ := hcl cl[n] (List.getElem_mem hn)
        obtain ⟨r, e1, hr1, hr2⟩ := run_padItemsOf hU hrep hp keys (fun _ h => h)
        have e : (padItems E c isNone cl[n]).run E s = (.ok r, s) := by
          simp only [padItems, hpi]; rw [run_bind, run_indexUpdate hrep.rep hok', andThen_ok, e1]
        exact stay hh id (by simp only [stepPad, NoteOp.call, NoteCall.client?, List.getElem?_eq_getElem hn, padCall, e])
      · exact gone n rfl hn (by simp only [stepPad, NoteOp.call, NoteCall.client?, List.getElem?_eq_none (Nat.not_lt.1 hn)])
    | clear n =>
      by_cases hn : n < cl.length
      · obtain ⟨hp, hpi, hm⟩ := hcl cl[n] (List.getElem_mem hn)
        obtain ⟨b', hb', h1⟩ := hh.padDelAll (E := E) hU hp hpi hrep.name hk hmem keys
        have e : (padClear E cl[n]).run E s = (padDelAll E cl[n] keys).run E s := by
          simp only [padClear, hpi]; rw [run_bind, run_indexUpdate hrep.rep hok', andThen_ok]
        have hst := hstep.2.2.1.2
        simp only [NoteOp.call, noteNext, NoteState.has, NoteCall.client?, hn, decide_true, if_true, mapNext] at hst
        obtain ⟨_, _, _, hrep', _⟩ := hst
        have hc := hrep'.noval k hfree rfl
        simp only [stepPad, NoteOp.call, NoteCall.client?, List.getElem?_eq_getElem hn, padCall, e] at hc ⊢
        refine ⟨⟨false, b'.bytes⟩, hb', ?_, h1.off hc⟩
        simp [NoteCall.drops, NoteState.has, NoteCall.client?, hn]
      · exact gone n rfl hn (by simp only [stepPad, NoteOp.call, NoteCall.client?, List.getElem?_eq_none (Nat.not_lt.1 hn)])
    | close n =>
      by_cases hn : n < cl.length
      · obtain ⟨hp, hpi, hm⟩ := hcl cl[n] (List.getElem_mem hn)
        obtain ⟨b', hb', h1⟩ := hh.padDelAll (E := E) hU hp hpi hrep.name hk hmem keys
        obtain ⟨s', e, w', h', hs'⟩ := run_padClose hU hok hp hpi hm w hrep (by omega)
        have h3 : HoldsBlock pre k h b' s' := by
          have e2 := e
          simp only [padClose, hpi] at e2
          rw [run_bind, run_indexUpdate hrep.rep hok', andThen_ok, run_bind] at e2
          rcases hr : (Model.padDelAll E cl[n] keys).run E s with ⟨o, s1⟩
          rw [hr] at h1 e2
          cases o with
          | ok _ =>
            have h3 := h1.quiet (E := E) (H := fun _ => False) (uses_indexClose (elsewhere_slot hfree) hrep.name) id
            rw [show (indexClose ix).run E s1 = (.ok (), s') from e2] at h3
            exact h3
          | err x => simp at e2
          | stuck => simp at e2
        simp only [stepPad, NoteOp.call, NoteCall.client?, List.getElem?_eq_getElem hn, padCall, e]
        refine ⟨⟨false, b'.bytes⟩, hb', ?_, h3.off (h' _ (Or.inr ⟨k, hfree, rfl⟩))⟩
        simp [NoteCall.drops, NoteState.has, NoteCall.client?, hn]
      · exact gone n rfl hn (by simp only [stepPad, NoteOp.call, NoteCall.client?, List.getElem?_eq_none (Nat.not_lt.1 hn)])

/-- a history of calls -/
theorem playNote_block (hU : KeysOK E pre U) (hok : NamesOK E (indexName pre)) (hk : U k) (ops : List (NoteOp V))
    (hops : ∀ o ∈ ops, OpOK E c isNone U o) {cl : List Pad} {s : Store} (w : s.WF) {st : NoteState V} {t : Nat}
    {b : Block} (hr : StRep E c isNone pre U s cl st t) (ht : 2 * (t + ops.length) + 2 < 256 ^ 5)
    (hh : HoldsBlock pre k h b s) :
    ∃ b', b'.bytes = b.bytes ∧ (b'.held = true ↔ b.held = true ∧ ¬ lost k st (ops.map NoteOp.call)) ∧
      HoldsBlock pre k h b' (playNote E c isNone pre ops cl s).2.2 := by
  induction ops generalizing cl s st t b with
  | nil => exact ⟨b, rfl, ⟨fun hb => ⟨hb, id⟩, fun hb => hb.1⟩, hh⟩
  | cons op ops ih =>
    simp only [List.length_cons] at ht
    obtain ⟨b1, e1, g1, h1⟩ := stepPad_block hU hok w hr (by omega) op (hops _ List.mem_cons_self) hk hh
    obtain ⟨_, w', hr', _⟩ := stepPad_spec hU hok w hr (by omega) op (hops _ List.mem_cons_self)
    obtain ⟨b2, e2, g2, h2⟩ := ih (fun o ho => hops o (List.mem_cons_of_mem _ ho)) w' hr' (by omega) h1
    refine ⟨b2, e2.trans e1, ?_, h2⟩
    rw [g2, g1]
    simp only [List.map_cons, lost, not_or, and_assoc]

/-- writing another value into the block of a key -/
theorem PadRep.poke (hU : KeysOK E pre U) {ix : Index} {m : Str → Option V} {keys : List Str} {fl : Nat}
    (hr : PadRep E c isNone pre U s ix m keys fl) (hk : U k) {v v' : V} (hmk : m k = some v') {e : Bytes} (hv : Stable c isNone v e)
    {s' : Store} (ef : Eff s s' (padAddr pre k) (some e)) : PadRep E c isNone pre U s' ix (upd m k (some v)) keys fl := by
  have hfree := hU.free _ hk
  refine ⟨hr.name, hr.rep.same (ef.sameOff (P := fun x => x = padAddr pre k) rfl) ?_, hr.lock.same
    ((ef.sameOff (P := fun x => x = padAddr pre k) rfl).mono
      (fun x hx hl => by obtain ⟨sl, _, he⟩ := hl; exact slot_ne_pad hfree sl (he.symm.trans hx))), ?_, ?_, ?_, hr.used⟩
  · intro sl _; rw [hr.name]; exact slot_ne_pad hfree sl
  · intro x
    rw [hr.live x, upd]
    by_cases hx : x = k
    · subst hx; simp [hmk]
    · simp [hx]
  · intro x y hy
    rw [upd] at hy
    rw [ef.content]
    by_cases hx : x = k
    · subst hx
      rw [if_pos rfl] at hy
      cases hy
      exact ⟨e, if_pos rfl, hv⟩
    · rw [if_neg hx] at hy
      rw [if_neg (fun he => hx (pad_inj he))]
      exact hr.val _ _ hy
  · intro x hxf hy
    rw [upd] at hy
    by_cases hx : x = k
    · rw [if_pos hx] at hy; cases hy
    · rw [if_neg hx] at hy
      rw [ef.content, if_neg (fun he => hx (pad_inj he))]
      exact hr.noval _ hxf hy

end Verif.Lemmas
