import Verif.Lemmas.Meta
import Verif.Spec.Grid
/-! # GridPaper, call by call -/
namespace Verif.Lemmas
open Verif Verif.Model Verif.Spec
variable {E : Env} {c : Codec ArrMeta} {nbytes : Str → List Nat → Nat}

/-- the metadata stored with an array -/
def metaOf (pre k : Str) (a : Arr) : ArrMeta :=
  { name := padAddr pre k, dtype := a.dtype, shape := a.shape, size := a.data.length }

/-- an array that survives: not 0-dimensional, not empty, of the size its shape and type say, its metadata codable -/
structure ArrOK (c : Codec ArrMeta) (nbytes : Str → List Nat → Nat) (pre k : Str) (a : Arr) : Prop where
  dim : a.shape ≠ []
  data : a.data ≠ []
  size : nbytes a.dtype a.shape = a.data.length
  codec : ∃ b, c.encode (metaOf pre k a) = .ok b ∧ b ≠ [] ∧ c.decode b = .ok (metaOf pre k a)

/-- the addresses a GridPaper may touch -/
def gridTouch (pre x : Str) : Prop := (∃ sl : Slot, x = sl.addr (indexName pre)) ∨ ∃ k, ¬ indexWord <+: k ∧ x = padAddr pre k

/-- the memory of a GridPaper holding `m`, its index listing `keys` -/
structure GridRep (E : Env) (c : Codec ArrMeta) (nbytes : Str → List Nat → Nat) (pre : Str) (U : Str → Prop) (s : Store)
    (ix : Index) (m : Str → Option (Arr × Nat)) (keys : List Str) (f : Str → Option Bytes) (fl : Nat) : Prop where
  name : ix.name = indexName pre
  rep : MetaRep E s ix keys f
  lock : LockClean s (indexName pre) fl
  live : ∀ k, k ∈ keys ↔ m k ≠ none
  info : ∀ k a room, m k = some (a, room) → ∃ b, f k = some b ∧ c.decode b = .ok (metaOf pre k a)
  val : ∀ k a room, m k = some (a, room) → ∃ rest, s.content (padAddr pre k) = some (a.data ++ rest) ∧
    a.data.length + rest.length = room
  size : ∀ k a room, m k = some (a, room) → nbytes a.dtype a.shape = a.data.length
  noval : ∀ k, ¬ indexWord <+: k → m k = none → s.content (padAddr pre k) = none
  used : ∀ k ∈ keys, U k
  coded : ∀ k b, f k = some b → b ≠ []

theorem run_memorizeArray_new {s : Store} (w : s.WF) {a : Arr} {addr : Str} (hok : E.okName addr = true)
    (hd : a.data ≠ []) (hdim : a.shape ≠ []) (hn : s.content addr = none) :
    ∃ s', (memorizeArray a addr true).run E s = (.ok ⟨addr, a.dtype, a.shape, a.data.length⟩, s') ∧
      Eff s s' addr (some a.data) := by
  have hz : a.data.length ≠ 0 := by simpa using hd
  have f1 := eff_created w addr a.data.length
  have n1 : (s.created addr a.data.length).names addr = some s.next := by simp
  have g1 : (s.created addr a.data.length).segs s.next = List.replicate a.data.length 0 := by simp [Store.created]
  refine ⟨(s.created addr a.data.length).wrote s.next a.data, ?_, f1.trans (eff_wrote f1.wf n1 a.data)⟩
  rw [memorizeArray, run_bind, run_openBlock_new hz hok (content_none.1 hn), andThen_ok, run_bind, run_read, andThen_ok, g1,
    if_neg (by simp), if_neg hdim, run_bind, run_writeFront, g1]
  simp

theorem run_memorizeArray_old {s : Store} (w : s.WF) {a : Arr} {addr : Str} {eo : Bool} {b : Bytes}
    (hok : E.okName addr = true) (hd : a.data ≠ []) (hdim : a.shape ≠ []) (hn : s.content addr = some b)
    (hfit : a.data.length ≤ b.length) :
    ∃ s', (memorizeArray a addr eo).run E s = (.ok ⟨addr, a.dtype, a.shape, a.data.length⟩, s') ∧
      Eff s s' addr (some (a.data ++ b.drop a.data.length)) := by
  have hz : a.data.length ≠ 0 := by simpa using hd
  obtain ⟨i, hi, his⟩ := names_of_content hn
  have e1 : (openBlock addr a.data.length eo false).run E s = (.ok i, s) := by
    cases eo with
    | true => exact run_openBlock_attach hz hok hi
    | false => exact run_openBlock_nocreate hok hi
  refine ⟨_, ?_, eff_wrote w hi _⟩
  rw [memorizeArray, run_bind, e1, andThen_ok, run_bind, run_read, andThen_ok, his, if_neg (by omega), if_neg hdim,
    run_bind, run_writeFront, his]
  rfl

theorem run_memorizeArray_big {s : Store} {a : Arr} {addr : Str} {eo : Bool} {b : Bytes}
    (hok : E.okName addr = true) (hd : a.data ≠ []) (hn : s.content addr = some b)
    (hfit : b.length < a.data.length) : (memorizeArray a addr eo).run E s = (.err .typeError, s) := by
  have hz : a.data.length ≠ 0 := by simpa using hd
  obtain ⟨i, hi, his⟩ := names_of_content hn
  have e1 : (openBlock addr a.data.length eo false).run E s = (.ok i, s) := by
    cases eo with
    | true => exact run_openBlock_attach hz hok hi
    | false => exact run_openBlock_nocreate hok hi
  rw [memorizeArray, run_bind, e1, andThen_ok, run_bind, run_read, andThen_ok, his, if_pos hfit]
  rfl

theorem run_memorizeArray_refused {s : Store} {a : Arr} {addr : Str} (hok : E.okName addr = true)
    (hn : s.content addr = none) : (memorizeArray a addr false).run E s = (.err .fileNotFound, s) := by
  rw [memorizeArray, run_bind, run_openBlock_nocreate_none hok (content_none.1 hn)]
  rfl

section
variable {pre : Str} {U : Str → Prop} (hU : KeysOK E pre U) (hok : NamesOK E (indexName pre)) {s : Store} {ix : Index}
  {m : Str → Option (Arr × Nat)} {keys : List Str} {f : Str → Option Bytes} {fl : Nat}
include hU

theorem gridTouch_pad {k : Str} (hk : U k) : gridTouch pre (padAddr pre k) := Or.inr ⟨k, hU.free k hk, rfl⟩

/-- a step that touches only the index and its values keeps the arrays -/
theorem pad_not_index {k : Str} (hk : ¬ indexWord <+: k) {name : Str} (hname : name = indexName pre) :
    ¬ (metaNames name (padAddr pre k) ∨ lockNames name (padAddr pre k)) := by
  subst hname
  rintro (⟨sl, _, h⟩ | ⟨sl, _, h⟩) <;> exact slot_ne_pad hk sl h.symm

include hok

/-- the part of `set` after the array has been written: the metadata is recorded -/
theorem gridSet_tail (h : GridRep E c nbytes pre U s ix m keys f fl) (hfl : fl + keys.length + 2 < 256 ^ 5) {mode : LockMode}
    (hm : mode.Runs) {key : Key} (hk : key.hashed E = E.utf8 key.text) (hUk : U key.text) {a : Arr}
    (ha : ArrOK c nbytes pre key.text a) {s1 : Store} {b : Bytes} {room : Nat}
    (f1 : Eff s s1 (padAddr pre key.text) (some (a.data ++ b))) (hroom : a.data.length + b.length = room) :
    ∃ s' keys' f' fl' n, (metaAdd E c mode ix key (some (metaOf pre key.text a)) true).run E s1 = (.ok n, s') ∧ s'.WF ∧
      GridRep E c nbytes pre U s' ix (upd m key.text (some (a, room))) keys' f' fl' ∧
      fl' + keys'.length ≤ fl + keys.length + 2 ∧ SameOff (gridTouch pre) s s' := by
  have hfree := hU.free _ hUk
  have h1 : MetaRep E s1 ix keys f := h.rep.same (f1.sameOff (P := fun x => x = padAddr pre key.text) rfl)
    (fun sl _ => by rw [h.name]; exact slot_ne_pad hfree sl)
  have hc1 : LockClean s1 (indexName pre) fl := h.lock.same
    ((f1.sameOff (P := fun x => x = padAddr pre key.text) rfl).mono
      (fun x hx hl => by obtain ⟨sl, _, he⟩ := hl; exact slot_ne_pad hfree sl (he.symm.trans hx)))
  obtain ⟨mb, henc, hmb, hdec⟩ := ha.codec
  have hp8 : (256 : Nat) ^ 5 < 256 ^ 8 := by decide
  obtain ⟨s', fl', r, e, hr, w', h', hc', hfl', hs'⟩ := run_metaAdd (c := c) f1.wf h1 (by rw [h.name]; exact hc1) (by omega)
    (by rw [h.name]; exact hok) hm hk (hU.nonempty _ hUk) (by omega) (fun k' hk' => hU.inj _ _ (h.used k' hk') hUk) true
    (value := some (metaOf pre key.text a)) (o := some mb) ⟨mb, rfl, henc, hmb⟩
  have hlen := length_ixAdd keys key.text true
  have hval : valAdd keys f key.text true (some mb) = upd f key.text (some mb) := by
    unfold valAdd; cases position key.text keys <;> rfl
  rw [hval] at h'
  obtain ⟨n, rfl⟩ : ∃ n, r = .ok n := by
    unfold ixAdd at hr
    cases hp : position key.text keys <;> rw [hp] at hr <;> cases r <;> simp [toExcept] at hr <;> exact ⟨_, rfl⟩
  have hcont : ∀ k, ¬ indexWord <+: k → s'.content (padAddr pre k) =
      if k = key.text then some (a.data ++ b) else s.content (padAddr pre k) := by
    intro k hkf
    rw [(hs' _ (pad_not_index hU hkf h.name)).2, f1.content]
    by_cases hkk : k = key.text
    · rw [if_pos (by rw [hkk]), if_pos hkk]
    · rw [if_neg (fun he => hkk (pad_inj he)), if_neg hkk]
  refine ⟨s', _, _, fl', n, e, w', ⟨h.name, h', by rw [← h.name]; exact hc', ?_, ?_, ?_, ?_, ?_, ?_, ?_⟩, by omega,
    (f1.sameOff (gridTouch_pad hU hUk)).trans (hs'.mono ?_)⟩
  · intro k
    rw [mem_ixAdd_iff, h.live k, upd]
    by_cases hkk : k = key.text <;> simp [hkk]
  · intro k a' room' hk'
    rw [upd] at hk' ⊢
    by_cases hkk : k = key.text
    · rw [if_pos hkk] at hk' ⊢
      injection hk' with hk'
      injection hk' with hk' _
      subst hk'
      exact ⟨mb, rfl, by rw [hkk]; exact hdec⟩
    · rw [if_neg hkk] at hk' ⊢
      exact h.info k a' room' hk'
  · intro k a' room' hk'
    rw [upd] at hk'
    by_cases hkk : k = key.text
    · rw [if_pos hkk] at hk'
      injection hk' with hk'
      injection hk' with h1 h2
      subst h1 h2
      exact ⟨b, by rw [hcont k (hkk ▸ hfree), if_pos hkk], hroom⟩
    · rw [if_neg hkk] at hk'
      have hu := hU.free k (h.used k ((h.live k).2 (by rw [hk']; simp)))
      obtain ⟨rest, hr1, hr2⟩ := h.val k a' room' hk'
      exact ⟨rest, by rw [hcont k hu, if_neg hkk]; exact hr1, hr2⟩
  · intro k a' room' hk'
    rw [upd] at hk'
    by_cases hkk : k = key.text
    · rw [if_pos hkk] at hk'
      injection hk' with hk'
      injection hk' with hk' _
      subst hk'
      exact ha.size
    · rw [if_neg hkk] at hk'
      exact h.size k a' room' hk'
  · intro k hkf hkm
    rw [upd] at hkm
    by_cases hkk : k = key.text
    · rw [if_pos hkk] at hkm; simp at hkm
    · rw [if_neg hkk] at hkm
      rw [hcont k hkf, if_neg hkk]
      exact h.noval k hkf hkm
  · intro k hkk
    rcases mem_ixAdd hkk with hkk | hkk
    · exact h.used k hkk
    · rw [hkk]; exact hUk
  · intro k b' hb'
    rw [upd] at hb'
    by_cases hkk : k = key.text
    · rw [if_pos hkk] at hb'; injection hb' with hb'; rw [← hb']; exact hmb
    · rw [if_neg hkk] at hb'; exact h.coded k b' hb'
  · rintro x (⟨sl, _, hx⟩ | ⟨sl, _, hx⟩) <;> exact Or.inl ⟨sl, by rw [hx, h.name]⟩

/-- `set` -/
theorem run_gridSet (w : s.WF) (h : GridRep E c nbytes pre U s ix m keys f fl) (hfl : fl + keys.length + 2 < 256 ^ 5) {g : Grid}
    (hg : g.pre = pre) (hgi : g.index = ix) (hm : g.mode.Runs) {key : Key} (hk : key.hashed E = E.utf8 key.text)
    (hUk : U key.text) {a : Arr} (ha : ArrOK c nbytes pre key.text a) (eo : Bool) (heo : eo = true ∨ m key.text ≠ none) :
    ∃ s' keys' f' fl', (gridSet E c g key a eo).run E s = (match (gridStore (fun a => a.data.length) m key.text a).1 with
        | .ok u => .ok u | .error e => .err e, s') ∧ s'.WF ∧
      GridRep E c nbytes pre U s' ix (gridStore (fun a => a.data.length) m key.text a).2 keys' f' fl' ∧
      fl' + keys'.length ≤ fl + keys.length + 2 ∧ SameOff (gridTouch pre) s s' := by
  have hfree := hU.free _ hUk
  have hokp : E.okName (padAddr g.pre key.text) = true := by rw [hg]; exact hU.ok _ hUk
  unfold gridStore gridSet
  rw [not_reserved hfree]
  simp only [Bool.false_eq_true, if_false]
  cases hmk : m key.text with
  | none =>
    have heo' : eo = true := by
      rcases heo with h | h
      · exact h
      · exact absurd hmk h
    subst heo'
    obtain ⟨s1, e1, f1⟩ := run_memorizeArray_new (E := E) w hokp ha.data ha.dim
      (by rw [hg]; exact h.noval _ hfree hmk)
    rw [hg] at e1 f1
    obtain ⟨s', keys', f', fl', n, e, w', h', hfl', hs'⟩ := gridSet_tail hU hok h hfl hm hk hUk ha (b := [])
      (by rw [List.append_nil]; exact f1) rfl
    refine ⟨s', keys', f', fl', ?_, w', h', hfl', hs'⟩
    rw [run_bind, run_attempt, hg, e1, asValue_ok, andThen_ok, hgi]
    simp only []
    rw [run_bind]
    exact (congrArg (fun r => andThen E r _) e).trans rfl
  | some p =>
    obtain ⟨a0, room⟩ := p
    obtain ⟨rest, hr1, hr2⟩ := h.val _ _ _ hmk
    by_cases hfit : a.data.length ≤ room
    · simp only [if_pos hfit]
      obtain ⟨s1, e1, f1⟩ := run_memorizeArray_old (E := E) w (eo := eo) hokp ha.data ha.dim (by rw [hg]; exact hr1)
        (by rw [List.length_append]; omega)
      rw [hg] at e1 f1
      obtain ⟨s', keys', f', fl', n, e, w', h', hfl', hs'⟩ := gridSet_tail hU hok h hfl hm hk hUk ha (room := room) f1
        (by rw [List.length_drop, List.length_append]; omega)
      refine ⟨s', keys', f', fl', ?_, w', h', hfl', hs'⟩
      rw [run_bind, run_attempt, hg, e1, asValue_ok, andThen_ok, hgi]
      simp only []
      rw [run_bind]
      exact (congrArg (fun r => andThen E r _) e).trans rfl
    · simp only [if_neg hfit]
      have e1 := run_memorizeArray_big (E := E) (eo := eo) (a := a) hokp ha.data (by rw [hg]; exact hr1)
        (by rw [List.length_append]; omega)
      refine ⟨s, keys, f, fl, ?_, w, h, by omega, SameOff.refl _ _⟩
      rw [run_bind, run_attempt, e1]
      rfl

/-- `set(..., exists_ok=False)` of a new key -/
theorem run_gridSet_refused (h : GridRep E c nbytes pre U s ix m keys f fl) {g : Grid}
    (hg : g.pre = pre) {key : Key} (hUk : U key.text) (a : Arr) (hmk : m key.text = none) :
    (gridSet E c g key a false).run E s = (.err .fileNotFound, s) := by
  have hfree := hU.free _ hUk
  have hokp : E.okName (padAddr g.pre key.text) = true := by rw [hg]; exact hU.ok _ hUk
  rw [gridSet, not_reserved hfree]
  simp only [Bool.false_eq_true, if_false]
  rw [run_bind, run_attempt, run_memorizeArray_refused hokp (by rw [hg]; exact h.noval _ hfree hmk)]
  rfl

/-- `gp[key]` -/
theorem run_gridGet (h : GridRep E c nbytes pre U s ix m keys f fl) {g : Grid} (hgi : g.index = ix) {key : Key}
    (hk : key.hashed E = E.utf8 key.text) (hUk : U key.text) :
    (gridGet E c nbytes g key).run E s = (match m key.text with | some (a, _) => .ok a | none => .err .keyError, s) := by
  have hokn : NamesOK E ix.name := by rw [h.name]; exact hok
  have hokp : E.okName (padAddr pre key.text) = true := hU.ok _ hUk
  unfold gridGet
  rw [run_bind, run_attempt, run_bind, hgi]
  cases hmk : m key.text with
  | none =>
    have habs : ∀ k' ∈ keys, E.sha (E.utf8 k') ≠ E.sha (E.utf8 key.text) := fun k' hk' he =>
      (h.live _).1 (hU.inj _ _ (h.used k' hk') hUk he ▸ hk') hmk
    rw [run_metaGet_absent h.rep hokn hk habs]
    rfl
  | some p =>
    obtain ⟨a, room⟩ := p
    obtain ⟨i, hi⟩ := List.mem_iff_getElem?.1 ((h.live key.text).2 (by rw [hmk]; simp))
    obtain ⟨b, hb, hdec⟩ := h.info _ _ _ hmk
    obtain ⟨rest, hr1, hr2⟩ := h.val _ _ _ hmk
    obtain ⟨j, hj, hjs⟩ := names_of_content hr1
    rw [run_metaGet h.rep hokn hk hi, hb, andThen_ok, rememberArray, run_bind, hdec, run_ofExcept_ok, andThen_ok, run_bind]
    have hsz : nbytes (metaOf pre key.text a).dtype (metaOf pre key.text a).shape = a.data.length := h.size _ _ _ hmk
    rw [run_attach (n := (metaOf pre key.text a).name) hokp hj, andThen_ok, run_bind, run_read, andThen_ok, hjs,
      if_neg (by rw [hsz, List.length_append]; omega), hsz]
    simp [metaOf]

/-- `gp.get(key, default)` -/
theorem run_gridGetD (h : GridRep E c nbytes pre U s ix m keys f fl) {g : Grid} (hgi : g.index = ix) {key : Key}
    (hk : key.hashed E = E.utf8 key.text) (hUk : U key.text) (d : Arr) :
    (gridGetD E c nbytes g key d).run E s = (match m key.text with | some (a, _) => .ok a | none => .ok d, s) := by
  unfold gridGetD
  rw [run_bind, run_attempt, run_gridGet hU hok h hgi hk hUk]
  cases m key.text <;> rfl

/-- `del gp[key]` without a lock -/
theorem run_gridDel (w : s.WF) (h : GridRep E c nbytes pre U s ix m keys f fl) {g : Grid} (hg : g.pre = pre)
    (hgi : g.index = ix) (hm : g.mode = .fake) {key : Key} (hk : key.hashed E = E.utf8 key.text) (hUk : U key.text) :
    ∃ s' keys', (gridDel E g key).run E s = (if m key.text = none then .err .keyError else .ok (), s') ∧ s'.WF ∧
      GridRep E c nbytes pre U s' ix (upd m key.text none) keys' f fl ∧
      keys'.length ≤ keys.length ∧ SameOff (gridTouch pre) s s' := by
  have hfree := hU.free _ hUk
  have hokn : NamesOK E ix.name := by rw [h.name]; exact hok
  have hokp : E.okName (padAddr g.pre key.text) = true := by rw [hg]; exact hU.ok _ hUk
  unfold gridDel
  rw [not_reservedExact hfree]
  simp only [Bool.false_eq_true, if_false]
  cases hmk : m key.text with
  | none =>
    have hb := h.noval _ hfree hmk
    have hu : upd m key.text none = m := by
      funext x; unfold upd; by_cases hx : x = key.text
      · rw [if_pos hx, hx, hmk]
      · rw [if_neg hx]
    rw [hu]
    refine ⟨s, keys, ?_, w, h, Nat.le_refl _, SameOff.refl _ _⟩
    rw [run_bind, run_attempt, run_bind, run_deleteBlock_none hokp (by rw [hg]; exact content_none.1 hb)]
    rfl
  | some p =>
    obtain ⟨a, room⟩ := p
    obtain ⟨rest, hr1, _⟩ := h.val _ _ _ hmk
    obtain ⟨j, hj, _⟩ := names_of_content hr1
    have f1 := eff_unlinked w (padAddr pre key.text)
    have h1 : MetaRep E (s.unlinked (padAddr pre key.text)) ix keys f :=
      h.rep.same (f1.sameOff (P := fun x => x = padAddr pre key.text) rfl)
        (fun sl _ => by rw [h.name]; exact slot_ne_pad hfree sl)
    have hc1 : LockClean (s.unlinked (padAddr pre key.text)) (indexName pre) fl :=
      h.lock.same ((f1.sameOff (P := fun x => x = padAddr pre key.text) rfl).mono
        (fun x hx hl => by obtain ⟨sl, _, he⟩ := hl; exact slot_ne_pad hfree sl (he.symm.trans hx)))
    have hmem : key.text ∈ keys := (h.live _).2 (by rw [hmk]; simp)
    obtain ⟨i, hi⟩ := List.mem_iff_getElem?.1 hmem
    have li := lt_of_getElem? hi
    obtain ⟨b, hb, _⟩ := h.info _ _ _ hmk
    obtain ⟨s2, e2, w2, h2, hs2⟩ := run_metaDel_fake f1.wf h1 hokn hk hi h.coded
      (l := keys[keys.length - 1]'(by omega)) (List.getElem?_eq_getElem (by omega))
    rw [hb, if_neg (by simp)] at e2
    have hiff : ∀ x, x ∈ swapRemove keys i ↔ x ∈ keys ∧ x ≠ key.text := fun x => mem_swapRemove_iff h.rep.rep.nodup hi
    have hcont : ∀ k, ¬ indexWord <+: k → s2.content (padAddr pre k) =
        if k = key.text then none else s.content (padAddr pre k) := fun k hk => by
      rw [(hs2 _ fun hc => pad_not_index hU hk h.name (Or.inl hc)).2, f1.content]
      by_cases hkk : k = key.text
      · simp [hkk]
      · rw [if_neg (fun he => hkk (pad_inj he)), if_neg hkk]
    refine ⟨s2, swapRemove keys i, ?_, w2, ⟨h.name, h2, ?_, ?_, ?_, ?_, ?_, ?_, ?_, h.coded⟩,
      by rw [length_swapRemove li]; omega, (f1.sameOff (gridTouch_pad hU hUk)).trans (hs2.mono ?_)⟩
    · rw [run_bind, run_attempt, run_bind, run_deleteBlock hokp (by rw [hg]; exact hj), andThen_ok, run_bind, hg, hm, hgi, e2]
      rfl
    · refine hc1.same (hs2.mono fun x hx => ?_)
      rw [← h.name]; exact meta_not_lock hx
    · intro k
      rw [hiff, h.live, upd]
      by_cases hkk : k = key.text <;> simp [hkk]
    · intro k a' room' hk'
      rw [upd] at hk'
      by_cases hkk : k = key.text
      · rw [if_pos hkk] at hk'; simp at hk'
      · rw [if_neg hkk] at hk'; exact h.info k a' room' hk'
    · intro k a' room' hk'
      rw [upd] at hk'
      by_cases hkk : k = key.text
      · rw [if_pos hkk] at hk'; simp at hk'
      · rw [if_neg hkk] at hk'
        have hu := hU.free k (h.used k ((h.live k).2 (by rw [hk']; simp)))
        obtain ⟨r, hr1, hr2⟩ := h.val k a' room' hk'
        exact ⟨r, by rw [hcont k hu, if_neg hkk]; exact hr1, hr2⟩
    · intro k a' room' hk'
      rw [upd] at hk'
      by_cases hkk : k = key.text
      · rw [if_pos hkk] at hk'; simp at hk'
      · rw [if_neg hkk] at hk'; exact h.size k a' room' hk'
    · intro k hkf hkm
      rw [hcont k hkf]
      by_cases hkk : k = key.text
      · rw [if_pos hkk]
      · rw [if_neg hkk]
        rw [upd, if_neg hkk] at hkm
        exact h.noval k hkf hkm
    · intro k hk'
      exact h.used k ((hiff k).1 hk').1
    · rintro x ⟨sl, _, hx⟩
      exact Or.inl ⟨sl, by rw [hx, h.name]⟩

/-- `for key in keys: del self[key]` over all live keys, without a lock -/
theorem run_gridDelAll {g : Grid} (hg : g.pre = pre) (hgi : g.index = ix) (hm : g.mode = .fake) (l : List Str)
    (hnd : l.Nodup) (w : s.WF) (h : GridRep E c nbytes pre U s ix m keys f fl) (hl : ∀ k, k ∈ l ↔ k ∈ keys) :
    ∃ s' keys', (gridDelAll E g l).run E s = (.ok (), s') ∧ s'.WF ∧
      GridRep E c nbytes pre U s' ix (fun _ => none) keys' f fl ∧ keys'.length ≤ keys.length ∧ SameOff (gridTouch pre) s s' := by
  induction l generalizing s m keys with
  | nil =>
    have hmn : m = fun _ => none := by
      funext k
      by_contra hc
      have := (hl k).2 ((h.live k).2 hc)
      simp at this
    subst hmn
    exact ⟨s, keys, rfl, w, h, Nat.le_refl _, SameOff.refl _ _⟩
  | cons k t ih =>
    have hkm : k ∈ keys := (hl k).1 List.mem_cons_self
    obtain ⟨s1, keys1, e1, w1, h1, hf1, hs1⟩ := run_gridDel hU hok w h hg hgi hm (key := .str k) rfl (h.used k hkm)
    have hmk : m k ≠ none := (h.live k).1 hkm
    have hl1 : ∀ x, x ∈ t ↔ x ∈ keys1 := by
      intro x
      rw [h1.live, upd]
      show _ ↔ (if x = k then _ else _) ≠ _
      by_cases hx : x = k
      · subst hx
        simp only [if_pos, ne_eq, not_true_eq_false, iff_false]
        exact (List.nodup_cons.1 hnd).1
      · rw [if_neg hx, ← h.live, ← hl]; simp [hx]
    obtain ⟨s2, keys2, e2, w2, h2, hf2, hs2⟩ := ih (List.nodup_cons.1 hnd).2 w1 h1 hl1
    refine ⟨s2, keys2, ?_, w2, h2, by omega, hs1.trans hs2⟩
    rw [gridDelAll, run_bind, e1, if_neg (show ¬ m (Key.str k).text = none from hmk), andThen_ok, e2]

/-- `del gp[key]` with the default lock: the array is gone, the key is not, and the call never returns -/
theorem run_gridDel_sliding (w : s.WF) (h : GridRep E c nbytes pre U s ix m keys f fl) (hfl : fl + 2 < 256 ^ 5) {g : Grid}
    (hg : g.pre = pre) (hgi : g.index = ix) {fuel : Nat} (hm : g.mode = .sliding fuel) {key : Key} (hUk : U key.text)
    (hmk : m key.text ≠ none) :
    ∃ s', (gridDel E g key).run E s = (.stuck, s') ∧ s'.WF ∧ IxRep E s' ix keys ∧
      s'.content (padAddr pre key.text) = none ∧ (0 < fuel → ∃ n, Blocked s' ix.name fl n ∧ n ≤ fl + 3) := by
  have hfree := hU.free _ hUk
  have hokn : NamesOK E ix.name := by rw [h.name]; exact hok
  have hokp : E.okName (padAddr g.pre key.text) = true := by rw [hg]; exact hU.ok _ hUk
  cases hmk' : m key.text with
  | none => exact absurd hmk' hmk
  | some p =>
    obtain ⟨a, room⟩ := p
    obtain ⟨rest, hr1, _⟩ := h.val _ _ _ hmk'
    obtain ⟨j, hj, _⟩ := names_of_content hr1
    have f1 := eff_unlinked w (padAddr pre key.text)
    have h1 : IxRep E (s.unlinked (padAddr pre key.text)) ix keys :=
      h.rep.rep.same (f1.sameOff (P := fun x => x = padAddr pre key.text) rfl)
        (fun sl _ => by rw [h.name]; exact slot_ne_pad hfree sl)
    have hc1 : LockClean (s.unlinked (padAddr pre key.text)) ix.name fl := by
      rw [h.name]
      exact h.lock.same ((f1.sameOff (P := fun x => x = padAddr pre key.text) rfl).mono
        (fun x hx hl => by obtain ⟨sl, _, he⟩ := hl; exact slot_ne_pad hfree sl (he.symm.trans hx)))
    obtain ⟨s2, e2, w2, hs2, hb2⟩ := run_metaDel_sliding (E := E) f1.wf hokn hc1 hfl fuel key
    refine ⟨s2, ?_, w2, h1.sameLock hs2, ?_, hb2⟩
    · unfold gridDel
      rw [not_reservedExact hfree]
      simp only [Bool.false_eq_true, if_false]
      rw [run_bind, run_attempt, run_bind, run_deleteBlock hokp (by rw [hg]; exact hj), andThen_ok, run_bind, hg, hm, hgi, e2]
      rfl
    · rw [(hs2 _ ?_).2, f1.content, if_pos rfl]
      rintro ⟨sl, _, hx⟩
      rw [h.name] at hx
      exact slot_ne_pad hfree sl hx.symm

end

end Verif.Lemmas
