import Verif.Lemmas.MetaHist
import Verif.Lemmas.Pad
import Verif.Lemmas.Claims
import Verif.Model.MetaPad
import Verif.Spec.MetaPad
/-! # Notepads with metadata -/
namespace Verif.Lemmas
open Verif Verif.Model Verif.Spec
variable {V M : Type} {E : Env} {c : Codec V} {cm : Codec M} {isNone : V → Bool} {enc : M → Bytes} {pre : Str} {U : Str → Prop}

/-- calls on the notepad, by clients with locks of these kinds -/
inductive TagPadOp (V M : Type) where
  | set (mode : LockMode) (key : Key) (v : V) (note : Option M) (existsOk : Bool)
  | get (key : Key)
  | note (key : Key)
  | del (mode : LockMode) (key : Key)
  | keys
  | notes
  | clear (mode : LockMode)

def TagPadOp.call : TagPadOp V M → TagPadCall V M
  | .set _ k v n eo => .set k.text v n eo
  | .get k => .get k.text
  | .note k => .note k.text
  | .del _ k => .del k.text
  | .keys => .keys
  | .notes => .notes
  | .clear _ => .clear

/-- an outcome as a result -/
def tagRes {α : Type} (f : Except PyErr α → TagPadRes V M) (o : Outcome α) : TagPadRes V M :=
  match toExcept o with
  | some r => f r
  | none => .broken

def tagList {α : Type} (f : α → TagPadRes V M) : Except PyErr α → TagPadRes V M
  | .ok a => f a
  | .error _ => .broken

/-- the call on the model -/
def runTagPad (E : Env) (c : Codec V) (cm : Codec M) (isNone : V → Bool) (pre : Str) (ix : Index) (s : Store) :
    TagPadOp V M → TagPadRes V M × Store
  | .set mode k v n eo => let r := (metaPadSet E c cm ⟨pre, ix, mode⟩ k v n eo).run E s; (tagRes .done r.1, r.2)
  | .get k => let r := (metaPadGet c isNone ⟨pre, ix, .fake⟩ k).run E s; (tagRes .value r.1, r.2)
  | .note k => let r := (metaGet E ix k).run E s; (tagRes .note r.1, r.2)
  | .del mode k => let r := (metaPadDel E ⟨pre, ix, mode⟩ k).run E s; (tagRes .done r.1, r.2)
  | .keys => let r := (indexUpdate E ix).run E s; (tagRes (tagList .keys) r.1, r.2)
  | .notes => let r := (metaItems E cm ix).run E s; (tagRes (tagList .notes) r.1, r.2)
  | .clear mode => let r := (metaPadClear E ⟨pre, ix, mode⟩).run E s; (tagRes .done r.1, r.2)

def playTagPad (E : Env) (c : Codec V) (cm : Codec M) (isNone : V → Bool) (pre : Str) (ix : Index) :
    List (TagPadOp V M) → Store → List (TagPadRes V M) × Store
  | [], s => ([], s)
  | o :: t, s =>
    let r := runTagPad E c cm isNone pre ix s o
    let rest := playTagPad E c cm isNone pre ix t r.2
    (r.1 :: rest.1, rest.2)

/-- metadata that survive their codec -/
def NoteOK (cm : Codec M) (enc : M → Bytes) (n : Option M) : Prop :=
  ∀ x, n = some x → cm.encode x = .ok (enc x) ∧ enc x ≠ [] ∧ cm.decode (enc x) = .ok x

/-- the calls in play: removals are by clients without lock -/
def TagPadOpOK (E : Env) (c : Codec V) (cm : Codec M) (isNone : V → Bool) (enc : M → Bytes) (U : Str → Prop) : TagPadOp V M → Prop
  | .set mode k v n _ => mode.Runs ∧ k.hashed E = E.utf8 k.text ∧ U k.text ∧ (∃ b, Stable c isNone v b) ∧ NoteOK cm enc n
  | .get k => U k.text
  | .note k => k.hashed E = E.utf8 k.text ∧ U k.text
  | .del mode k => mode = .fake ∧ k.hashed E = E.utf8 k.text ∧ U k.text
  | .clear mode => mode = .fake
  | _ => True

/-- the memory holds the state -/
structure TagPadRep (E : Env) (c : Codec V) (cm : Codec M) (isNone : V → Bool) (enc : M → Bytes) (pre : Str) (U : Str → Prop) (s : Store)
    (ix : Index) (st : TagPadState V M) (fl : Nat) : Prop where
  name : ix.name = indexName pre
  idx : MetaHolds E cm enc U s ix ⟨st.keys, st.note⟩ fl
  live : ∀ k, k ∈ st.keys ↔ st.val k ≠ none
  val : ∀ k v, st.val k = some v → ∃ b, s.content (padAddr pre k) = some b ∧ Stable c isNone v b
  noval : ∀ k, ¬ indexWord <+: k → st.val k = none → s.content (padAddr pre k) = none

theorem MetaHolds.same {s s' : Store} {ix : Index} {st : MetaState M} {fl : Nat} (h : MetaHolds E cm enc U s ix st fl) (w : s'.WF)
    {P : Str → Prop} (hs : SameOff P s s') (hP : ∀ sl : Slot, ¬ P (sl.addr ix.name)) : MetaHolds E cm enc U s' ix st fl :=
  ⟨w, h.rep.same hs fun sl _ => hP sl, h.lock.same (hs.mono fun x hx hl => by obtain ⟨sl, _, rfl⟩ := hl; exact hP sl hx), h.used, h.coded⟩

/-- the blocks of the notepad -/
def tagPadNames (pre x : Str) : Prop := (∃ sl : Slot, x = sl.addr (indexName pre)) ∨ ∃ k, ¬ indexWord <+: k ∧ x = padAddr pre k

theorem tagPad_of_index {name x : Str} (h : metaNames name x ∨ lockNames name x) : ∃ sl : Slot, x = sl.addr name := by
  rcases h with ⟨sl, _, h⟩ | ⟨sl, _, h⟩ <;> exact ⟨sl, h⟩

section
variable (hU : KeysOK E pre U) (hok : NamesOK E (indexName pre)) {s : Store} {ix : Index} {st : TagPadState V M} {fl : Nat}

theorem answer_position {o : Outcome Nat} {r : Except PyErr Nat} (h : answer (M := M) .position o = .position r) : toExcept o = some r := by
  unfold answer at h
  cases ho : toExcept o with
  | none => rw [ho] at h; cases h
  | some x => rw [ho] at h; injection h with h; rw [h]

include hU hok in
/-- `set` -/
theorem run_metaPadSet (h : TagPadRep E c cm isNone enc pre U s ix st fl) (hfl : fl + 1 < 256 ^ 5) (hlen : st.keys.length + 1 < 256 ^ 8)
    {mode : LockMode} (hm : mode.Runs) {key : Key} (hk : key.hashed E = E.utf8 key.text) (hUk : U key.text) {v : V} {b : Bytes}
    (hv : Stable c isNone v b) {n : Option M} (hn : NoteOK cm enc n) (eo : Bool) :
    ∃ s' fl' r, (metaPadSet E c cm ⟨pre, ix, mode⟩ key v n eo).run E s = (r, s') ∧
      tagRes .done r = (tagPadAnswer enc st (.set key.text v n eo)).1 ∧
      TagPadRep E c cm isNone enc pre U s' ix (tagPadAnswer enc st (.set key.text v n eo)).2 fl' ∧ fl' ≤ fl + 1 ∧
      (tagPadAnswer enc st (.set key.text v n eo)).2.keys.length ≤ st.keys.length + 1 ∧ SameOff (tagPadNames pre) s s' := by
  have hok' : NamesOK E ix.name := by rw [h.name]; exact hok
  have hfree := hU.free _ hUk
  obtain ⟨fl', h1, h2, h3, _, h4, h5⟩ := runMeta_ok (c := cm) hU.inj hok' h.idx (.add mode key n eo)
    ⟨hm, hk, hU.nonempty _ hUk, hUk, hn⟩ hfl hlen
  simp only [runMeta, metaAnswer, MetaOp.call] at h1 h2 h4 h5
  have h1' := answer_position h1
  generalize he : (metaAdd E cm mode ix key n eo).run E s = rs at h1' h2 h5
  obtain ⟨r, s1⟩ := rs
  simp only at h1' h2 h5
  have hcont : ∀ k, ¬ indexWord <+: k → s1.content (padAddr pre k) = s.content (padAddr pre k) := fun k hk =>
    (h5 _ fun hx => by obtain ⟨sl, hx⟩ := tagPad_of_index hx; rw [h.name] at hx; exact slot_ne_pad hk sl hx.symm).2
  have hs1 : SameOff (tagPadNames pre) s s1 := h5.mono fun x hx => by
    obtain ⟨sl, hx⟩ := tagPad_of_index hx; rw [h.name] at hx; exact Or.inl ⟨sl, hx⟩
  have hvals : ∀ k v, st.val k = some v → ∃ b, s1.content (padAddr pre k) = some b ∧ Stable c isNone v b := by
    intro k v hk
    rw [hcont k (hU.free k (h.idx.used k ((h.live k).2 (by rw [hk]; simp))))]
    exact h.val k v hk
  have hnovals : ∀ k, ¬ indexWord <+: k → st.val k = none → s1.content (padAddr pre k) = none := fun k hf hk => by
    rw [hcont k hf]; exact h.noval k hf hk
  unfold metaPadSet
  rw [not_reserved hfree]
  simp only [Bool.false_eq_true, if_false]
  rw [run_bind, run_attempt, run_bind, he]
  by_cases hcase : key.text ∈ st.keys ∧ eo = false
  · obtain ⟨hmem, rfl⟩ := hcase
    obtain ⟨i, hi⟩ := mem_iff_position.1 hmem
    have hx : ixAdd st.keys key.text false = (.error .fileExists, st.keys) := by unfold ixAdd; rw [hi]; rfl
    rw [hx] at h1' h2
    have hr : r = .err .fileExists := by
      cases r <;> simp [toExcept] at h1'
      rw [h1']
    subst hr
    refine ⟨s1, fl', .err .keyError, rfl, ?_, ?_, h3, ?_, hs1⟩
    · simp [tagPadAnswer, hmem, tagRes, toExcept]
    · simp only [tagPadAnswer, hmem, and_self, if_true]
      refine ⟨h.name, ?_, h.live, hvals, hnovals⟩
      have : metaPut ⟨st.keys, st.note⟩ key.text n false = st.note := by
        funext x
        unfold metaPut
        by_cases hx : x = key.text
        · simp [hx, hmem]
        · simp [hx]
      rw [this] at h2
      exact h2
    · simp [tagPadAnswer, hmem]
  · have hr : ∃ j, r = .ok j := by
      unfold ixAdd at h1'
      cases hp : position key.text st.keys with
      | none =>
        rw [hp] at h1'
        cases r <;> simp [toExcept] at h1'
        exact ⟨_, rfl⟩
      | some i =>
        rw [hp] at h1'
        have he : eo = true := by
          by_contra hc
          exact hcase ⟨mem_iff_position.2 ⟨i, hp⟩, by simpa using hc⟩
        subst he
        cases r <;> simp [toExcept] at h1'
        exact ⟨_, rfl⟩
    obtain ⟨j, rfl⟩ := hr
    obtain ⟨s2, e2, f2⟩ := run_memorize (E := E) (c := c) h2.wf (v := v) (a := padAddr pre key.text) (existsOk := eo) (hU.ok _ hUk) hv.1 hv.2.1 (by
      cases eo with
      | true => exact Or.inl rfl
      | false =>
        right
        refine hnovals _ hfree ?_
        by_contra hne
        exact hcase ⟨(h.live _).2 hne, rfl⟩)
    have hkeys : (ixAdd st.keys key.text eo).2 = if key.text ∈ st.keys then st.keys else st.keys ++ [key.text] := by
      unfold ixAdd
      cases hp : position key.text st.keys with
      | none => rw [if_neg (position_none.1 hp)]
      | some i => rw [if_pos (mem_iff_position.2 ⟨i, hp⟩)]
    have hnote : metaPut ⟨st.keys, st.note⟩ key.text n eo =
        fun x => if x = key.text then (if key.text ∈ st.keys then n.orElse fun _ => st.note key.text else n) else st.note x := by
      funext x
      unfold metaPut
      by_cases hx : x = key.text
      · by_cases hmem : key.text ∈ st.keys
        · have he : eo = true := by
            by_contra hc
            exact hcase ⟨hmem, by simpa using hc⟩
          simp [hx, hmem, he]
        · simp [hx, hmem]
      · simp [hx]
    have hpt : tagPadNames pre (padAddr pre key.text) := Or.inr ⟨_, hfree, rfl⟩
    refine ⟨s2, fl', .ok (), ?_, ?_, ?_, h3, ?_, hs1.trans (f2.sameOff hpt)⟩
    · rw [andThen_ok, run_bind, e2]; rfl
    · simp only [tagPadAnswer, if_neg hcase]; rfl
    · simp only [tagPadAnswer, if_neg hcase]
      rw [hkeys, hnote] at h2
      refine ⟨h.name, h2.same f2.wf (f2.sameOff (P := fun x => x = padAddr pre key.text) rfl) (fun sl => by
        rw [h.name]; exact slot_ne_pad hfree sl), ?_, ?_, ?_⟩
      · intro k
        simp only [upd]
        by_cases hkk : k = key.text
        · subst hkk
          by_cases hmem : key.text ∈ st.keys <;> simp [hmem]
        · rw [if_neg hkk, ← h.live k]
          by_cases hmem : key.text ∈ st.keys <;> simp [hmem, hkk]
      · intro k v' hk'
        simp only [upd] at hk'
        by_cases hkk : k = key.text
        · rw [if_pos hkk] at hk'; injection hk' with hk'; subst hk'
          exact ⟨b, by rw [f2.content, hkk, if_pos rfl], hv⟩
        · rw [if_neg hkk] at hk'
          obtain ⟨b', hb1, hb2⟩ := hvals k v' hk'
          exact ⟨b', by rw [f2.content, if_neg (fun he => hkk (pad_inj he))]; exact hb1, hb2⟩
      · intro k hk hm
        simp only [upd] at hm
        by_cases hkk : k = key.text
        · rw [if_pos hkk] at hm; simp at hm
        · rw [if_neg hkk] at hm
          rw [f2.content, if_neg (fun he => hkk (pad_inj he))]
          exact hnovals k hk hm
    · simp only [tagPadAnswer, if_neg hcase]
      rw [← hkeys]; exact h4

include hU in
/-- `get` -/
theorem run_metaPadGet (h : TagPadRep E c cm isNone enc pre U s ix st fl) {mode : LockMode} {key : Key} (hUk : U key.text) :
    (metaPadGet c isNone ⟨pre, ix, mode⟩ key).run E s = (match st.val key.text with | some v => .ok v | none => .err .fileNotFound, s) := by
  unfold metaPadGet
  rw [run_padGet (hU.ok _ hUk)]
  cases hm : st.val key.text with
  | none => rw [h.noval _ (hU.free _ hUk) hm]; rfl
  | some v =>
    obtain ⟨b, hb, _, _, hd, hn⟩ := h.val _ _ hm
    rw [hb]
    simp [readAs, hd, hn]

include hU hok in
/-- `del` -/
theorem run_metaPadDel (h : TagPadRep E c cm isNone enc pre U s ix st fl) (hfl : fl + 1 < 256 ^ 5) (hlen : st.keys.length + 1 < 256 ^ 8)
    {key : Key} (hk : key.hashed E = E.utf8 key.text) (hUk : U key.text) :
    ∃ s' r, (metaPadDel E ⟨pre, ix, .fake⟩ key).run E s = (r, s') ∧ toExcept r = some (tagPadDel st key.text).1 ∧
      TagPadRep E c cm isNone enc pre U s' ix (tagPadDel st key.text).2 fl ∧
      (tagPadDel st key.text).2.keys.length ≤ st.keys.length ∧ SameOff (tagPadNames pre) s s' := by
  have hok' : NamesOK E ix.name := by rw [h.name]; exact hok
  have hfree := hU.free _ hUk
  have hokp := hU.ok _ hUk
  unfold metaPadDel
  rw [not_reservedExact hfree]
  simp only [Bool.false_eq_true, if_false]
  by_cases hmem : key.text ∈ st.keys
  · obtain ⟨v, hmk⟩ := Option.ne_none_iff_exists'.1 ((h.live _).1 hmem)
    obtain ⟨b, hb, _⟩ := h.val _ _ hmk
    obtain ⟨i, hi, _⟩ := names_of_content hb
    have f1 := eff_unlinked h.idx.wf (padAddr pre key.text)
    have h1 := h.idx.same f1.wf (f1.sameOff (P := fun x => x = padAddr pre key.text) rfl) (fun sl => by
      rw [h.name]; exact slot_ne_pad hfree sl)
    obtain ⟨fl', g1, g2, _, g3, g4, g5⟩ := runMeta_ok (c := cm) hU.inj hok' h1 (.del .fake key) ⟨rfl, hk, hUk⟩ hfl hlen
    have g3 := g3 _ _ rfl
    subst g3
    simp only [runMeta, metaAnswer, MetaOp.call] at g1 g2 g4 g5
    have g1' := answer_position g1
    generalize he : (metaDel E .fake ix key).run E (s.unlinked (padAddr pre key.text)) = rs at g1' g2 g5
    obtain ⟨r, s1⟩ := rs
    simp only at g1' g2 g5
    obtain ⟨j, hj⟩ := mem_iff_position.1 hmem
    rw [hj] at g1'
    simp only at g1'
    have hd : ixDel st.keys key.text = (.ok j, swapRemove st.keys j) := by unfold ixDel; rw [hj]
    have hcont : ∀ k, ¬ indexWord <+: k → s1.content (padAddr pre k) =
        if k = key.text then none else s.content (padAddr pre k) := fun k hk => by
      rw [(g5 _ fun hx => by obtain ⟨sl, hx⟩ := tagPad_of_index hx; rw [h.name] at hx; exact slot_ne_pad hk sl hx.symm).2, f1.content]
      by_cases hkk : k = key.text
      · simp [hkk]
      · rw [if_neg (fun he => hkk (pad_inj he)), if_neg hkk]
    have hiff : ∀ x, x ∈ swapRemove st.keys j ↔ x ∈ st.keys ∧ x ≠ key.text := fun x =>
      mem_swapRemove_iff h.idx.rep.rep.nodup (position_some hj)
    have hpt : tagPadNames pre (padAddr pre key.text) := Or.inr ⟨_, hfree, rfl⟩
    have hrep : TagPadRep E c cm isNone enc pre U s1 ix (tagPadDel st key.text).2 fl' := by
      simp only [tagPadDel, if_pos hmem]
      refine ⟨h.name, g2, ?_, ?_, ?_⟩
      · intro k
        simp only [hd]
        rw [hiff, h.live, upd]
        by_cases hkk : k = key.text <;> simp [hkk]
      · intro k v' hk'
        simp only [upd] at hk'
        by_cases hkk : k = key.text
        · rw [if_pos hkk] at hk'; simp at hk'
        · rw [if_neg hkk] at hk'
          obtain ⟨b', hb1, hb2⟩ := h.val k v' hk'
          have hu := hU.free k (h.idx.used k ((h.live k).2 (by rw [hk']; simp)))
          exact ⟨b', by rw [hcont k hu, if_neg hkk]; exact hb1, hb2⟩
      · intro k hkf hkm
        simp only [upd] at hkm
        rw [hcont k hkf]
        by_cases hkk : k = key.text
        · rw [if_pos hkk]
        · rw [if_neg hkk]
          rw [if_neg hkk] at hkm
          exact h.noval k hkf hkm
    refine ⟨s1, if st.note key.text = none ∧ (st.keys.getLast?.bind st.note) = none then .err .keyError else .ok (), ?_, ?_, hrep,
      ?_, (f1.sameOff hpt).trans (g5.mono fun x hx => by
        obtain ⟨sl, hx⟩ := tagPad_of_index hx; rw [h.name] at hx; exact Or.inl ⟨sl, hx⟩)⟩
    · rw [run_bind, run_attempt, run_bind, run_deleteBlock hokp hi, andThen_ok, run_bind, he]
      by_cases hnn : st.note key.text = none ∧ (st.keys.getLast?.bind st.note) = none
      · rw [if_pos hnn] at g1'
        rw [if_pos hnn]
        cases r <;> simp [toExcept] at g1'
        subst g1'
        rfl
      · rw [if_neg hnn] at g1'
        rw [if_neg hnn]
        cases r <;> simp [toExcept] at g1'
        rfl
    · simp only [tagPadDel, if_pos hmem]
      split <;> rfl
    · simp only [tagPadDel, if_pos hmem, hd]
      have := length_swapRemove (position_lt hj)
      omega
  · have hmk : st.val key.text = none := by
      by_contra hc
      exact hmem ((h.live _).2 hc)
    refine ⟨s, .err .keyError, ?_, ?_, ?_, ?_, SameOff.refl _ _⟩
    · rw [run_bind, run_attempt, run_bind, run_deleteBlock_none hokp (content_none.1 (h.noval _ hfree hmk))]
      rfl
    · simp [tagPadDel, hmem, toExcept]
    · simp only [tagPadDel, if_neg hmem]; exact h
    · simp [tagPadDel, hmem]

include hU hok in
theorem run_metaPadDels (l : List Str) (h : TagPadRep E c cm isNone enc pre U s ix st fl) (hl : ∀ k ∈ l, U k)
    (hfl : fl + 1 < 256 ^ 5) (hlen : st.keys.length + 1 < 256 ^ 8) :
    ∃ s' r, (metaPadDels E ⟨pre, ix, .fake⟩ l).run E s = (r, s') ∧ toExcept r = some (tagPadDels st l).1 ∧
      TagPadRep E c cm isNone enc pre U s' ix (tagPadDels st l).2 fl ∧
      (tagPadDels st l).2.keys.length ≤ st.keys.length ∧ SameOff (tagPadNames pre) s s' := by
  induction l generalizing s st with
  | nil => exact ⟨s, .ok (), rfl, rfl, h, by simp [tagPadDels], SameOff.refl _ _⟩
  | cons k t ih =>
    obtain ⟨s1, r1, e1, hr1, h1, hl1, hs1⟩ := run_metaPadDel hU hok h hfl hlen (key := .str k) rfl (hl k (by simp))
    simp only [Key.text] at hr1 h1 hl1
    rw [metaPadDels, run_bind, e1]
    unfold tagPadDels
    generalize tagPadDel st k = d at hr1 h1 hl1
    obtain ⟨a, st1⟩ := d
    simp only at hr1 h1 hl1
    cases a with
    | error e =>
      cases r1 <;> simp [toExcept] at hr1
      subst hr1
      exact ⟨s1, _, rfl, rfl, h1, hl1, hs1⟩
    | ok u =>
      cases r1 <;> simp [toExcept] at hr1
      obtain ⟨s2, r2, e2, hr2, h2, hl2, hs2⟩ := ih h1 (fun x hx => hl x (by simp [hx])) (by omega)
      exact ⟨s2, r2, by rw [andThen_ok, e2], hr2, h2, Nat.le_trans hl2 hl1, hs1.trans hs2⟩

include hU hok in
/-- one call -/
theorem runTagPad_ok (h : TagPadRep E c cm isNone enc pre U s ix st fl) (o : TagPadOp V M) (ho : TagPadOpOK E c cm isNone enc U o)
    (hfl : fl + 1 < 256 ^ 5) (hlen : st.keys.length + 1 < 256 ^ 8) :
    ∃ fl', (runTagPad E c cm isNone pre ix s o).1 = (tagPadAnswer enc st o.call).1 ∧
      TagPadRep E c cm isNone enc pre U (runTagPad E c cm isNone pre ix s o).2 ix (tagPadAnswer enc st o.call).2 fl' ∧ fl' ≤ fl + 1 ∧
      (tagPadAnswer enc st o.call).2.keys.length ≤ st.keys.length + 1 ∧
      SameOff (tagPadNames pre) s (runTagPad E c cm isNone pre ix s o).2 := by
  have hok' : NamesOK E ix.name := by rw [h.name]; exact hok
  cases o with
  | set mode key v n eo =>
    obtain ⟨h1, h2, h3, ⟨b, hb⟩, h5⟩ := ho
    obtain ⟨s', fl', r, e, hr, h', hf, hl, hs⟩ := run_metaPadSet hU hok h hfl hlen h1 h2 h3 hb h5 eo
    simp only [runTagPad, e, TagPadOp.call]
    exact ⟨fl', hr, h', hf, hl, hs⟩
  | get key =>
    have e := run_metaPadGet (mode := .fake) hU h ho
    simp only [runTagPad, e, TagPadOp.call, tagPadAnswer]
    refine ⟨fl, ?_, h, by omega, by omega, SameOff.refl _ _⟩
    cases st.val key.text <;> rfl
  | note key =>
    obtain ⟨_, h1, _, _, _, _, _⟩ := runMeta_ok (c := cm) hU.inj hok' h.idx (.get key) ho hfl hlen
    have e : ((metaGet E ix key).run E s).2 = s := by
      by_cases hm : key.text ∈ st.keys
      · obtain ⟨i, hi⟩ := List.mem_iff_getElem?.1 hm
        rw [run_metaGet h.idx.rep hok' ho.1 hi]
      · rw [run_metaGet_absent h.idx.rep hok' ho.1 (fun k' hk' he => hm (hU.inj _ _ (h.idx.used k' hk') ho.2 he ▸ hk'))]
    simp only [runTagPad, e, TagPadOp.call, tagPadAnswer]
    simp only [runMeta, metaAnswer, MetaOp.call] at h1
    refine ⟨fl, ?_, h, by omega, by omega, SameOff.refl _ _⟩
    have : toExcept ((metaGet E ix key).run E s).1 = some (metaFind enc ⟨st.keys, st.note⟩ key.text) := by
      unfold answer at h1
      cases hx : toExcept ((metaGet E ix key).run E s).1 with
      | none => rw [hx] at h1; cases h1
      | some r => rw [hx] at h1; injection h1 with h1; rw [h1]
    simp only [tagRes, this, metaFind]
    rfl
  | del mode key =>
    obtain ⟨rfl, h2, h3⟩ := ho
    obtain ⟨s', r, e, hr, h', hl, hs⟩ := run_metaPadDel hU hok h hfl hlen h2 h3
    simp only [runTagPad, e, TagPadOp.call, tagPadAnswer]
    exact ⟨fl, by simp only [tagRes, hr], h', by omega, by omega, hs⟩
  | keys =>
    simp only [runTagPad, run_indexUpdate h.idx.rep.rep hok', TagPadOp.call, tagPadAnswer]
    exact ⟨fl, rfl, h, by omega, by omega, SameOff.refl _ _⟩
  | notes =>
    obtain ⟨_, h1, _, _, _, _, _⟩ := runMeta_ok (c := cm) hU.inj hok' h.idx .items trivial hfl hlen
    have e' : (metaItems E cm ix).run E s = (.ok (st.keys.map fun k => (k, st.note k)), s) :=
      h.idx.listing hok' (fun i => do
        let k ← loadKey E ix i
        let v ← loadVal cm ix i
        pure (k, v)) (fun k => (k, st.note k)) (fun i k hi hb => by
          rw [run_bind, h.idx.loadKey hok' hi hb, andThen_ok, run_bind, h.idx.loadVal hok' hi hb]; rfl)
    simp only [runTagPad, e', TagPadOp.call, tagPadAnswer]
    exact ⟨fl, rfl, h, by omega, by omega, SameOff.refl _ _⟩
  | clear mode =>
    obtain rfl : mode = .fake := ho
    obtain ⟨s', r, e, hr, h', hl, hs⟩ := run_metaPadDels hU hok st.keys h (fun k hk => h.idx.used k hk) hfl hlen
    have e2 : (metaPadClear E ⟨pre, ix, .fake⟩).run E s = (r, s') := by
      rw [metaPadClear, run_bind, run_indexUpdate h.idx.rep.rep hok', andThen_ok, e]
    simp only [runTagPad, e2, TagPadOp.call, tagPadAnswer]
    exact ⟨fl, by simp only [tagRes, hr], h', by omega, by omega, hs⟩

include hU hok in
/-- a history -/
theorem playTagPad_ok (ops : List (TagPadOp V M)) (h : TagPadRep E c cm isNone enc pre U s ix st fl)
    (ho : ∀ o ∈ ops, TagPadOpOK E c cm isNone enc U o) (hfl : fl + ops.length < 256 ^ 5) (hlen : st.keys.length + ops.length < 256 ^ 8) :
    ∃ fl', (playTagPad E c cm isNone pre ix ops s).1 = (tagPadPlay enc (ops.map TagPadOp.call) st).1 ∧
      TagPadRep E c cm isNone enc pre U (playTagPad E c cm isNone pre ix ops s).2 ix (tagPadPlay enc (ops.map TagPadOp.call) st).2 fl' ∧
      fl' ≤ fl + ops.length ∧ (tagPadPlay enc (ops.map TagPadOp.call) st).2.keys.length ≤ st.keys.length + ops.length ∧
      SameOff (tagPadNames pre) s (playTagPad E c cm isNone pre ix ops s).2 := by
  induction ops generalizing s st fl with
  | nil => exact ⟨fl, rfl, h, by simp, by simp [tagPadPlay], SameOff.refl _ _⟩
  | cons o t ih =>
    simp only [List.length_cons] at hfl hlen
    obtain ⟨fl1, h1, h2, h3, h4, h5⟩ := runTagPad_ok hU hok h o (ho o (by simp)) (by omega) (by omega)
    obtain ⟨fl2, g1, g2, g3, g4, g5⟩ := ih h2 (fun o' ho' => ho o' (by simp [ho'])) (by omega) (by omega)
    refine ⟨fl2, ?_, g2, by simp only [List.length_cons]; omega, ?_, h5.trans g5⟩
    · simp only [playTagPad, List.map_cons, tagPadPlay, h1, g1]
    · simp only [List.map_cons, tagPadPlay, List.length_cons]; omega

end
end Verif.Lemmas

namespace Verif.Lemmas
open Verif Verif.Model Verif.Spec
variable {V M : Type} {E : Env} {c : Codec V} {cm : Codec M} {isNone : V → Bool} {enc : M → Bytes} {pre : Str} {U : Str → Prop}

/-- if all keys have metadata, removing all leaves none -/
theorem tagPadDels_noted (l : List Str) (st : TagPadState V M) (hnd : l.Nodup) (hk : st.keys.Nodup) (hl : ∀ k, k ∈ l ↔ k ∈ st.keys)
    (hn : ∀ k ∈ st.keys, st.note k ≠ none) :
    (tagPadDels st l).1 = .ok () ∧ (tagPadDels st l).2.keys = [] ∧ (tagPadDels st l).2.note = st.note := by
  induction l generalizing st with
  | nil =>
    refine ⟨rfl, ?_, rfl⟩
    show st.keys = []
    cases h : st.keys with
    | nil => rfl
    | cons k t => exact absurd ((hl k).2 (by rw [h]; exact List.mem_cons_self)) (by simp)
  | cons k t ih =>
    have hm : k ∈ st.keys := (hl k).1 List.mem_cons_self
    obtain ⟨j, hj⟩ := mem_iff_position.1 hm
    have hd : (ixDel st.keys k).2 = swapRemove st.keys j := by unfold ixDel; rw [hj]
    have hiff : ∀ x, x ∈ swapRemove st.keys j ↔ x ∈ st.keys ∧ x ≠ k := fun x => mem_swapRemove_iff hk (position_some hj)
    have he : tagPadDel st k = (.ok (), ⟨(ixDel st.keys k).2, st.note, upd st.val k none⟩) := by
      simp [tagPadDel, hm, hn k hm]
    rw [tagPadDels, he]
    refine ih ⟨(ixDel st.keys k).2, st.note, upd st.val k none⟩ (List.nodup_cons.1 hnd).2 ?_ (fun x => ?_) (fun x hx => ?_)
    · simp only [hd]; exact nodup_swapRemove hk (position_lt hj)
    · simp only [hd]
      rw [hiff, ← hl]
      constructor
      · exact fun h => ⟨by simp [h], fun e => (List.nodup_cons.1 hnd).1 (e ▸ h)⟩
      · rintro ⟨h1, h2⟩
        simpa [h2] using h1
    · simp only [hd] at hx
      exact hn x ((hiff x).1 hx).1

section
variable (hU : KeysOK E pre U) (hok : NamesOK E (indexName pre)) {s : Store} {ix : Index} {st : TagPadState V M} {fl : Nat}

include hU hok in
/-- `close`, if all keys have metadata -/
theorem run_metaPadClose (h : TagPadRep E c cm isNone enc pre U s ix st fl) (hfl : fl + 1 < 256 ^ 5) (hlen : st.keys.length + 1 < 256 ^ 8)
    (hn : ∀ k ∈ st.keys, st.note k ≠ none) :
    ∃ s', (metaPadClose E ⟨pre, ix, .fake⟩).run E s = (.ok (), s') ∧ s'.WF ∧ (∀ x, tagPadNames pre x → s'.content x = none) ∧
      SameOff (tagPadNames pre) s s' := by
  have hok' : NamesOK E ix.name := by rw [h.name]; exact hok
  obtain ⟨s1, r, e, hr, h1, hl, hs⟩ := run_metaPadDels hU hok st.keys h (fun k hk => h.idx.used k hk) hfl hlen
  obtain ⟨n1, n2, n3⟩ := tagPadDels_noted st.keys st h.idx.rep.rep.nodup h.idx.rep.rep.nodup (fun _ => Iff.rfl) hn
  rw [n1] at hr
  have hr' : r = .ok () := by cases r <;> simp [toExcept] at hr; rfl
  subst hr'
  have hmn : ∀ k, (tagPadDels st st.keys).2.val k = none := fun k => by
    by_contra hc
    have := (h1.live k).2 hc
    rw [n2] at this
    simp at this
  have hp : PadRep E c isNone pre U s1 ix (fun _ => none) [] fl :=
    ⟨h.name, by have := h1.idx.rep.rep; simp only [n2] at this; exact this, by rw [← h.name]; exact h1.idx.lock, by simp, by simp,
      fun k hk _ => h1.noval k hk (hmn k), by simp⟩
  obtain ⟨s2, e2, w2, h2, hs2⟩ := run_padIndexClose hok h1.idx.wf hp
  refine ⟨s2, ?_, w2, ?_, hs.trans (hs2.mono fun x hx => ?_)⟩
  · rw [metaPadClose, run_bind, run_indexUpdate h.idx.rep.rep hok', andThen_ok, run_bind, e, andThen_ok, e2]
  · rintro x (⟨sl, rfl⟩ | ⟨k, hk, rfl⟩)
    · cases sl with
      | val i =>
        have hx : ¬ padTouch pre (Slot.addr (indexName pre) (.val i)) := by
          rintro ((h | h) | ⟨k, hk, h⟩)
          · rw [← addr_val] at h; exact val_not_index _ _ h
          · exact not_lockNames (by rfl) h
          · exact slot_ne_pad hk _ h
        rw [(hs2 _ hx).2]
        have := h1.idx.rep.noval i (by simp only [n2]; simp)
        rwa [h.name, addr_val] at this
      | mem => exact h2 _ (Or.inl (Or.inl ⟨_, rfl, rfl⟩))
      | hash _ => exact h2 _ (Or.inl (Or.inl ⟨_, rfl, rfl⟩))
      | key _ => exact h2 _ (Or.inl (Or.inl ⟨_, rfl, rfl⟩))
      | count => exact h2 _ (Or.inl (Or.inr ⟨_, rfl, rfl⟩))
      | marker _ => exact h2 _ (Or.inl (Or.inr ⟨_, rfl, rfl⟩))
      | lock _ => exact h2 _ (Or.inl (Or.inr ⟨_, rfl, rfl⟩))
    · exact h2 _ (Or.inr ⟨k, hk, rfl⟩)
  · rcases hx with hx | hx
    · obtain ⟨sl, hx⟩ := tag_slot hx
      exact Or.inl ⟨sl, hx⟩
    · exact Or.inr hx

include hU hok in
/-- `close`, if neither the first key nor the last has metadata -/
theorem run_metaPadClose_bad (h : TagPadRep E c cm isNone enc pre U s ix st fl) (hfl : fl + 1 < 256 ^ 5) (hlen : st.keys.length + 1 < 256 ^ 8)
    {k : Str} {t : List Str} (hk : st.keys = k :: t) (h1 : st.note k = none) (h2 : st.keys.getLast?.bind st.note = none) :
    ∃ s', (metaPadClose E ⟨pre, ix, .fake⟩).run E s = (.err .keyError, s') ∧
      TagPadRep E c cm isNone enc pre U s' ix ⟨(ixDel st.keys k).2, st.note, upd st.val k none⟩ fl ∧ SameOff (tagPadNames pre) s s' := by
  have hok' : NamesOK E ix.name := by rw [h.name]; exact hok
  obtain ⟨s1, r, e, hr, g, hl, hs⟩ := run_metaPadDels hU hok st.keys h (fun k hk => h.idx.used k hk) hfl hlen
  have hd : tagPadDels st st.keys = (.error .keyError, ⟨(ixDel st.keys k).2, st.note, upd st.val k none⟩) := by
    have hm : k ∈ st.keys := by rw [hk]; exact List.mem_cons_self
    have : tagPadDel st k = (.error .keyError, ⟨(ixDel st.keys k).2, st.note, upd st.val k none⟩) := by
      simp only [tagPadDel, if_pos hm, if_pos (And.intro h1 h2)]
    have h' : ∀ l, l = k :: t → tagPadDels st l = (.error .keyError, ⟨(ixDel st.keys k).2, st.note, upd st.val k none⟩) := by
      rintro l rfl
      rw [tagPadDels, this]
    exact h' _ hk
  rw [hd] at hr g
  have hr' : r = .err .keyError := by cases r <;> simp [toExcept] at hr; rw [hr]
  subst hr'
  exact ⟨s1, by rw [metaPadClose, run_bind, run_indexUpdate h.idx.rep.rep hok', andThen_ok, run_bind, e]; rfl, g, hs⟩

include hok in
/-- a prefix that is in use can't be created -/
theorem run_metaPadInit_exists (h : TagPadRep E c cm isNone enc pre U s ix st fl) (mode : LockMode) :
    (metaPadInit pre true mode).run E s = (.err .fileExists, s) := by
  have hok' : NamesOK E ix.name := by rw [h.name]; exact hok
  have e : (tagIndexInit (indexName pre) true).run E s = (.err .fileExists, s) := by
    rw [← h.name]
    unfold tagIndexInit
    simp only [Bool.true_eq_false, if_false]
    rw [run_bind, run_create_exists (by omega) hok'.mem h.idx.rep.rep.mem]; rfl
  rw [metaPadInit, run_bind, metaIndexInit, run_bind, e]
  rfl

include hok in
theorem run_metaPadInit_create (w : s.WF) (hno : ∀ x, tagPadNames pre x → s.content x = none) (mode : LockMode) :
    ∃ ix s', (metaPadInit pre true mode).run E s = (.ok ⟨pre, ix, mode⟩, s') ∧
      TagPadRep E c cm isNone enc pre U s' ix ⟨[], fun _ => none, fun _ => none⟩ 0 ∧ SameOff (tagPadNames pre) s s' := by
  obtain ⟨ix, s0, e, hname, w0, h0, hc0, hs0⟩ := run_metaIndexInit_create (E := E) w (fun sl => hno _ (Or.inl ⟨sl, rfl⟩)) hok
  refine ⟨ix, s0, ?_, ⟨hname, ⟨w0, h0, by rw [hname]; exact hc0, by simp, by simp⟩, by simp, by simp, ?_⟩, hs0.mono fun x hx => ?_⟩
  · rw [metaPadInit, run_bind, e]; rfl
  · intro k hk _
    rw [(hs0 _ fun hx => by obtain ⟨sl, hx⟩ := tagPad_of_index hx; exact slot_ne_pad hk sl hx.symm).2]
    exact hno _ (Or.inr ⟨k, hk, rfl⟩)
  · exact Or.inl (tagPad_of_index hx)

end
end Verif.Lemmas
