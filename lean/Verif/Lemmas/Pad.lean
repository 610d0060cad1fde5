import Verif.Lemmas.TagIndexHist
import Verif.Model.Notepad
import Verif.Spec.Notepad
/-! # Notepads, call by call -/
namespace Verif.Lemmas
open Verif Verif.Model Verif.Spec
variable {V : Type} {E : Env} {c : Codec V} {isNone : V → Bool}

/-- the codec brings `v` back -/
def Stable (c : Codec V) (isNone : V → Bool) (v : V) (b : Bytes) : Prop :=
  c.encode v = .ok b ∧ b ≠ [] ∧ c.decode b = .ok v ∧ isNone v = false

/-- the key texts in play on a notepad -/
structure KeysOK (E : Env) (pre : Str) (U : Str → Prop) : Prop where
  nonempty : ∀ k, U k → k ≠ []
  free : ∀ k, U k → ¬ indexWord <+: k
  ok : ∀ k, U k → E.okName (padAddr pre k) = true
  inj : ∀ a b, U a → U b → E.sha (E.utf8 a) = E.sha (E.utf8 b) → a = b

/-- the addresses a notepad may touch -/
def padTouch (pre x : Str) : Prop := tagNames (indexName pre) x ∨ ∃ k, ¬ indexWord <+: k ∧ x = padAddr pre k

theorem slot_ne_pad {pre k : Str} (hk : ¬ indexWord <+: k) (sl : Slot) : sl.addr (indexName pre) ≠ padAddr pre k := by
  intro h
  apply hk
  simp only [Slot.addr, indexName, padAddr, List.append_assoc] at h
  have := List.append_cancel_left h
  exact ⟨sl.suffix, by simpa [indexWord] using this⟩

theorem pad_inj {pre k k' : Str} (h : padAddr pre k = padAddr pre k') : k = k' := by
  simpa [padAddr] using h

theorem tag_slot {name x : Str} (h : tagNames name x) : ∃ sl : Slot, x = sl.addr name := by
  rcases h with ⟨sl, _, h⟩ | ⟨sl, _, h⟩ <;> exact ⟨sl, h⟩

theorem pad_not_tag {pre k : Str} (hk : ¬ indexWord <+: k) : ¬ tagNames (indexName pre) (padAddr pre k) := by
  intro h
  obtain ⟨sl, h⟩ := tag_slot h
  exact slot_ne_pad hk sl h.symm

/-- the memory of a notepad holding `m`, its index listing `keys` -/
structure PadRep (E : Env) (c : Codec V) (isNone : V → Bool) (pre : Str) (U : Str → Prop) (s : Store) (ix : Index)
    (m : Str → Option V) (keys : List Str) (fl : Nat) : Prop where
  name : ix.name = indexName pre
  rep : IxRep E s ix keys
  lock : LockClean s (indexName pre) fl
  live : ∀ k, k ∈ keys ↔ m k ≠ none
  val : ∀ k v, m k = some v → ∃ b, s.content (padAddr pre k) = some b ∧ Stable c isNone v b
  noval : ∀ k, ¬ indexWord <+: k → m k = none → s.content (padAddr pre k) = none
  used : ∀ k ∈ keys, U k

theorem PadRep.same {pre : Str} {U : Str → Prop} {s s' : Store} {ix : Index} {m : Str → Option V} {keys : List Str}
    {fl : Nat} (h : PadRep E c isNone pre U s ix m keys fl) (hU : KeysOK E pre U) {P : Str → Prop}
    (hs : SameOff P s s') (hP : ∀ x, padTouch pre x → ¬ P x) : PadRep E c isNone pre U s' ix m keys fl := by
  refine ⟨h.name, h.rep.same hs fun sl hsl => ?_, h.lock.same (hs.mono fun x hx hl => hP x (Or.inl (Or.inr hl)) hx),
    h.live, ?_, ?_, h.used⟩
  · rw [h.name]; exact hP _ (Or.inl (Or.inl ⟨sl, hsl, rfl⟩))
  · intro k v hk
    have hu := hU.free k (h.used k ((h.live k).2 (by rw [hk]; simp)))
    obtain ⟨b, h1, h2⟩ := h.val k v hk
    exact ⟨b, by rw [(hs _ (hP _ (Or.inr ⟨k, hu, rfl⟩))).2]; exact h1, h2⟩
  · intro k hk hm
    rw [(hs _ (hP _ (Or.inr ⟨k, hk, rfl⟩))).2]; exact h.noval k hk hm

theorem run_memorize {s : Store} (w : s.WF) {v : V} {a : Str} {b : Bytes} {existsOk : Bool}
    (hok : E.okName a = true) (henc : c.encode v = .ok b) (hb : b ≠ [])
    (hfree : existsOk = true ∨ s.content a = none) :
    ∃ s', (memorize c v a existsOk).run E s = (.ok a, s') ∧ Eff s s' a (some b) := by
  obtain ⟨i, s1, s', e1, e2, n, f, _⟩ := run_put w hb hok (E := E)
  refine ⟨s', ?_, f⟩
  rw [memorize]
  have tail : (do
      let encoded ← Prog.ofExcept (c.encode v)
      let block ← openBlock a encoded.length true true
      write block encoded
      pure a : Prog Str).run E s = (.ok a, s') := by
    rw [henc, run_bind, run_ofExcept_ok, andThen_ok, run_bind, e1, andThen_ok, run_bind, e2]; rfl
  cases existsOk with
  | true => exact tail
  | false =>
    have hn : s.names a = none := by
      rcases hfree with h | h
      · simp at h
      · exact content_none.1 h
    simp only [if_true]
    rw [run_bind, run_existsBlock s hok, andThen_ok, hn]
    exact tail

/-- storing `v` raises `e`: it cannot be encoded, or its encoding is empty -/
def Unstorable (c : Codec V) (v : V) (e : PyErr) : Prop := c.encode v = .error e ∨ (c.encode v = .ok [] ∧ e = .valueError)

theorem run_memorize_bad {s : Store} {v : V} {a : Str} {e : PyErr} {existsOk : Bool}
    (hok : E.okName a = true) (henc : Unstorable c v e) (hfree : existsOk = true ∨ s.content a = none) :
    (memorize c v a existsOk).run E s = (.err e, s) := by
  rw [memorize]
  have tail : (do
      let encoded ← Prog.ofExcept (c.encode v)
      let block ← openBlock a encoded.length true true
      write block encoded
      pure a : Prog Str).run E s = (.err e, s) := by
    rcases henc with henc | ⟨henc, rfl⟩
    · rw [henc, run_bind, run_ofExcept_err, andThen_err]
    · rw [henc, run_bind, run_ofExcept_ok, andThen_ok, run_bind, List.length_nil, run_openBlock_zero, andThen_err]
  cases existsOk with
  | true => exact tail
  | false =>
    have hn : s.names a = none := by
      rcases hfree with h | h
      · simp at h
      · exact content_none.1 h
    simp only [if_true]
    rw [run_bind, run_existsBlock s hok, andThen_ok, hn]
    exact tail

theorem not_reserved {key : Key} (h : ¬ indexWord <+: key.text) : reserved key = false := by
  cases key with
  | str s =>
    simp only [reserved, Key.text] at h ⊢
    by_contra hc
    exact h (List.isPrefixOf_iff_prefix.1 (by simpa using hc))
  | other _ => rfl
  | bytes _ _ => rfl

theorem not_reservedExact {key : Key} (h : ¬ indexWord <+: key.text) : reservedExact key = false := by
  cases key with
  | str s =>
    simp only [reservedExact, Key.text] at h ⊢
    by_contra hc
    simp only [Bool.not_eq_false, Bool.or_eq_true, beq_iff_eq] at hc
    rcases hc with hc | hc
    · exact h ⟨[], by simp [hc]⟩
    · exact h ⟨"_lock".toList, by rw [hc]; rfl⟩
  | other _ => rfl
  | bytes _ _ => rfl

/-- the outcome of adding to the index -/
theorem run_padIndexAdd {pre : Str} {U : Str → Prop} (hU : KeysOK E pre U) (hok : NamesOK E (indexName pre))
    {s : Store} (w : s.WF) {ix : Index} {m : Str → Option V} {keys : List Str} {fl : Nat}
    (h : PadRep E c isNone pre U s ix m keys fl) (hfl : fl + keys.length + 2 < 256 ^ 5) {p : Pad} (hp : p.pre = pre)
    (hpi : p.index = .tag ix) (hm : p.mode.Runs) {key : Key} (hk : key.hashed E = E.utf8 key.text) (hUk : U key.text)
    (eo : Bool) :
    ∃ s' fl', s'.WF ∧ (padIndexAdd E p key false eo).run E s =
        (if eo = false ∧ m key.text ≠ none then .err .fileExists else .ok (), s') ∧
      IxRep E s' ix (ixAdd keys key.text eo).2 ∧ LockClean s' ix.name fl' ∧ fl' ≤ fl + 1 ∧
      SameOff (tagNames (indexName pre)) s s' := by
  have hp8 : (256 : Nat) ^ 5 < 256 ^ 8 := by decide
  obtain ⟨o, s', fl', e, ho, w', h', hc', hfl', hs⟩ := run_indexAdd w h.rep (by rw [h.name]; exact h.lock) (by omega)
    (by rw [h.name]; exact hok) hm hk (hU.nonempty _ hUk) (by omega)
    (fun k' hk' => hU.inj _ _ (h.used k' hk') hUk) eo
  refine ⟨s', fl', w', ?_, h', hc', hfl', by rw [← h.name]; exact hs⟩
  simp only [padIndexAdd, hpi, Bool.false_eq_true, if_false]
  rw [run_bind, e]
  unfold ixAdd at ho
  cases hpos : position key.text keys with
  | some i =>
    have hne := (h.live key.text).1 (List.mem_of_getElem? (position_some hpos))
    rw [hpos] at ho
    cases eo with
    | true =>
      rw [if_neg (by simp)]
      cases o <;> simp [toExcept] at ho
      rfl
    | false =>
      rw [if_pos ⟨rfl, hne⟩]
      cases o <;> simp [toExcept] at ho
      rw [ho]; rfl
  | none =>
    have hne : m key.text = none := by
      by_contra hc
      exact position_none.1 hpos ((h.live key.text).2 hc)
    rw [hpos] at ho
    rw [if_neg (by simp [hne])]
    cases o <;> simp [toExcept] at ho
    rfl

theorem mem_ixAdd_iff {keys : List Str} {k x : Str} {eo : Bool} : x ∈ (ixAdd keys k eo).2 ↔ x ∈ keys ∨ x = k := by
  refine ⟨mem_ixAdd, fun h => ?_⟩
  unfold ixAdd
  cases hp : position k keys with
  | some i =>
    rcases h with h | h
    · exact h
    · rw [h]; exact List.mem_of_getElem? (position_some hp)
  | none => simpa using h

theorem ixAdd_of_mem {keys : List Str} {k : Str} {eo : Bool} (h : k ∈ keys) : (ixAdd keys k eo).2 = keys := by
  unfold ixAdd
  cases hp : position k keys with
  | some i => rfl
  | none => exact absurd h (position_none.1 hp)

theorem length_ixAdd_new {keys : List Str} {k : Str} {eo : Bool} : (ixAdd keys k eo).2.length ≤ keys.length + 1 :=
  length_ixAdd keys k eo

/-- `set` -/
theorem run_padSet {pre : Str} {U : Str → Prop} (hU : KeysOK E pre U) (hok : NamesOK E (indexName pre))
    {s : Store} (w : s.WF) {ix : Index} {m : Str → Option V} {keys : List Str} {fl : Nat}
    (h : PadRep E c isNone pre U s ix m keys fl) (hfl : fl + keys.length + 2 < 256 ^ 5) {p : Pad} (hp : p.pre = pre)
    (hpi : p.index = .tag ix) (hm : p.mode.Runs) {key : Key} (hk : key.hashed E = E.utf8 key.text) (hUk : U key.text)
    {v : V} {b : Bytes} (hv : Stable c isNone v b) (eo : Bool) :
    ∃ s' keys' fl', (padSet E c p key v eo).run E s =
        (if eo = false ∧ m key.text ≠ none then .err .keyError else .ok (), s') ∧ s'.WF ∧
      PadRep E c isNone pre U s' ix (if eo = false ∧ m key.text ≠ none then m else upd m key.text (some v)) keys' fl' ∧
      fl' + keys'.length ≤ fl + keys.length + 2 ∧ SameOff (padTouch pre) s s' := by
  obtain ⟨s1, fl1, w1, e1, h1, hc1, hfl1, hs1⟩ := run_padIndexAdd hU hok w h hfl hp hpi hm hk hUk eo
  have hfree := hU.free _ hUk
  have hlen := length_ixAdd keys key.text eo
  have hcont : ∀ k, ¬ indexWord <+: k → s1.content (padAddr pre k) = s.content (padAddr pre k) := fun k hk =>
    (hs1 _ (pad_not_tag hk)).2
  have hs1' : SameOff (padTouch pre) s s1 := hs1.mono fun x => Or.inl
  unfold padSet
  rw [not_reserved hfree]
  simp only [Bool.false_eq_true, if_false]
  rw [run_bind, run_attempt, run_bind, e1]
  by_cases hcase : eo = false ∧ m key.text ≠ none
  · simp only [if_pos hcase]
    have hmem := (h.live key.text).2 hcase.2
    rw [ixAdd_of_mem hmem] at h1
    refine ⟨s1, keys, fl1, rfl, w1, ⟨h.name, h1, by rw [← h.name]; exact hc1, h.live, ?_, ?_, h.used⟩, by omega, hs1'⟩
    · intro k v hk
      have hu := hU.free k (h.used k ((h.live k).2 (by rw [hk]; simp)))
      rw [hcont k hu]; exact h.val k v hk
    · intro k hk hm
      rw [hcont k hk]; exact h.noval k hk hm
  · simp only [if_neg hcase]
    obtain ⟨s2, e2, f2⟩ := run_memorize (E := E) (c := c) w1 (v := v) (a := padAddr p.pre key.text) (existsOk := eo)
      (by rw [hp]; exact hU.ok _ hUk) hv.1 hv.2.1 (by
        cases eo with
        | true => exact Or.inl rfl
        | false =>
          right
          rw [hp, hcont _ hfree]
          exact h.noval _ hfree (by by_contra hne; exact hcase ⟨rfl, hne⟩))
    rw [hp] at f2 e2
    have hpt : padTouch pre (padAddr pre key.text) := Or.inr ⟨_, hfree, rfl⟩
    refine ⟨s2, _, fl1, ?_, f2.wf, ⟨h.name, h1.same (f2.sameOff (P := fun x => x = padAddr pre key.text) rfl) ?_, ?_, ?_,
      ?_, ?_, ?_⟩, by have := length_ixAdd keys key.text eo; omega, hs1'.trans (f2.sameOff hpt)⟩
    · rw [andThen_ok, run_bind, hp, e2]; rfl
    · intro sl _; rw [h.name]; exact slot_ne_pad hfree sl
    · rw [h.name] at hc1
      exact hc1.same ((f2.sameOff (P := fun x => x = padAddr pre key.text) rfl).mono
        (fun x hx hl => by obtain ⟨sl, _, he⟩ := hl; exact slot_ne_pad hfree sl (he.symm.trans hx)))
    · intro k
      rw [mem_ixAdd_iff, h.live k, upd]
      by_cases hkk : k = key.text
      · simp [hkk]
      · simp [hkk]
    · intro k v' hk'
      rw [upd] at hk'
      by_cases hkk : k = key.text
      · rw [if_pos hkk] at hk'; injection hk' with hk'; subst hk'
        exact ⟨b, by rw [f2.content, hkk, if_pos rfl], hv⟩
      · rw [if_neg hkk] at hk'
        obtain ⟨b', hb1, hb2⟩ := h.val k v' hk'
        have hu := hU.free k (h.used k ((h.live k).2 (by rw [hk']; simp)))
        exact ⟨b', by rw [f2.content, if_neg (fun he => hkk (pad_inj he)), hcont k hu]; exact hb1, hb2⟩
    · intro k hk hm
      rw [upd] at hm
      by_cases hkk : k = key.text
      · rw [if_pos hkk] at hm; simp at hm
      · rw [if_neg hkk] at hm
        rw [f2.content, if_neg (fun he => hkk (pad_inj he)), hcont k hk]
        exact h.noval k hk hm
    · intro k hk
      rcases mem_ixAdd hk with hk | hk
      · exact h.used k hk
      · rw [hk]; exact hUk

theorem PadRep.get {pre : Str} {U : Str → Prop} (hU : KeysOK E pre U) {s : Store} {ix : Index} {m : Str → Option V}
    {keys : List Str} {fl : Nat} (h : PadRep E c isNone pre U s ix m keys fl) {p : Pad} (hp : p.pre = pre) {key : Key}
    (hUk : U key.text) : (padGet c isNone p key).run E s =
      (match m key.text with | some v => .ok v | none => .err .fileNotFound, s) := by
  have hok : E.okName (padAddr p.pre key.text) = true := by rw [hp]; exact hU.ok _ hUk
  unfold padGet remember
  cases hm : m key.text with
  | some v =>
    obtain ⟨b, hb, _, _, hd, hn⟩ := h.val _ _ hm
    rw [run_bind, run_bind, run_fetchBlockBytes hok (by rw [hp]; exact hb), andThen_ok, hd, run_ofExcept_ok, andThen_ok]
    simp [hn]
  | none =>
    have hb := h.noval _ (hU.free _ hUk) hm
    rw [run_bind, run_bind, fetchBlockBytes, run_bind, run_attach_none hok (by rw [hp]; exact content_none.1 hb)]
    rfl

/-- what reading a block with content `o` gives -/
def readAs (c : Codec V) (isNone : V → Bool) : Option Bytes → Outcome V
  | none => .err .fileNotFound
  | some b => match c.decode b with
    | .ok v => if isNone v then .err .keyError else .ok v
    | .error e => .err e

theorem run_padGet {s : Store} {p : Pad} {key : Key} (hok : E.okName (padAddr p.pre key.text) = true) :
    (padGet c isNone p key).run E s = (readAs c isNone (s.content (padAddr p.pre key.text)), s) := by
  unfold padGet remember
  cases hb : s.content (padAddr p.pre key.text) with
  | none =>
    rw [run_bind, run_bind, fetchBlockBytes, run_bind, run_attach_none hok (content_none.1 hb)]
    rfl
  | some b =>
    rw [run_bind, run_bind, run_fetchBlockBytes hok hb, andThen_ok]
    simp only [readAs]
    cases hd : c.decode b with
    | error e => rw [run_ofExcept_err]; rfl
    | ok v =>
      rw [run_ofExcept_ok, andThen_ok]
      dsimp only
      split <;> rfl

/-- `del` -/
theorem run_padDel {pre : Str} {U : Str → Prop} (hU : KeysOK E pre U) (hok : NamesOK E (indexName pre))
    {s : Store} (w : s.WF) {ix : Index} {m : Str → Option V} {keys : List Str} {fl : Nat}
    (h : PadRep E c isNone pre U s ix m keys fl) (hfl : fl + keys.length + 2 < 256 ^ 5) {p : Pad} (hp : p.pre = pre)
    (hpi : p.index = .tag ix) (hm : p.mode.Runs) {key : Key} (hk : key.hashed E = E.utf8 key.text) (hUk : U key.text) :
    ∃ s' keys' fl', (padDel E p key).run E s = (if m key.text = none then .err .keyError else .ok (), s') ∧ s'.WF ∧
      PadRep E c isNone pre U s' ix (upd m key.text none) keys' fl' ∧
      fl' + keys'.length ≤ fl + keys.length ∧ SameOff (padTouch pre) s s' := by
  have hfree := hU.free _ hUk
  have hokp : E.okName (padAddr p.pre key.text) = true := by rw [hp]; exact hU.ok _ hUk
  have hpt : padTouch pre (padAddr pre key.text) := Or.inr ⟨_, hfree, rfl⟩
  unfold padDel
  rw [not_reservedExact hfree]
  simp only [Bool.false_eq_true, if_false]
  cases hmk : m key.text with
  | none =>
    have hb := h.noval _ hfree hmk
    have hu : upd m key.text none = m := by
      funext x; unfold upd; by_cases hx : x = key.text
      · rw [if_pos hx, hx, hmk]
      · rw [if_neg hx]
    rw [hu]
    refine ⟨s, keys, fl, ?_, w, h, Nat.le_refl _, SameOff.refl _ _⟩
    rw [run_bind, run_attempt, run_bind, run_deleteBlock_none hokp (by rw [hp]; exact content_none.1 hb)]
    rfl
  | some v =>
    obtain ⟨b, hb, _⟩ := h.val _ _ hmk
    obtain ⟨i, hi, _⟩ := names_of_content hb
    have f1 := eff_unlinked w (padAddr pre key.text)
    have h1 : IxRep E (s.unlinked (padAddr pre key.text)) ix keys :=
      h.rep.same (f1.sameOff (P := fun x => x = padAddr pre key.text) rfl)
        (fun sl _ => by rw [h.name]; exact slot_ne_pad hfree sl)
    have hc1 : LockClean (s.unlinked (padAddr pre key.text)) (indexName pre) fl :=
      h.lock.same ((f1.sameOff (P := fun x => x = padAddr pre key.text) rfl).mono
        (fun x hx hl => by obtain ⟨sl, _, he⟩ := hl; exact slot_ne_pad hfree sl (he.symm.trans hx)))
    obtain ⟨o, s2, fl2, e2, ho, _, w2, h2, hc2, hfl2, hs2⟩ := run_indexDel f1.wf h1 (by rw [h.name]; exact hc1) (by omega)
      (by rw [h.name]; exact hok) hm hk (fun k' hk' => hU.inj _ _ (h.used k' hk') hUk)
    have hmem : key.text ∈ keys := (h.live _).2 (by rw [hmk]; simp)
    obtain ⟨j, hj⟩ : ∃ j, position key.text keys = some j := by
      cases hp : position key.text keys with
      | none => exact absurd hmem (position_none.1 hp)
      | some i => exact ⟨i, rfl⟩
    have hd : ixDel keys key.text = (.ok j, swapRemove keys j) := by unfold ixDel; rw [hj]
    rw [hd] at ho h2
    have hoo : ∃ r, o = .ok r := by
      cases o <;> simp [toExcept, Except.map] at ho
      exact ⟨_, rfl⟩
    obtain ⟨r, rfl⟩ := hoo
    have hl := length_swapRemove (position_lt hj)
    have hlt := position_lt hj
    rw [h.name] at hs2
    have hiff : ∀ x, x ∈ swapRemove keys j ↔ x ∈ keys ∧ x ≠ key.text := fun x =>
      mem_swapRemove_iff h.rep.nodup (position_some hj)
    have hcont : ∀ k, ¬ indexWord <+: k → s2.content (padAddr pre k) =
        if k = key.text then none else s.content (padAddr pre k) := fun k hk => by
      rw [(hs2 _ (pad_not_tag hk)).2, f1.content]
      by_cases hkk : k = key.text
      · simp [hkk]
      · rw [if_neg (fun he => hkk (pad_inj he)), if_neg hkk]
    refine ⟨s2, swapRemove keys j, fl2, ?_, w2, ⟨h.name, h2, by rw [← h.name]; exact hc2, ?_, ?_, ?_, ?_⟩, by omega,
      (f1.sameOff hpt).trans (hs2.mono fun x => Or.inl)⟩
    · rw [run_bind, run_attempt, run_bind, run_deleteBlock hokp (by rw [hp]; exact hi), andThen_ok]
      simp only [padIndexDel, hpi]
      rw [run_bind, hp, e2]
      rfl
    · intro k
      rw [hiff, h.live, upd]
      by_cases hkk : k = key.text <;> simp [hkk]
    · intro k v' hk'
      rw [upd] at hk'
      by_cases hkk : k = key.text
      · rw [if_pos hkk] at hk'; simp at hk'
      · rw [if_neg hkk] at hk'
        obtain ⟨b', hb1, hb2⟩ := h.val k v' hk'
        have hu := hU.free k (h.used k ((h.live k).2 (by rw [hk']; simp)))
        exact ⟨b', by rw [hcont k hu, if_neg hkk]; exact hb1, hb2⟩
    · intro k hkf hkm
      rw [hcont k hkf]
      by_cases hkk : k = key.text
      · rw [if_pos hkk]
      · rw [if_neg hkk]
        rw [upd, if_neg hkk] at hkm
        exact h.noval k hkf hkm
    · intro k hk'
      exact h.used k ((hiff k).1 hk').1

/-- `for key in keys: del self[key]` over all live keys -/
theorem run_padDelAll {pre : Str} {U : Str → Prop} (hU : KeysOK E pre U) (hok : NamesOK E (indexName pre))
    {ix : Index} {p : Pad} (hp : p.pre = pre) (hpi : p.index = .tag ix) (hm : p.mode.Runs) (l : List Str)
    (hnd : l.Nodup) {s : Store} (w : s.WF) {m : Str → Option V} {keys : List Str} {fl : Nat}
    (h : PadRep E c isNone pre U s ix m keys fl) (hl : ∀ k, k ∈ l ↔ k ∈ keys) (hfl : fl + keys.length + 2 < 256 ^ 5) :
    ∃ s' keys' fl', (padDelAll E p l).run E s = (.ok (), s') ∧ s'.WF ∧
      PadRep E c isNone pre U s' ix (fun _ => none) keys' fl' ∧
      fl' + keys'.length ≤ fl + keys.length ∧ SameOff (padTouch pre) s s' := by
  induction l generalizing s m keys fl with
  | nil =>
    have hmn : m = fun _ => none := by
      funext k
      by_contra hc
      have := (hl k).2 ((h.live k).2 hc)
      simp at this
    subst hmn
    exact ⟨s, keys, fl, rfl, w, h, Nat.le_refl _, SameOff.refl _ _⟩
  | cons k t ih =>
    have hkm : k ∈ keys := (hl k).1 List.mem_cons_self
    obtain ⟨s1, keys1, fl1, e1, w1, h1, hf1, hs1⟩ := run_padDel hU hok w h hfl hp hpi hm (key := .str k) rfl (h.used k hkm)
    have hmk : m k ≠ none := (h.live k).1 hkm
    have hl1 : ∀ x, x ∈ t ↔ x ∈ keys1 := by
      intro x
      rw [h1.live, upd]
      show _ ↔ (if x = k then _ else _) ≠ _
      by_cases hx : x = k
      · subst hx
        simp only [if_pos, ne_eq, not_true_eq_false, iff_false]
        exact (List.nodup_cons.1 hnd).1
      · rw [if_neg hx, ← h.live, ← hl]; simp [hx]
    obtain ⟨s2, keys2, fl2, e2, w2, h2, hf2, hs2⟩ := ih (List.nodup_cons.1 hnd).2 w1 h1 hl1 (by omega)
    refine ⟨s2, keys2, fl2, ?_, w2, h2, by omega, hs1.trans hs2⟩
    rw [padDelAll, run_bind, e1, if_neg (show ¬ m (Key.str k).text = none from hmk), andThen_ok, e2]

/-- none of the blocks a notepad would use exist -/
def NoPad (s : Store) (pre : Str) : Prop := ∀ x, padTouch pre x → s.content x = none

theorem run_padIndexClose {pre : Str} {U : Str → Prop} (hok : NamesOK E (indexName pre)) {ix : Index}
    {s1 : Store} (w1 : s1.WF) {keys1 : List Str} {fl1 : Nat}
    (h1 : PadRep E c isNone pre U s1 ix (fun _ => none) keys1 fl1) :
    ∃ s', (indexClose ix).run E s1 = (.ok (), s') ∧ s'.WF ∧ NoPad s' pre ∧ SameOff (padTouch pre) s1 s' := by
  have hk1 : keys1 = [] := by
    cases hk : keys1 with
    | nil => rfl
    | cons k t => exact absurd rfl ((h1.live k).1 (by rw [hk]; exact List.mem_cons_self))
  subst hk1
  have hok' : NamesOK E ix.name := by rw [h1.name]; exact hok
  have tm : padTouch pre (indexName pre) := Or.inl (Or.inl (indexNames_mem _))
  have tc : padTouch pre (countAddr (indexName pre)) := Or.inl (Or.inr (lockNames_count _))
  have hm1 : s1.names (indexName pre) = some ix.memory := by rw [← h1.name]; exact h1.rep.mem
  have f2 := eff_unlinked w1 (indexName pre)
  have hcm : countAddr (indexName pre) ≠ indexName pre := by
    intro he
    have := addr_injective ((addr_count _).symm.trans (he.trans (addr_mem _)))
    simp at this
  have hfin : ∀ s2 : Store, s2.content (indexName pre) = none → s2.content (countAddr (indexName pre)) = none →
      (∀ x, x ≠ indexName pre → x ≠ countAddr (indexName pre) → s2.content x = s1.content x) → NoPad s2 pre := by
    intro s2 n1 n2 hx x ht
    by_cases hx1 : x = indexName pre
    · rw [hx1]; exact n1
    by_cases hx2 : x = countAddr (indexName pre)
    · rw [hx2]; exact n2
    rw [hx x hx1 hx2]
    rcases ht with ht | ⟨k, hk, rfl⟩
    · rcases ht with ⟨sl, hsl, rfl⟩ | ⟨sl, hsl, rfl⟩
      · cases sl with
        | mem => exact absurd (addr_mem _).symm hx1
        | hash hh => rw [← h1.name]; exact h1.rep.nohash hh (by simp)
        | key i => rw [← addr_key, ← h1.name]; exact h1.rep.nokey i (by simp)
        | _ => simp [Slot.isIndex] at hsl
      · cases sl with
        | count => exact absurd rfl hx2
        | marker n => exact h1.lock.marker n
        | lock n => exact h1.lock.lock n
        | _ => simp [Slot.isLock] at hsl
    · exact h1.noval k hk rfl
  cases hcn : s1.names (countAddr (indexName pre)) with
  | none =>
    refine ⟨s1.unlinked (indexName pre), ?_, f2.wf, hfin _ (by rw [f2.content, if_pos rfl])
      (by rw [f2.content, if_neg hcm]; exact content_none.2 hcn) (fun x h1 h2 => by rw [f2.content, if_neg h1]),
      f2.sameOff tm⟩
    rw [indexClose, h1.name, run_bind, run_unlink hm1, andThen_ok, run_bind, run_existsBlock _ hok.count, andThen_ok,
      f2.names _ hcm, hcn]
    rfl
  | some i =>
    have hcn2 : (s1.unlinked (indexName pre)).names (countAddr (indexName pre)) = some i := by
      rw [f2.names _ hcm]; exact hcn
    have f3 := eff_unlinked f2.wf (countAddr (indexName pre))
    refine ⟨(s1.unlinked (indexName pre)).unlinked (countAddr (indexName pre)), ?_, f3.wf,
      hfin _ (by rw [f3.content, if_neg hcm.symm, f2.content, if_pos rfl]) (by rw [f3.content, if_pos rfl])
      (fun x h1 h2 => by rw [f3.content, if_neg h2, f2.content, if_neg h1]),
      (f2.sameOff tm).trans (f3.sameOff tc)⟩
    rw [indexClose, h1.name, run_bind, run_unlink hm1, andThen_ok, run_bind, run_existsBlock _ hok.count, andThen_ok,
      hcn2]
    simp only [Option.isSome_some, if_true]
    rw [run_bind, run_attach hok.count hcn2, andThen_ok, run_unlink hcn2]

theorem run_padClose {pre : Str} {U : Str → Prop} (hU : KeysOK E pre U) (hok : NamesOK E (indexName pre))
    {ix : Index} {p : Pad} (hp : p.pre = pre) (hpi : p.index = .tag ix) (hm : p.mode.Runs)
    {s : Store} (w : s.WF) {m : Str → Option V} {keys : List Str} {fl : Nat}
    (h : PadRep E c isNone pre U s ix m keys fl) (hfl : fl + keys.length + 2 < 256 ^ 5) :
    ∃ s', (padClose E p).run E s = (.ok (), s') ∧ s'.WF ∧ NoPad s' pre ∧ SameOff (padTouch pre) s s' := by
  obtain ⟨s1, keys1, fl1, e1, w1, h1, _, hs1⟩ := run_padDelAll hU hok hp hpi hm keys h.rep.nodup w h (fun _ => Iff.rfl) hfl
  obtain ⟨s2, e2, w2, hn, hs2⟩ := run_padIndexClose hok w1 h1
  refine ⟨s2, ?_, w2, hn, hs1.trans hs2⟩
  have hok' : NamesOK E ix.name := by rw [h.name]; exact hok
  simp only [padClose, hpi]
  rw [run_bind, run_indexUpdate h.rep hok', andThen_ok, run_bind, e1, andThen_ok, e2]

theorem run_padItemsOf {pre : Str} {U : Str → Prop} (hU : KeysOK E pre U) {s : Store} {ix : Index} {m : Str → Option V}
    {keys : List Str} {fl : Nat} (h : PadRep E c isNone pre U s ix m keys fl) {p : Pad} (hp : p.pre = pre)
    (l : List Str) (hl : ∀ k ∈ l, k ∈ keys) : ∃ r, (padItemsOf c isNone p l).run E s = (.ok r, s) ∧
      r.map Prod.fst = l ∧ ∀ kv ∈ r, m kv.1 = some kv.2 := by
  induction l with
  | nil => exact ⟨[], rfl, rfl, by simp⟩
  | cons k t ih =>
    obtain ⟨r, e, h1, h2⟩ := ih fun k hk => hl k (List.mem_cons_of_mem _ hk)
    have hk := hl k List.mem_cons_self
    have hg := h.get hU hp (key := .str k) (h.used k hk)
    cases hm : m k with
    | none => exact absurd hm ((h.live k).1 hk)
    | some v =>
      refine ⟨(k, v) :: r, ?_, by simp [h1], ?_⟩
      · rw [padItemsOf, run_bind, hg]
        simp only [Key.text, hm]
        rw [andThen_ok, run_bind, e]
        rfl
      · intro kv hkv
        rcases List.mem_cons.1 hkv with hkv | hkv
        · subst hkv; exact hm
        · exact h2 kv hkv

end Verif.Lemmas
