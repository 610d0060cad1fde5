import Verif.Lemmas.Foot
/-! # GridPaper calls stopped at any moment -/
namespace Verif.Lemmas
open Verif Verif.Model Verif.Spec
variable {E : Env} {c : Codec ArrMeta} {nbytes : Str → List Nat → Nat} {pre : Str} {U : Str → Prop} {s : Store} {ix : Index}
  {m : Str → Option (Arr × Nat)} {keys : List Str} {f : Str → Option Bytes} {fl : Nat}

/-- the blocks `gp[key] = …` may change: those of the lock, the length, the slot after the last, and the key's own
(`i` is its position) -/
def setBlocks (E : Env) (pre : Str) (ix : Index) (n i : Nat) (text : Str) (x : Str) : Prop :=
  lockNames ix.name x ∨ x = ix.name ∨ x = keyAddr ix.name n ∨ x = hashAddr E ix.name (E.utf8 text) ∨ x = valAddr ix.name i ∨
    x = padAddr pre text

/-- the slot of a key, old or new -/
def slotOf (keys : List Str) (text : Str) : Nat := (position text keys).getD keys.length

theorem foot_gridSet (hU : KeysOK E pre U) (hok : NamesOK E (indexName pre)) (w : s.WF)
    (h : GridRep E c nbytes pre U s ix m keys f fl) (hfl : fl + keys.length + 2 < 256 ^ 5) {g : Grid} (hg : g.pre = pre)
    (hgi : g.index = ix) {key : Key} (hk : key.hashed E = E.utf8 key.text) (hUk : U key.text) (a : Arr) (eo : Bool) :
    Foot E (setBlocks E pre ix keys.length (slotOf keys key.text) key.text) (fun _ => False) (gridSet E c g key a eo) s := by
  have hfree := hU.free _ hUk
  have hokn : NamesOK E ix.name := by rw [h.name]; exact hok
  have hp : (256 : Nat) ^ 5 < 256 ^ 8 := by decide
  unfold gridSet
  rw [not_reserved hfree]
  simp only [Bool.false_eq_true, if_false]
  have hpad : setBlocks E pre ix keys.length (slotOf keys key.text) key.text (padAddr g.pre key.text) := by
    rw [hg]; simp [setBlocks]
  have hA : Foot E (fun x => x = padAddr pre key.text) (fun _ => False) (memorizeArray a (padAddr g.pre key.text) eo) s :=
    foot_memorizeArray w (by rw [hg])
  refine foot_bind (foot_attempt (foot_memorizeArray w hpad)) fun r s1 hr w1 m1 => ?_
  have hs1 : SameOff (fun x => x = padAddr pre key.text) s s1 := by
    have := (always_end (foot_attempt hA)).2
    rw [hr] at this
    intro x hx
    rcases this x hx with h | h
    · exact h
    · exact absurd h.1 id
  have h1 : MetaRep E s1 ix keys f := h.rep.same hs1 fun sl _ => by rw [h.name]; exact slot_ne_pad hfree sl
  have hc1 : LockClean s1 ix.name fl := by
    rw [h.name]
    exact h.lock.same (hs1.mono fun x hx hl => by obtain ⟨sl, _, he⟩ := hl; exact slot_ne_pad hfree sl (he.symm.trans hx))
  cases r with
  | error e => cases e <;> exact foot_raise w1
  | ok mt =>
    refine foot_bind ?_ fun _ s2 _ w2 _ => foot_pure w2
    rw [hgi]
    refine foot_withLock (T' := fun x => x = ix.name ∨ x = keyAddr ix.name keys.length ∨
      x = hashAddr E ix.name (E.utf8 key.text) ∨ x = valAddr ix.name (slotOf keys key.text)) (D' := fun _ => False) w1 hokn hc1
      (by omega) ?_ (fun x hx => Or.inl hx) ?_ (fun x hx => absurd hx id) ?_
    · intro s2 w2 hs2
      have h2 := h1.sameLock hs2
      refine foot_bind (foot_indexAdd_ w2 h2.rep (Or.inl rfl) (Or.inr (Or.inl rfl)) (by rw [hk]; simp)) fun wpos s3 hr w3 _ => ?_
      have hw : wpos = slotOf keys key.text := by
        unfold slotOf
        cases hpos : position key.text keys with
        | some i =>
          rw [run_indexAddOld h2.rep hokn hk (position_some hpos)] at hr
          simp at hr
          simp [hr.1]
        | none =>
          rw [position_none] at hpos
          obtain ⟨s4, e4, _⟩ := run_indexAddNew w2 h2.rep hokn hk (hU.nonempty _ hUk) (by omega)
            (fun k' hk' he => hpos (hU.inj _ _ (h.used k' hk') hUk he ▸ hk')) true
          rw [e4] at hr
          simp at hr
          simp [hr.1]
      subst hw
      exact foot_bind (foot_memorize w3 (by simp)) fun _ s4 _ w4 _ => foot_pure w4
    · rintro x (h | h | h | h) <;> simp [setBlocks, h]
    · rintro x (hx | hx) hl
      · rcases hx with rfl | rfl | rfl | rfl
        · exact not_lock_mem _ hl
        · exact not_lock_key _ _ hl
        · exact index_not_lock (indexNames_hash _ _ _) hl
        · exact meta_not_lock (metaNames_val _ _) hl
      · exact hx

/-- a key reads as before when its blocks are as before -/
theorem gridGet_mod (hU : KeysOK E pre U) (hok : NamesOK E (indexName pre)) (h : GridRep E c nbytes pre U s ix m keys f fl)
    {g : Grid} (hgi : g.index = ix) {key : Key} (hk : key.hashed E = E.utf8 key.text) (hUk : U key.text) {s' : Store}
    (hhash : s'.content (hashAddr E ix.name (E.utf8 key.text)) = s.content (hashAddr E ix.name (E.utf8 key.text)))
    (hval : ∀ i, keys[i]? = some key.text → s'.content (valAddr ix.name i) = s.content (valAddr ix.name i))
    (hpad : m key.text ≠ none → s'.content (padAddr pre key.text) = s.content (padAddr pre key.text)) :
    (gridGet E c nbytes g key).run E s' = (match m key.text with | some (a, _) => .ok a | none => .err .keyError, s') := by
  have hokn : NamesOK E ix.name := by rw [h.name]; exact hok
  have hokp : E.okName (padAddr pre key.text) = true := hU.ok _ hUk
  have hbd := h.rep.rep.bound
  unfold gridGet
  rw [run_bind, run_attempt, run_bind, hgi, metaGet, run_bind, hk]
  cases hmk : m key.text with
  | none =>
    have habs : ∀ k' ∈ keys, E.sha (E.utf8 k') ≠ E.sha (E.utf8 key.text) := fun k' hk' he =>
      (h.live _).1 (hU.inj _ _ (h.used k' hk') hUk he ▸ hk') hmk
    rw [run_check_none hokn (by rw [hhash]; exact h.rep.rep.absent habs)]
    rfl
  | some p =>
    obtain ⟨a, room⟩ := p
    obtain ⟨i, hi⟩ := List.mem_iff_getElem?.1 ((h.live key.text).2 (by rw [hmk]; simp))
    have li := lt_of_getElem? hi
    obtain ⟨b, hb, hdec⟩ := h.info _ _ _ hmk
    obtain ⟨rest, hr1, hr2⟩ := h.val _ _ _ hmk
    rw [← hpad (by rw [hmk]; simp)] at hr1
    obtain ⟨j, hj, hjs⟩ := names_of_content hr1
    have hh := h.rep.rep.hash i _ hi
    rw [← hhash] at hh
    obtain ⟨hi', hhi, hhs⟩ := names_of_content hh
    have hv := h.rep.val i _ hi
    rw [← hval i hi, hb] at hv
    obtain ⟨vi, hvi, hvs⟩ := names_of_content hv
    rw [run_check_some_of hokn hhi, andThen_ok, hhs, fromLE_toLE _ _ (by omega)]
    simp only []
    rw [run_bind, run_attach (hokn.val _ (by omega)) hvi, andThen_ok, run_read, hvs, andThen_ok, rememberArray, run_bind, hdec,
      run_ofExcept_ok, andThen_ok, run_bind]
    have hsz : nbytes (metaOf pre key.text a).dtype (metaOf pre key.text a).shape = a.data.length := h.size _ _ _ hmk
    rw [run_attach (n := (metaOf pre key.text a).name) hokp hj, andThen_ok, run_bind, run_read, andThen_ok, hjs,
      if_neg (by rw [hsz, List.length_append]; omega), hsz]
    simp [metaOf]

/-- a listed key whose metadata or whose array is gone reads `KeyError` -/
theorem gridGet_gone (hU : KeysOK E pre U) (hok : NamesOK E (indexName pre)) (h : GridRep E c nbytes pre U s ix m keys f fl)
    {g : Grid} (hgi : g.index = ix) {key : Key} (hk : key.hashed E = E.utf8 key.text) (hUk : U key.text) {s' : Store}
    (hhash : s'.content (hashAddr E ix.name (E.utf8 key.text)) = none ∨
      (s'.content (hashAddr E ix.name (E.utf8 key.text)) = s.content (hashAddr E ix.name (E.utf8 key.text)) ∧
      (∀ i, keys[i]? = some key.text → s'.content (valAddr ix.name i) = s.content (valAddr ix.name i)) ∧
      s'.content (padAddr pre key.text) = none)) :
    (gridGet E c nbytes g key).run E s' = (.err .keyError, s') := by
  have hokn : NamesOK E ix.name := by rw [h.name]; exact hok
  have hokp : E.okName (padAddr pre key.text) = true := hU.ok _ hUk
  have hbd := h.rep.rep.bound
  rcases hhash with hno | ⟨hhash, hval, hpad⟩
  · unfold gridGet
    rw [run_bind, run_attempt, run_bind, hgi, metaGet, run_bind, hk, run_check_none hokn hno]
    rfl
  · cases hmk : m key.text with
    | none => rw [gridGet_mod hU hok h hgi hk hUk hhash hval (fun hc => absurd hmk hc), hmk]
    | some p =>
      obtain ⟨a, room⟩ := p
      obtain ⟨i, hi⟩ := List.mem_iff_getElem?.1 ((h.live key.text).2 (by rw [hmk]; simp))
      have li := lt_of_getElem? hi
      obtain ⟨b, hb, hdec⟩ := h.info _ _ _ hmk
      have hh := h.rep.rep.hash i _ hi
      rw [← hhash] at hh
      obtain ⟨hi', hhi, hhs⟩ := names_of_content hh
      have hv := h.rep.val i _ hi
      rw [← hval i hi, hb] at hv
      obtain ⟨vi, hvi, hvs⟩ := names_of_content hv
      unfold gridGet
      rw [run_bind, run_attempt, run_bind, hgi, metaGet, run_bind, hk]
      rw [run_check_some_of hokn hhi, andThen_ok, hhs, fromLE_toLE _ _ (by omega)]
      simp only []
      rw [run_bind, run_attach (hokn.val _ (by omega)) hvi, andThen_ok, run_read, hvs, andThen_ok, rememberArray, run_bind,
        hdec, run_ofExcept_ok, andThen_ok, run_bind,
        run_attach_none (n := (metaOf pre key.text a).name) hokp (content_none.1 hpad)]
      rfl

/-- the blocks of the index that `del gp[key]` may change before the key is unlisted -/
def delIndexBlocks (E : Env) (ix : Index) (n i : Nat) (l text : Str) (x : Str) : Prop :=
  x = ix.name ∨ x = keyAddr ix.name i ∨ x = keyAddr ix.name (n - 1) ∨ (l ≠ text ∧ x = hashAddr E ix.name (E.utf8 l))

/-- those it may change in all -/
def delBlocks (E : Env) (ix : Index) (n i : Nat) (l text : Str) (x : Str) : Prop :=
  delIndexBlocks E ix n i l text x ∨ x = valAddr ix.name i ∨ x = valAddr ix.name (n - 1)

/-- those it may remove -/
def delGone (E : Env) (pre : Str) (ix : Index) (text : Str) (x : Str) : Prop :=
  x = hashAddr E ix.name (E.utf8 text) ∨ x = padAddr pre text

/-- the states a deletion passes through: the key is still listed, and neither its position nor its metadata have changed;
or it is no longer listed -/
def DelState (E : Env) (pre : Str) (ix : Index) (n i : Nat) (l text : Str) (s s' : Store) : Prop :=
  s'.WF ∧ Mod (delBlocks E ix n i l text) (delGone E pre ix text) s s' ∧
    (s'.content (hashAddr E ix.name (E.utf8 text)) = none ∨
      (s'.content (hashAddr E ix.name (E.utf8 text)) = s.content (hashAddr E ix.name (E.utf8 text)) ∧
        s'.content (valAddr ix.name i) = s.content (valAddr ix.name i) ∧
        (s'.content (padAddr pre text) = none ∨ s' = s)))

theorem always_bind_end {α β : Type} {P : Store → Prop} {p : Prog α} {f : α → Prog β} (h : Always E P p s)
    (hf : ∀ a s', P s' → Always E P (f a) s') : Always E P (p >>= f) s :=
  always_bind h fun a s' hr => hf a s' (by have := always_end h; rw [hr] at this; exact this)

theorem always_gridDel (hU : KeysOK E pre U) (hok : NamesOK E (indexName pre)) (w : s.WF)
    (h : GridRep E c nbytes pre U s ix m keys f fl) {g : Grid} (hg : g.pre = pre) (hgi : g.index = ix) (hm : g.mode = .fake)
    {key : Key} (hk : key.hashed E = E.utf8 key.text) (hUk : U key.text) {i : Nat} (hi : keys[i]? = some key.text) {l : Str}
    (hl : keys[keys.length - 1]? = some l) :
    Always E (DelState E pre ix keys.length i l key.text s) (gridDel E g key) s := by
  have hfree := hU.free _ hUk
  have hokn : NamesOK E ix.name := by rw [h.name]; exact hok
  have hokp : E.okName (padAddr g.pre key.text) = true := by rw [hg]; exact hU.ok _ hUk
  have hmk : m key.text ≠ none := (h.live _).1 (List.mem_of_getElem? hi)
  have hpadslot : ∀ sl : Slot, sl.addr ix.name ≠ padAddr pre key.text := fun sl => by rw [h.name]; exact slot_ne_pad hfree sl
  obtain ⟨p, hp⟩ := Option.ne_none_iff_exists'.1 hmk
  obtain ⟨rest, hr1, _⟩ := h.val _ p.1 p.2 hp
  obtain ⟨j, hj, _⟩ := names_of_content hr1
  have h0 : DelState E pre ix keys.length i l key.text s s := ⟨w, Mod.refl _ _ _, Or.inr ⟨rfl, rfl, Or.inr rfl⟩⟩
  have f1 := eff_unlinked w (padAddr pre key.text)
  have m1 : Mod (delBlocks E ix keys.length i l key.text) (delGone E pre ix key.text) s (s.unlinked (padAddr pre key.text)) :=
    mod_unlinked w (Or.inr (Or.inr rfl))
  have c1 : ∀ x, x ≠ padAddr pre key.text → (s.unlinked (padAddr pre key.text)).content x = s.content x := fun x hx => by
    rw [f1.content, if_neg hx]
  have hash_pad : hashAddr E ix.name (E.utf8 key.text) ≠ padAddr pre key.text := by rw [addr_hash]; exact hpadslot _
  have val_pad : ∀ i, valAddr ix.name i ≠ padAddr pre key.text := fun i => by rw [addr_val]; exact hpadslot _
  have p1 : (s.unlinked (padAddr pre key.text)).content (padAddr pre key.text) = none := by rw [f1.content, if_pos rfl]
  have h1 : DelState E pre ix keys.length i l key.text s (s.unlinked (padAddr pre key.text)) :=
    ⟨f1.wf, m1, Or.inr ⟨c1 _ hash_pad, c1 _ (val_pad _), Or.inl p1⟩⟩
  have r1 : MetaRep E (s.unlinked (padAddr pre key.text)) ix keys f :=
    h.rep.same (f1.sameOff (P := fun x => x = padAddr pre key.text) rfl) (fun sl _ => hpadslot sl)
  have li := lt_of_getElem? hi
  have hbd := h.rep.rep.bound
  -- the index
  have hdel : Foot E (delIndexBlocks E ix keys.length i l key.text) (delGone E pre ix key.text) (indexDel_ E ix key)
      (s.unlinked (padAddr pre key.text)) :=
    foot_indexDel_ f1.wf r1.rep hokn hk hi hl (Or.inl rfl) (Or.inr (Or.inl rfl)) (Or.inr (Or.inr (Or.inl rfl)))
      (fun hne => Or.inr (Or.inr (Or.inr ⟨hne, rfl⟩))) (Or.inr (Or.inl rfl))
  have h' : ∀ l, keys[keys.length - 1]? = some l → U l := fun l hl => h.used _ (List.mem_of_getElem? hl)
  have hash_not : ¬ delIndexBlocks E ix keys.length i l key.text (hashAddr E ix.name (E.utf8 key.text)) := by
    rintro (h | h | h | ⟨hne, h⟩)
    · rw [addr_hash] at h; exact hash_ne_mem _ _ h
    · rw [addr_hash] at h; exact key_ne_hash _ _ _ h.symm
    · rw [addr_hash] at h; exact key_ne_hash _ _ _ h.symm
    · rw [addr_hash, addr_hash, addr_inj] at h
      injection h with h
      exact hne (hU.inj _ _ (h' l hl) hUk h.symm)
  have val_not : ∀ j, ¬ delIndexBlocks E ix keys.length i l key.text (valAddr ix.name j) := by
    intro j
    rintro (h | h | h | ⟨hne, h⟩)
    · have h : valAddr ix.name j = Slot.mem.addr ix.name := by rw [← addr_mem]; exact h
      rw [addr_val, addr_inj] at h; simp at h
    · rw [addr_val, addr_key, addr_inj] at h; simp at h
    · rw [addr_val, addr_key, addr_inj] at h; simp at h
    · rw [addr_val, addr_hash, addr_inj] at h; simp at h
  have pad_not : ¬ delIndexBlocks E ix keys.length i l key.text (padAddr pre key.text) := by
    rintro (h | h | h | ⟨hne, h⟩)
    · exact hpadslot .mem (by rw [← addr_mem]; exact h.symm)
    · rw [addr_key] at h; exact hpadslot _ h.symm
    · rw [addr_key] at h; exact hpadslot _ h.symm
    · rw [addr_hash] at h; exact hpadslot _ h.symm
  have hdel' : Always E (DelState E pre ix keys.length i l key.text s) (indexDel_ E ix key)
      (s.unlinked (padAddr pre key.text)) := by
    refine always_mono hdel fun s2 h2 => ⟨h2.1, m1.trans (h2.2.mono (fun x hx => Or.inl hx) (fun x hx => Or.inr hx)), ?_⟩
    rcases h2.2 _ hash_not with hh | hh
    · refine Or.inr ⟨hh.2.trans (c1 _ hash_pad), ?_, Or.inl ?_⟩
      · rcases h2.2 _ (val_not i) with hv | hv
        · exact hv.2.trans (c1 _ (val_pad _))
        · rcases hv.1 with hd | hd
          · rw [addr_val, addr_hash, addr_inj] at hd; simp at hd
          · exact absurd hd (val_pad _)
      · rcases h2.2 _ pad_not with hv | hv
        · exact hv.2.trans p1
        · exact hv.2
    · exact Or.inl hh.2
  unfold gridDel
  rw [not_reservedExact hfree]
  simp only [Bool.false_eq_true, if_false]
  refine always_bind_end (always_attempt (always_bind (always_deleteBlock h0 (by rw [hg]; exact h1)) fun _ s1 hr => ?_)) fun r s1 hP => ?_
  · have hr' : (deleteBlock (padAddr g.pre key.text)).run E s = (.ok (), s1) := hr
    rw [run_deleteBlock (i := j) hokp (by rw [hg]; exact hj), hg] at hr'
    injection hr' with _ hr'
    subst hr'
    rw [hm, hgi]
    refine always_bind_end (always_bind hdel' fun r s2 hr => ?_) fun _ s3 hP => hP
    · obtain ⟨s2', e2, w2, h2, hs2⟩ := run_indexDelSome f1.wf r1.rep hokn hk hi
      have hr' : (indexDel_ E ix key).run E (s.unlinked (padAddr pre key.text)) = (.ok r, s2) := hr
      have hst := always_end hdel'
      rw [e2] at hr' hst
      injection hr' with hr1' hr2'
      injection hr1' with hr1'
      subst hr1'; subst hr2'
      have hgone : s2'.content (hashAddr E ix.name (E.utf8 key.text)) = none := h2.absent fun k' hk' he => by
        have := (mem_swapRemove_iff h.rep.rep.nodup hi).1 hk'
        exact this.2 (hU.inj _ _ (h.used _ this.1) hUk he)
      have hfin : ∀ s3 : Store, s3.WF ∧ Mod (fun x => x = valAddr ix.name i ∨ x = valAddr ix.name (keys.length - 1))
          (fun _ => False) s2' s3 → DelState E pre ix keys.length i l key.text s s3 := by
        intro s3 h3
        refine ⟨h3.1, hst.2.1.trans (h3.2.mono (fun x hx => Or.inr hx) (fun x hx => absurd hx id)), Or.inl ?_⟩
        rcases h3.2 (hashAddr E ix.name (E.utf8 key.text)) (by
          rintro (h | h) <;> rw [addr_hash, addr_val, addr_inj] at h <;> simp at h) with hh | hh
        · exact hh.2.trans hgone
        · exact absurd hh.1 id
      refine always_mono ?_ hfin
      show Foot E (fun x => x = valAddr ix.name i ∨ x = valAddr ix.name (keys.length - 1)) (fun _ => False) _ s2'
      have hlook : Prog.ReadOnly (if i + 1 = keys.length then pure false else existsBlock (valAddr ix.name (keys.length - 1))) := by
        split
        · exact readOnly_pure _
        · exact readOnly_existsBlock _
      refine foot_bind (foot_look hlook w2) fun lv s4 hr w4 _ => ?_
      cases lv with
      | false =>
        simp only [if_true]
        exact foot_bind (foot_deleteBlock w4 (Or.inl (Or.inl rfl))) fun _ s5 _ w5 _ => foot_pure w5
      | true =>
        simp only [Bool.true_eq_false, if_false]
        refine foot_bind (foot_look (readOnly_existsBlock _) w4) fun b s5 hr w5 _ => ?_
        cases b with
        | false => exact foot_pure w5
        | true =>
          simp only [if_true]
          refine foot_bind (foot_look (readOnly_attach _) w5) fun vh s6 hr w6 _ => ?_
          refine foot_bind (foot_look (readOnly_read _) w6) fun vb s7 hr w7 _ => ?_
          exact foot_put w7 (Or.inl rfl) fun s8 w8 _ =>
            foot_bind (foot_deleteBlock w8 (Or.inl (Or.inr rfl))) fun _ s9 _ w9 _ => foot_pure w9
  · cases r with
    | ok u => exact hP
    | error e => cases e <;> exact hP

end Verif.Lemmas
