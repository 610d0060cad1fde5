import Verif.Lemmas.Crash
/-! # TagIndex `add` and removal, stopped anywhere -/
namespace Verif.Lemmas
open Verif Verif.Model Verif.Spec
variable {E : Env}

/-! ## listing in any state -/

/-- what slot `i` contributes to a listing -/
def slotText (E : Env) (s : Store) (ix : Index) (i : Nat) : Option Str :=
  (s.content (keyAddr ix.name i)).bind E.utf8dec

theorem run_loadKey?_gen {s : Store} {ix : Index} {i : Nat} (hok : E.okName (keyAddr ix.name i) = true)
    (h : ∀ b, s.content (keyAddr ix.name i) = some b → E.utf8dec b ≠ none) :
    (loadKey? E ix i).run E s = (.ok (slotText E s ix i), s) := by
  cases hc : s.content (keyAddr ix.name i) with
  | none => rw [run_loadKey?_none hok hc, slotText, hc]; rfl
  | some b =>
    obtain ⟨j, hj, hsj⟩ := names_of_content hc
    cases hd : E.utf8dec b with
    | none => exact absurd hd (h b hc)
    | some t =>
      rw [loadKey?, run_bind, run_attempt, run_attach hok hj, asValue_ok, andThen_ok]
      simp only []
      rw [run_bind, run_read, andThen_ok, run_bind, hsj, decodeUtf8, hd, slotText, hc]
      simp [hd]

theorem run_enumerateKeys_gen {s : Store} {ix : Index} {i d : Nat}
    (hok : ∀ j, i ≤ j → j < i + d → E.okName (keyAddr ix.name j) = true)
    (h : ∀ j, i ≤ j → j < i + d → ∀ b, s.content (keyAddr ix.name j) = some b → E.utf8dec b ≠ none) :
    (enumerateKeys E ix i d).run E s = (.ok ((List.range' i d).filterMap (slotText E s ix)), s) := by
  induction d generalizing i with
  | zero => rfl
  | succ d ih =>
    rw [enumerateKeys, run_bind, run_loadKey?_gen (hok i (by omega) (by omega)) (h i (by omega) (by omega)), andThen_ok,
      run_bind, ih (fun j h1 h2 => hok j (by omega) (by omega)) (fun j h1 h2 => h j (by omega) (by omega)), andThen_ok]
    simp only [run_pure, List.range'_succ, List.filterMap_cons]
    cases slotText E s ix i <;> rfl

theorem run_indexUpdate_gen {s : Store} {ix : Index} {L : Nat} (hok : NamesOK E ix.name) (hL : L < 256 ^ 8)
    (hm : s.segs ix.memory = toLE 8 L)
    (h : ∀ j < L, ∀ b, s.content (keyAddr ix.name j) = some b → E.utf8dec b ≠ none) :
    (indexUpdate E ix).run E s = (.ok ((List.range' 0 L).filterMap (slotText E s ix)), s) := by
  rw [indexUpdate, run_bind, readLength, run_bind, run_read, andThen_ok, hm, fromLE_toLE _ _ hL]
  exact run_enumerateKeys_gen (fun j _ hj => hok.key j (by omega)) (fun j _ hj => h j (by omega))

/-! ## adding -/

/-- the states an interrupted `add` can leave -/
structure AddMid (E : Env) (ix : Index) (keys : List Str) (text : Str) (s : Store) : Prop where
  mem : s.names ix.name = some ix.memory
  len : s.segs ix.memory = toLE 8 keys.length ∨ s.segs ix.memory = toLE 8 (keys.length + 1)
  key : ∀ i k, keys[i]? = some k → s.content (keyAddr ix.name i) = some (E.utf8 k)
  new : s.content (keyAddr ix.name keys.length) = none ∨
    s.content (keyAddr ix.name keys.length) = some (List.replicate (E.utf8 text).length 0) ∨
    s.content (keyAddr ix.name keys.length) = some (E.utf8 text)

theorem AddMid.same {s s' : Store} {ix : Index} {keys : List Str} {text : Str} (h : AddMid E ix keys text s)
    {P : Str → Prop} (hs : SameOff P s s') (hm : ¬ P ix.name) (hk : ∀ i, ¬ P (keyAddr ix.name i)) :
    AddMid E ix keys text s' := by
  have hmem := hs ix.name hm
  have m1 : s'.names ix.name = some ix.memory := by rw [hmem.1]; exact h.mem
  refine ⟨m1, ?_, ?_, ?_⟩
  · have := hmem.2
    rw [content_some m1, content_some h.mem] at this
    injection this with this
    rw [this]; exact h.len
  · intro i k hi
    rw [(hs _ (hk i)).2]; exact h.key i k hi
  · rw [(hs _ (hk _)).2]; exact h.new

theorem not_lock_mem (name : Str) : ¬ lockNames name name := index_not_lock (indexNames_mem name)
theorem not_lock_key (name : Str) (i : Nat) : ¬ lockNames name (keyAddr name i) :=
  index_not_lock (indexNames_key name i)

theorem IxRep.addMid {s : Store} {ix : Index} {keys : List Str} (h : IxRep E s ix keys) (text : Str) :
    AddMid E ix keys text s :=
  ⟨h.mem, Or.inl h.len, h.key, Or.inl (h.nokey _ (Nat.le_refl _))⟩

theorem run_check_some_of {s : Store} {ix : Index} (hok : NamesOK E ix.name) {b : Bytes} {i : Nat}
    (hn : s.names (hashAddr E ix.name b) = some i) :
    (check E ix b).run E s = (.ok (some (fromLE (s.segs i))), s) := by
  rw [check, run_bind, run_existsBlock _ (hok.hash _), andThen_ok, hn]
  simp only [Option.isSome_some, if_true]
  rw [run_bind, run_attach (hok.hash _) hn, andThen_ok, run_bind, run_read, andThen_ok]
  rfl

theorem always_indexAdd_ {s : Store} (w : s.WF) {ix : Index} {keys : List Str} (h : IxRep E s ix keys)
    (hok : NamesOK E ix.name) (hb : keys.length + 1 < 256 ^ 8) (key : Key) (existsOk : Bool) :
    Always E (fun s' => s'.WF ∧ AddMid E ix keys key.text s' ∧ SameOff (indexNames ix.name) s s')
      (indexAdd_ E ix key existsOk) s := by
  have h0 : s.WF ∧ AddMid E ix keys key.text s ∧ SameOff (indexNames ix.name) s s :=
    ⟨w, h.addMid _, SameOff.refl _ _⟩
  unfold indexAdd_
  refine always_bind (ReadOnly.always (readOnly_check _ _ _) h0) fun r s' hr => ?_
  have hs' : s' = s := by have := ReadOnly.run (E := E) (readOnly_check E ix (key.hashed E)) s; rw [hr] at this; exact this
  subst hs'
  cases r with
  | some i => cases existsOk <;> exact h0
  | none =>
    have hnone : s'.names (hashAddr E ix.name (key.hashed E)) = none := by
      cases hn : s'.names (hashAddr E ix.name (key.hashed E)) with
      | none => rfl
      | some i => rw [run_check_some_of hok hn] at hr; simp at hr
    simp only []
    refine always_bind (ReadOnly.always (readOnly_readLength _) h0) fun n s1 hr => ?_
    rw [run_readLength h] at hr
    injection hr with hr1 hr2; injection hr1 with hr1; subst hr1; subst hr2
    refine always_bind (always_intBytes h0) fun nb s1 hr => ?_
    rw [run_intBytes hb] at hr
    injection hr with hr1 hr2; injection hr1 with hr1; subst hr1; subst hr2
    -- the new length
    obtain ⟨s1, e1, n1, f1⟩ := run_write_at (E := E) (b := toLE 8 (keys.length + 1)) w h.mem (by rw [h.len]; simp)
    have c1 : ∀ x, x ≠ ix.name → s1.content x = s'.content x := fun x hx => by rw [f1.content, if_neg hx]
    have seg1 : s1.segs ix.memory = toLE 8 (keys.length + 1) := by
      have := f1.content ix.name
      rw [if_pos rfl, content_some n1] at this
      injection this
    have h1 : s1.WF ∧ AddMid E ix keys key.text s1 ∧ SameOff (indexNames ix.name) s' s1 :=
      ⟨f1.wf, ⟨n1, Or.inr seg1, fun i k hi => by rw [c1 _ (key_ne_mem _ _)]; exact h.key i k hi,
        Or.inl (by rw [c1 _ (key_ne_mem _ _)]; exact h.nokey _ (Nat.le_refl _))⟩, f1.sameOff (indexNames_mem _)⟩
    refine always_bind (always_prim_run h0 e1 h1) fun u s2 hr => ?_
    rw [e1] at hr; injection hr with _ hr; subst hr
    -- stores that differ from `s1` at the new key slot
    have hmk : ∀ s2, Eff s1 s2 (keyAddr ix.name keys.length) none ∨
        Eff s1 s2 (keyAddr ix.name keys.length) (some (List.replicate (E.utf8 key.text).length 0)) ∨
        Eff s1 s2 (keyAddr ix.name keys.length) (some (E.utf8 key.text)) →
        s2.WF ∧ AddMid E ix keys key.text s2 ∧ SameOff (indexNames ix.name) s' s2 := by
      intro s2 h2
      obtain ⟨v, f2, hv⟩ : ∃ v, Eff s1 s2 (keyAddr ix.name keys.length) v ∧
          (v = none ∨ v = some (List.replicate (E.utf8 key.text).length 0) ∨ v = some (E.utf8 key.text)) := by
        rcases h2 with h2 | h2 | h2
        · exact ⟨_, h2, Or.inl rfl⟩
        · exact ⟨_, h2, Or.inr (Or.inl rfl)⟩
        · exact ⟨_, h2, Or.inr (Or.inr rfl)⟩
      have m2 : s2.names ix.name = some ix.memory := by rw [f2.names _ (key_ne_mem _ _).symm]; exact n1
      refine ⟨f2.wf, ⟨m2, Or.inr ?_, ?_, ?_⟩, h1.2.2.trans (f2.sameOff (indexNames_key _ _))⟩
      · have := f2.content ix.name
        rw [if_neg (key_ne_mem _ _).symm, content_some m2, content_some n1, seg1] at this
        injection this
      · intro i k hi
        have li : i < keys.length := by
          by_contra hc
          rw [List.getElem?_eq_none (by omega)] at hi; simp at hi
        rw [f2.content, if_neg (by rw [key_eq]; omega)]
        exact h1.2.1.key i k hi
      · rw [f2.content, if_pos rfl]; exact hv
    refine always_bind (always_openBlock h1 (fun _ => hmk _ (Or.inr (Or.inl (eff_created f1.wf _ _))))
      (fun _ _ => hmk _ (Or.inl (eff_unlinked f1.wf _)))
      (fun _ _ => hmk _ (Or.inr (Or.inl ((eff_unlinked f1.wf _).trans (eff_created (wf_unlinked f1.wf _) _ _))))))
      fun kh s2 hr => ?_
    by_cases hne : key.text = []
    · rw [hne, E.utf8_nil, List.length_nil, run_openBlock_zero] at hr; simp at hr
    · obtain ⟨i2, s2', s3, e2, e3, n3, f3, f2⟩ := run_put (E := E) (a := keyAddr ix.name keys.length)
        (b := E.utf8 key.text) f1.wf (utf8_ne_nil E hne) (hok.key _ (by omega))
      rw [e2] at hr; injection hr with hr1 hr2; injection hr1 with hr1; subst hr1; subst hr2
      have h2 := hmk _ (Or.inr (Or.inl f2))
      have h3 := hmk _ (Or.inr (Or.inr f3))
      refine always_bind (always_prim_run h2 e3 h3) fun u s4 hr => ?_
      rw [e3] at hr; injection hr with _ hr; subst hr
      refine always_bind (always_intBytes h3) fun pb s4 hr => ?_
      rw [run_intBytes (by omega)] at hr
      injection hr with hr1 hr2; injection hr1 with hr1; subst hr1; subst hr2
      have hfree : s3.names (hashAddr E ix.name (key.hashed E)) = none := by
        rw [f3.names _ (by rw [addr_hash]; exact (key_ne_hash _ _ _).symm),
          f1.names _ (by rw [addr_hash]; exact hash_ne_mem _ _)]; exact hnone
      have hstep : ∀ s4 v, Eff s3 s4 (hashAddr E ix.name (key.hashed E)) v →
          s4.WF ∧ AddMid E ix keys key.text s4 ∧ SameOff (indexNames ix.name) s' s4 := fun s4 v f4 =>
        ⟨f4.wf, h3.2.1.same (f4.sameOff (P := fun x => x = hashAddr E ix.name (key.hashed E)) rfl)
          (by rw [addr_hash]; exact (hash_ne_mem _ _).symm) (fun i => by rw [addr_hash]; exact key_ne_hash _ _ _),
          h3.2.2.trans (f4.sameOff (indexNames_hash _ _ _))⟩
      have f4 := eff_created f3.wf (hashAddr E ix.name (key.hashed E)) 8
      refine always_bind (always_openBlock h3 (fun _ => hstep _ _ f4) (by simp) (by simp)) fun nh s4 hr => ?_
      rw [run_openBlock_new (by omega) (hok.hash _) hfree] at hr
      injection hr with hr1 hr2; injection hr1 with hr1; subst hr1; subst hr2
      have f5 := f4.trans (eff_wrote f4.wf (a := hashAddr E ix.name (key.hashed E)) (i := s3.next) (by simp)
        (toLE 8 keys.length))
      refine always_bind (always_write (hstep _ _ f4) fun _ => hstep _ _ f5) fun u s5 hr => ?_
      rw [run_write (by simp [Store.created])] at hr
      injection hr with _ hr; subst hr
      exact hstep _ _ f5

/-- the listing in any state an interrupted `add` can leave -/
theorem AddMid.listing {s : Store} {ix : Index} {keys : List Str} {text : Str} (h : AddMid E ix keys text s)
    (hok : NamesOK E ix.name) (hb : keys.length + 1 < 256 ^ 8) :
    ∃ extra, extra ∈ [[], [text], [List.replicate (E.utf8 text).length (Char.ofNat 0)]] ∧
      (indexUpdate E ix).run E s = (.ok (keys ++ extra), s) := by
  have hslot : ∀ i k, keys[i]? = some k → slotText E s ix i = some k := by
    intro i k hi
    rw [slotText, h.key i k hi]; exact E.utf8_roundtrip k
  have hrange : (List.range' 0 keys.length).filterMap (slotText E s ix) = keys := by
    have : ∀ (l : List Str) (i : Nat), (∀ j k, l[j]? = some k → slotText E s ix (i + j) = some k) →
        (List.range' i l.length).filterMap (slotText E s ix) = l := by
      intro l
      induction l with
      | nil => intro i _; rfl
      | cons k t ih =>
        intro i hl
        simp only [List.length_cons, List.range'_succ, List.filterMap_cons]
        have h0 := hl 0 k (by simp)
        rw [Nat.add_zero] at h0
        rw [h0]
        simp only []
        rw [ih (i + 1) (fun j k' hj => by
          have := hl (j + 1) k' (by simpa using hj)
          rwa [show i + (j + 1) = i + 1 + j by omega] at this)]
    exact this keys 0 (fun j k hj => by rw [Nat.zero_add]; exact hslot j k hj)
  have hdec : ∀ j < keys.length, ∀ b, s.content (keyAddr ix.name j) = some b → E.utf8dec b ≠ none := by
    intro j hj b hb'
    rw [h.key j _ (List.getElem?_eq_getElem hj)] at hb'
    injection hb' with hb'
    rw [← hb', E.utf8_roundtrip]; simp
  rcases h.len with hl | hl
  · exact ⟨[], by simp, by rw [run_indexUpdate_gen hok (by omega) hl hdec, hrange]; simp⟩
  · have hlast : ∃ extra, extra ∈ [[], [text], [List.replicate (E.utf8 text).length (Char.ofNat 0)]] ∧
        (slotText E s ix keys.length).toList = extra := by
      rcases h.new with hn | hn | hn
      · exact ⟨[], by simp, by rw [slotText, hn]; rfl⟩
      · exact ⟨_, List.mem_cons_of_mem _ (List.mem_cons_of_mem _ (List.mem_cons_self)), by
          rw [slotText, hn, Option.bind_some, E.utf8dec_zeros]; rfl⟩
      · exact ⟨_, List.mem_cons_of_mem _ (List.mem_cons_self), by
          rw [slotText, hn, Option.bind_some, E.utf8_roundtrip]; rfl⟩
    obtain ⟨extra, hmem, he⟩ := hlast
    refine ⟨extra, hmem, ?_⟩
    have hdec' : ∀ j < keys.length + 1, ∀ b, s.content (keyAddr ix.name j) = some b → E.utf8dec b ≠ none := by
      intro j hj b hb'
      by_cases hjl : j < keys.length
      · exact hdec j hjl b hb'
      · have : j = keys.length := by omega
        subst this
        rcases h.new with hn | hn | hn <;> rw [hn] at hb'
        · simp at hb'
        · injection hb' with hb'; rw [← hb', E.utf8dec_zeros]; simp
        · injection hb' with hb'; rw [← hb', E.utf8_roundtrip]; simp
    rw [run_indexUpdate_gen hok hb hl hdec']
    rw [List.range'_concat, List.filterMap_append, hrange, ← he]
    simp only [Nat.zero_add, Nat.one_mul, List.filterMap_cons, List.filterMap_nil]
    cases slotText E s ix keys.length <;> rfl

/-! ## removing -/

/-- the states an interrupted removal of `target` can leave -/
structure DelMid (E : Env) (ix : Index) (keys : List Str) (target : Str) (s : Store) : Prop where
  mem : s.names ix.name = some ix.memory
  len : ∃ L, L < 256 ^ 8 ∧ s.segs ix.memory = toLE 8 L ∧
    (∀ j < L, ∀ b, s.content (keyAddr ix.name j) = some b → E.utf8dec b ≠ none) ∧
    ∀ k ∈ keys, k ≠ target → ∃ j < L, s.content (keyAddr ix.name j) = some (E.utf8 k)

theorem DelMid.same {s s' : Store} {ix : Index} {keys : List Str} {text : Str} (h : DelMid E ix keys text s)
    {P : Str → Prop} (hs : SameOff P s s') (hm : ¬ P ix.name) (hk : ∀ i, ¬ P (keyAddr ix.name i)) :
    DelMid E ix keys text s' := by
  have hmem := hs ix.name hm
  have m1 : s'.names ix.name = some ix.memory := by rw [hmem.1]; exact h.mem
  obtain ⟨L, hL, hl, hd, hall⟩ := h.len
  refine ⟨m1, L, hL, ?_, ?_, ?_⟩
  · have := hmem.2
    rw [content_some m1, content_some h.mem] at this
    injection this with this
    rw [this]; exact hl
  · intro j hj b hb
    rw [(hs _ (hk j)).2] at hb; exact hd j hj b hb
  · intro k hk' hne
    obtain ⟨j, hj, hc⟩ := hall k hk' hne
    exact ⟨j, hj, by rw [(hs _ (hk j)).2]; exact hc⟩

theorem DelMid.listing {s : Store} {ix : Index} {keys : List Str} {target : Str} (h : DelMid E ix keys target s)
    (hok : NamesOK E ix.name) : ∃ l, (indexUpdate E ix).run E s = (.ok l, s) ∧ ∀ k ∈ keys, k ≠ target → k ∈ l := by
  obtain ⟨L, hL, hl, hd, hall⟩ := h.len
  refine ⟨_, run_indexUpdate_gen hok hL hl hd, ?_⟩
  intro k hk hne
  obtain ⟨j, hj, hc⟩ := hall k hk hne
  rw [List.mem_filterMap]
  exact ⟨j, by rw [List.mem_range'_1]; omega, by rw [slotText, hc]; exact E.utf8_roundtrip k⟩

theorem always_indexDel_ {s : Store} (w : s.WF) {ix : Index} {keys : List Str} (h : IxRep E s ix keys)
    (hok : NamesOK E ix.name) {key : Key} (hk : key.hashed E = E.utf8 key.text)
    (hinj : ∀ k' ∈ keys, E.sha (E.utf8 k') = E.sha (E.utf8 key.text) → k' = key.text) :
    Always E (fun s' => s'.WF ∧ DelMid E ix keys key.text s' ∧ SameOff (indexNames ix.name) s s')
      (indexDel_ E ix key) s := by
  have hbound := h.bound
  have hdecall : ∀ j < keys.length, ∀ b, s.content (keyAddr ix.name j) = some b → E.utf8dec b ≠ none := by
    intro j hj b hb'
    rw [h.key j _ (List.getElem?_eq_getElem hj)] at hb'
    injection hb' with hb'
    rw [← hb', E.utf8_roundtrip]; simp
  have h0 : s.WF ∧ DelMid E ix keys key.text s ∧ SameOff (indexNames ix.name) s s := by
    refine ⟨w, ⟨h.mem, keys.length, h.bound, h.len, hdecall, ?_⟩, SameOff.refl _ _⟩
    intro k hk' _
    obtain ⟨j, hj⟩ := List.mem_iff_getElem?.1 hk'
    exact ⟨j, by by_contra hc; rw [List.getElem?_eq_none (by omega)] at hj; simp at hj, h.key j k hj⟩
  unfold indexDel_
  rw [hk]
  refine always_bind (ReadOnly.always (readOnly_check _ _ _) h0) fun r s' hr => ?_
  have hs' : s' = s := by have := ReadOnly.run (E := E) (readOnly_check E ix (E.utf8 key.text)) s; rw [hr] at this; exact this
  subst hs'
  cases r with
  | none => exact h0
  | some i =>
    cases hp : position key.text keys with
    | none =>
      exfalso
      rw [position_none] at hp
      rw [run_check_none hok (h.absent fun k' hk' he => hp (hinj k' hk' he ▸ hk'))] at hr
      simp at hr
    | some i' =>
      have hi := position_some hp
      rw [run_check_some h hok hi] at hr
      injection hr with hr _; injection hr with hr; injection hr with hr; subst hr
      have li : i' < keys.length := position_lt hp
      simp only []
      refine always_bind (ReadOnly.always (readOnly_readLength _) h0) fun n s1 hr => ?_
      rw [run_readLength h] at hr
      injection hr with hr1 hr2; injection hr1 with hr1; subst hr1; subst hr2
      -- the tail: remove the name block, write the new length
      have tail : ∀ s3, s3.WF → s3.names ix.name = some ix.memory → SameOff (indexNames ix.name) s' s3 →
          s3.segs ix.memory = toLE 8 keys.length →
          s3.content (keyAddr ix.name (keys.length - 1)) = none →
          (∀ j < keys.length, ∀ b, s3.content (keyAddr ix.name j) = some b → E.utf8dec b ≠ none) →
          (∀ k ∈ keys, k ≠ key.text → ∃ j < keys.length - 1, s3.content (keyAddr ix.name j) = some (E.utf8 k)) →
          Always E (fun s'' => s''.WF ∧ DelMid E ix keys key.text s'' ∧ SameOff (indexNames ix.name) s' s'')
            (do deleteBlock (hashAddr E ix.name (E.utf8 key.text))
                let nb ← intBytes 8 (keys.length - 1)
                write ix.memory nb
                pure (i', keys.length) : Prog (Nat × Nat)) s3 := by
        intro s3 w3 m3 o3 l3 hn3 hd3 ha3
        have hmid : ∀ s4, s4.WF → s4.names ix.name = some ix.memory → (s4.segs ix.memory = toLE 8 keys.length ∨
            s4.segs ix.memory = toLE 8 (keys.length - 1)) →
            (∀ j, s4.content (keyAddr ix.name j) = s3.content (keyAddr ix.name j)) →
            SameOff (indexNames ix.name) s' s4 →
            s4.WF ∧ DelMid E ix keys key.text s4 ∧ SameOff (indexNames ix.name) s' s4 := by
          intro s4 w4 m4 l4 c4 o4
          refine ⟨w4, ⟨m4, ?_⟩, o4⟩
          rcases l4 with l4 | l4
          · exact ⟨keys.length, h.bound, l4, fun j hj b hb => hd3 j hj b (by rw [← c4]; exact hb), fun k hk' hne => by
              obtain ⟨j, hj, hc⟩ := ha3 k hk' hne
              exact ⟨j, by omega, by rw [c4]; exact hc⟩⟩
          · exact ⟨keys.length - 1, by omega, l4, fun j hj b hb => hd3 j (by omega) b (by rw [← c4]; exact hb),
              fun k hk' hne => by
              obtain ⟨j, hj, hc⟩ := ha3 k hk' hne
              exact ⟨j, by omega, by rw [c4]; exact hc⟩⟩
        have h3 := hmid s3 w3 m3 (Or.inl l3) (fun _ => rfl) o3
        have f4 := eff_unlinked w3 (hashAddr E ix.name (E.utf8 key.text))
        have m4 : (s3.unlinked (hashAddr E ix.name (E.utf8 key.text))).names ix.name = some ix.memory := by
          rw [f4.names _ (by rw [addr_hash]; exact (hash_ne_mem _ _).symm)]; exact m3
        have h4 := hmid _ f4.wf m4 (Or.inl l3)
          (fun j => by rw [f4.content, if_neg (by rw [addr_hash]; exact key_ne_hash _ _ _)])
          (o3.trans (f4.sameOff (indexNames_hash _ _ _)))
        refine always_bind (always_deleteBlock h3 h4) fun u s4 hr => ?_
        have h4' : s4 = s3 ∨ s4 = s3.unlinked (hashAddr E ix.name (E.utf8 key.text)) := by
          cases hn : s3.names (hashAddr E ix.name (E.utf8 key.text)) with
          | none => rw [run_deleteBlock_none (hok.hash _) hn] at hr; simp at hr
          | some j => rw [run_deleteBlock (hok.hash _) hn] at hr; injection hr with _ hr; exact Or.inr hr.symm
        have h4'' : s4.WF ∧ DelMid E ix keys key.text s4 ∧ SameOff (indexNames ix.name) s' s4 := by
          rcases h4' with h | h <;> rw [h]
          · exact h3
          · exact h4
        have m4' : s4.names ix.name = some ix.memory := h4''.2.1.mem
        have c4' : ∀ j, s4.content (keyAddr ix.name j) = s3.content (keyAddr ix.name j) := by
          rcases h4' with h | h <;> rw [h] <;> intro j
          · rfl
          rw [f4.content, if_neg (by rw [addr_hash]; exact key_ne_hash _ _ _)]
        refine always_bind (always_intBytes h4'') fun nb s5 hr => ?_
        rw [run_intBytes (by omega)] at hr
        injection hr with hr1 hr2; injection hr1 with hr1; subst hr1; subst hr2
        have f5 := eff_wrote h4''.1 m4' (toLE 8 (keys.length - 1))
        have h5 := hmid (s4.wrote ix.memory (toLE 8 (keys.length - 1))) f5.wf (by simpa using m4')
          (Or.inr (by simp [Store.wrote])) (fun j => by rw [f5.content, if_neg (key_ne_mem _ _), c4'])
          (h4''.2.2.trans (f5.sameOff (indexNames_mem _)))
        refine always_bind (always_write h4'' fun _ => h5) fun u s6 hr => ?_
        have : s6 = s4 ∨ s6 = s4.wrote ix.memory (toLE 8 (keys.length - 1)) := by
          by_cases hl : (toLE 8 (keys.length - 1)).length = (s4.segs ix.memory).length
          · rw [run_write hl] at hr; injection hr with _ hr; exact Or.inr hr.symm
          · rw [run_write_bad hl] at hr; simp at hr
        rcases this with h | h <;> rw [h]
        · exact h4''
        · exact h5
      by_cases hlast : i' + 1 = keys.length
      · rw [if_neg (by simpa using hlast)]
        have f1 := eff_unlinked w (keyAddr ix.name i')
        obtain ⟨kj, hkj, hks⟩ := names_of_content (h.key i' _ hi)
        have m1 : (s'.unlinked (keyAddr ix.name i')).names ix.name = some ix.memory := by
          rw [f1.names _ (key_ne_mem _ _).symm]; exact h.mem
        have hd1 : ∀ j < keys.length, ∀ b, (s'.unlinked (keyAddr ix.name i')).content (keyAddr ix.name j) = some b →
            E.utf8dec b ≠ none := by
          intro j hj b hb
          rw [f1.content] at hb
          split at hb
          · simp at hb
          · exact hdecall j hj b hb
        have ha1 : ∀ k ∈ keys, k ≠ key.text → ∃ j < keys.length - 1,
            (s'.unlinked (keyAddr ix.name i')).content (keyAddr ix.name j) = some (E.utf8 k) := by
          intro k hk' hne
          obtain ⟨j, hj⟩ := List.mem_iff_getElem?.1 hk'
          have lj : j < keys.length := by
            by_contra hc; rw [List.getElem?_eq_none (by omega)] at hj; simp at hj
          have hji : j ≠ i' := by
            intro e; rw [e, hi] at hj; injection hj with hj; exact hne hj.symm
          exact ⟨j, by omega, by rw [f1.content, if_neg (by rw [key_eq]; exact hji)]; exact h.key j k hj⟩
        have h1 : (s'.unlinked (keyAddr ix.name i')).WF ∧ DelMid E ix keys key.text (s'.unlinked (keyAddr ix.name i')) ∧
            SameOff (indexNames ix.name) s' (s'.unlinked (keyAddr ix.name i')) :=
          ⟨f1.wf, ⟨m1, keys.length, h.bound, h.len, hd1, fun k hk' hne => by
            obtain ⟨j, hj, hc⟩ := ha1 k hk' hne; exact ⟨j, by omega, hc⟩⟩, f1.sameOff (indexNames_key _ _)⟩
        refine always_bind (always_deleteBlock h0 h1) fun u s2 hr => ?_
        rw [run_deleteBlock (hok.key _ (by omega)) hkj] at hr
        injection hr with _ hr; subst hr
        exact tail _ f1.wf m1 h1.2.2 h.len (by rw [f1.content, if_pos (by rw [key_eq]; omega)]) hd1 ha1
      · rw [if_pos (by simpa using hlast)]
        obtain ⟨l, hl⟩ : ∃ l, keys[keys.length - 1]? = some l := ⟨_, List.getElem?_eq_getElem (by omega)⟩
        have hlne : l ≠ [] := h.nonempty l (List.mem_of_getElem? hl)
        obtain ⟨lj, hlj, hls⟩ := names_of_content (h.key _ _ hl)
        -- stores that differ from `s'` at the slot of the target
        have hmk : ∀ s1 v, Eff s' s1 (keyAddr ix.name i') v → (∀ b, v = some b → E.utf8dec b ≠ none) →
            s1.WF ∧ DelMid E ix keys key.text s1 ∧ SameOff (indexNames ix.name) s' s1 := by
          intro s1 v f1 hv
          have m1 : s1.names ix.name = some ix.memory := by rw [f1.names _ (key_ne_mem _ _).symm]; exact h.mem
          refine ⟨f1.wf, ⟨m1, keys.length, h.bound, ?_, ?_, ?_⟩, f1.sameOff (indexNames_key _ _)⟩
          · have := f1.content ix.name
            rw [if_neg (key_ne_mem _ _).symm, content_some m1, content_some h.mem, h.len] at this
            injection this
          · intro j hj b hb
            rw [f1.content] at hb
            split at hb
            · exact hv b hb
            · exact hdecall j hj b hb
          · intro k hk' hne
            obtain ⟨j, hj⟩ := List.mem_iff_getElem?.1 hk'
            have lj : j < keys.length := by
              by_contra hc; rw [List.getElem?_eq_none (by omega)] at hj; simp at hj
            have hji : j ≠ i' := by
              intro e; rw [e, hi] at hj; injection hj with hj; exact hne hj.symm
            exact ⟨j, lj, by rw [f1.content, if_neg (by rw [key_eq]; exact hji)]; exact h.key j k hj⟩
        have hz : ∀ (b : Bytes), some (List.replicate (E.utf8 l).length 0) = some b → E.utf8dec b ≠ none := by
          intro b hb; injection hb with hb; rw [← hb, E.utf8dec_zeros]; simp
        have hu : ∀ (b : Bytes), some (E.utf8 l) = some b → E.utf8dec b ≠ none := by
          intro b hb; injection hb with hb; rw [← hb, E.utf8_roundtrip]; simp
        refine always_bind (ReadOnly.always (readOnly_attach _) h0) fun a s1 hr => ?_
        rw [run_attach (hok.key _ (by omega)) hlj] at hr
        injection hr with hr1 hr2; injection hr1 with hr1; subst hr1; subst hr2
        refine always_bind (ReadOnly.always (readOnly_read _) h0) fun lk s1 hr => ?_
        rw [run_read, hls] at hr
        injection hr with hr1 hr2; injection hr1 with hr1; subst hr1; subst hr2
        refine always_bind (always_openBlock h0 (fun _ => hmk _ _ (eff_created w _ _) hz)
          (fun _ _ => hmk _ _ (eff_unlinked w _) (by simp))
          (fun _ _ => hmk _ _ ((eff_unlinked w _).trans (eff_created (wf_unlinked w _) _ _)) hz)) fun mh s1 hr => ?_
        obtain ⟨mi, s1', s2, e1, e2, n2, f2, f1⟩ := run_put (E := E) (a := keyAddr ix.name i') (b := E.utf8 l) w
          (utf8_ne_nil E hlne) (hok.key _ (by omega))
        rw [e1] at hr; injection hr with hr1 hr2; injection hr1 with hr1; subst hr1; subst hr2
        have h1 := hmk _ _ f1 hz
        have h2 := hmk _ _ f2 hu
        refine always_bind (always_prim_run h1 e2 h2) fun u s3 hr => ?_
        rw [e2] at hr; injection hr with _ hr; subst hr
        have hl1 : s2.content (hashAddr E ix.name (E.utf8 l)) = some (toLE 8 (keys.length - 1)) := by
          rw [f2.content, if_neg (by rw [addr_hash]; exact (key_ne_hash _ _ _).symm)]; exact h.hash _ _ hl
        obtain ⟨nj, hnj, hns⟩ := names_of_content hl1
        refine always_bind (ReadOnly.always (readOnly_attach _) h2) fun a s3 hr => ?_
        rw [run_attach (hok.hash _) hnj] at hr
        injection hr with hr1 hr2; injection hr1 with hr1; subst hr1; subst hr2
        refine always_bind (always_intBytes h2) fun fb s3 hr => ?_
        rw [run_intBytes (by omega)] at hr
        injection hr with hr1 hr2; injection hr1 with hr1; subst hr1; subst hr2
        have f3 := eff_wrote f2.wf hnj (toLE 8 i')
        have e3 := run_write (E := E) (s := s2) (i := nj) (b := toLE 8 i') (by rw [hns]; simp)
        have h3 : (s2.wrote nj (toLE 8 i')).WF ∧ DelMid E ix keys key.text (s2.wrote nj (toLE 8 i')) ∧
            SameOff (indexNames ix.name) s' (s2.wrote nj (toLE 8 i')) :=
          ⟨f3.wf, h2.2.1.same (f3.sameOff (P := fun x => x = hashAddr E ix.name (E.utf8 l)) rfl)
            (by rw [addr_hash]; exact (hash_ne_mem _ _).symm) (fun i => by rw [addr_hash]; exact key_ne_hash _ _ _),
            h2.2.2.trans (f3.sameOff (indexNames_hash _ _ _))⟩
        refine always_bind (always_prim_run h2 e3 h3) fun u s4 hr => ?_
        rw [e3] at hr; injection hr with _ hr; subst hr
        have hl3 : (s2.wrote nj (toLE 8 i')).names (keyAddr ix.name (keys.length - 1)) = some lj := by
          rw [names_wrote, f2.names _ (by rw [Ne, key_eq]; omega)]; exact hlj
        have f4 := eff_unlinked f3.wf (keyAddr ix.name (keys.length - 1))
        have m4 : ((s2.wrote nj (toLE 8 i')).unlinked (keyAddr ix.name (keys.length - 1))).names ix.name =
            some ix.memory := by rw [f4.names _ (key_ne_mem _ _).symm]; exact h3.2.1.mem
        have c4 : ∀ j, ((s2.wrote nj (toLE 8 i')).unlinked (keyAddr ix.name (keys.length - 1))).content
            (keyAddr ix.name j) = if j = keys.length - 1 then none else if j = i' then some (E.utf8 l)
              else s'.content (keyAddr ix.name j) := by
          intro j
          have hne : keyAddr ix.name j ≠ hashAddr E ix.name (E.utf8 l) := by rw [addr_hash]; exact key_ne_hash _ _ _
          rw [f4.content, f3.content, f2.content, if_neg hne]
          simp only [key_eq]
        have l4 : ((s2.wrote nj (toLE 8 i')).unlinked (keyAddr ix.name (keys.length - 1))).segs ix.memory =
            toLE 8 keys.length := by
          have hcm := content_some m4
          rw [f4.content, if_neg (key_ne_mem _ _).symm, f3.content,
            if_neg (by rw [addr_hash]; exact (hash_ne_mem _ _).symm), f2.content, if_neg (key_ne_mem _ _).symm,
            content_some h.mem, h.len] at hcm
          injection hcm with hcm
          exact hcm.symm
        have hd4 : ∀ j < keys.length, ∀ b, ((s2.wrote nj (toLE 8 i')).unlinked
            (keyAddr ix.name (keys.length - 1))).content (keyAddr ix.name j) = some b → E.utf8dec b ≠ none := by
          intro j hj b hb
          rw [c4] at hb
          split at hb
          · simp at hb
          · split at hb
            · exact hu b hb
            · exact hdecall j hj b hb
        have ha4 : ∀ k ∈ keys, k ≠ key.text → ∃ j < keys.length - 1, ((s2.wrote nj (toLE 8 i')).unlinked
            (keyAddr ix.name (keys.length - 1))).content (keyAddr ix.name j) = some (E.utf8 k) := by
          intro k hk' hne
          obtain ⟨j, hj⟩ := List.mem_iff_getElem?.1 hk'
          have lj : j < keys.length := by
            by_contra hc; rw [List.getElem?_eq_none (by omega)] at hj; simp at hj
          have hji : j ≠ i' := by
            intro e; rw [e, hi] at hj; injection hj with hj; exact hne hj.symm
          by_cases hjl : j = keys.length - 1
          · refine ⟨i', by omega, ?_⟩
            rw [c4, if_neg (by omega), if_pos rfl]
            rw [hjl, hl] at hj; injection hj with hj; rw [hj]
          · exact ⟨j, by omega, by rw [c4, if_neg hjl, if_neg hji]; exact h.key j k hj⟩
        have h4 : _ ∧ DelMid E ix keys key.text ((s2.wrote nj (toLE 8 i')).unlinked
            (keyAddr ix.name (keys.length - 1))) ∧ SameOff (indexNames ix.name) s'
            ((s2.wrote nj (toLE 8 i')).unlinked (keyAddr ix.name (keys.length - 1))) :=
          ⟨f4.wf, ⟨m4, keys.length, h.bound, l4, hd4, fun k hk' hne => by
            obtain ⟨j, hj, hc⟩ := ha4 k hk' hne; exact ⟨j, by omega, hc⟩⟩,
            h3.2.2.trans (f4.sameOff (indexNames_key _ _))⟩
        refine always_bind (always_unlink h3 h4) fun u s5 hr => ?_
        rw [run_unlink hl3] at hr
        injection hr with _ hr; subst hr
        exact tail _ f4.wf m4 h4.2.2 l4 (by rw [c4, if_pos rfl]) hd4 ha4

end Verif.Lemmas
