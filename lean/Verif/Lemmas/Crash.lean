import Verif.Lemmas.TagIndexHist
/-! # Programs stopped at any primitive operation -/
namespace Verif.Lemmas
open Verif Verif.Model
variable {α β : Type} {E : Env}

/-- `P` holds of every store the program passes through -/
def Always (E : Env) (P : Store → Prop) : Prog α → Store → Prop
  | .ret _, s => P s
  | .raise _, s => P s
  | .stuck, s => P s
  | .op o k, s => P s ∧ Always E P (k (o.step E s).1) (o.step E s).2

theorem always_start {P : Store → Prop} {p : Prog α} {s : Store} (h : Always E P p s) : P s := by
  cases p <;> first | exact h | exact h.1

theorem always_crash {P : Store → Prop} {p : Prog α} {s : Store} (h : Always E P p s) (n : Nat) :
    P (p.crash E n s) := by
  induction n generalizing p s with
  | zero => have := always_start h; cases p <;> exact this
  | succ n ih =>
    cases p with
    | op o k => exact ih h.2
    | ret a => exact h
    | raise e => exact h
    | stuck => exact h

theorem always_end {P : Store → Prop} {p : Prog α} {s : Store} (h : Always E P p s) : P (p.run E s).2 := by
  induction p generalizing s with
  | ret a => exact h
  | raise e => exact h
  | stuck => exact h
  | op o k ih => exact ih _ h.2

theorem always_mono {P Q : Store → Prop} {p : Prog α} {s : Store} (h : Always E P p s) (hPQ : ∀ s, P s → Q s) :
    Always E Q p s := by
  induction p generalizing s with
  | ret a => exact hPQ _ h
  | raise e => exact hPQ _ h
  | stuck => exact hPQ _ h
  | op o k ih => exact ⟨hPQ _ h.1, ih _ h.2⟩

theorem always_bind {P : Store → Prop} {p : Prog α} {f : α → Prog β} {s : Store} (h : Always E P p s)
    (hf : ∀ a s', p.run E s = (.ok a, s') → Always E P (f a) s') : Always E P (p >>= f) s := by
  show Always E P (p.bind f) s
  induction p generalizing s with
  | ret a => exact hf a s rfl
  | raise e => exact h
  | stuck => exact h
  | op o k ih => exact ⟨h.1, ih _ h.2 (fun a s' hr => hf a s' hr)⟩

theorem always_catch {P : Store → Prop} {p : Prog α} {g : PyErr → Prog α} {s : Store} (h : Always E P p s)
    (hg : ∀ e s', p.run E s = (.err e, s') → Always E P (g e) s') : Always E P (p.catch_ g) s := by
  induction p generalizing s with
  | ret a => exact h
  | raise e => exact hg e s rfl
  | stuck => exact h
  | op o k ih => exact ⟨h.1, ih _ h.2 (fun a s' hr => hg a s' hr)⟩

theorem always_attempt {P : Store → Prop} {p : Prog α} {s : Store} (h : Always E P p s) :
    Always E P p.attempt s := by
  have h1 : Always E P (p.bind fun a => Prog.ret (Except.ok a : Except PyErr α)) s :=
    always_bind (f := fun a => Prog.ret (Except.ok a)) h (fun a s' hr => by
      have := always_end h; rw [hr] at this; exact this)
  exact always_catch h1 (fun e s' hr => by have := always_end h1; rw [hr] at this; exact this)

theorem always_prim {P : Store → Prop} {o : Op} {s : Store} (h : P s) (h' : P (o.step E s).2) :
    Always E P (Prog.prim o) s := by
  refine ⟨h, ?_⟩
  cases (o.step E s).1 <;> exact h'

theorem always_prim_run {P : Store → Prop} {o : Op} {s : Store} (h : P s) {r : Outcome o.Res} {s' : Store}
    (hr : (Prog.prim o).run E s = (r, s')) (h' : P s') : Always E P (Prog.prim o) s := by
  refine always_prim h ?_
  have : ((Prog.prim o).run E s).2 = (o.step E s).2 := by
    simp only [Prog.prim, Prog.run]
    cases (o.step E s).1 <;> rfl
  rw [hr] at this
  rw [← this]; exact h'

theorem always_pure {P : Store → Prop} {a : α} {s : Store} (h : P s) : Always E P (pure a : Prog α) s := h
theorem always_raise {P : Store → Prop} {e : PyErr} {s : Store} (h : P s) : Always E P (Prog.raise e : Prog α) s := h
theorem always_ofExcept {P : Store → Prop} {r : Except PyErr α} {s : Store} (h : P s) :
    Always E P (Prog.ofExcept r) s := by cases r <;> exact h
theorem always_intBytes {P : Store → Prop} {w n : Nat} {s : Store} (h : P s) : Always E P (intBytes w n) s := by
  unfold intBytes; split <;> exact h

/-! ## programs that only look -/

/-- operations that change nothing -/
def _root_.Verif.Model.Op.looks : Op → Bool
  | .attach _ => true
  | .read _ => true
  | _ => false

/-- the program only opens existing blocks and reads them -/
def _root_.Verif.Model.Prog.ReadOnly : Prog α → Prop
  | .op o k => o.looks = true ∧ ∀ r, (k r).ReadOnly
  | _ => True

theorem step_looks {o : Op} (h : o.looks = true) (s : Store) : (o.step E s).2 = s := by
  cases o with
  | attach n =>
    simp only [Op.step]
    split
    · rfl
    · cases s.names n <;> rfl
  | read i => rfl
  | _ => simp [Op.looks] at h

theorem ReadOnly.run {p : Prog α} (h : p.ReadOnly) (s : Store) : (p.run E s).2 = s := by
  induction p generalizing s with
  | op o k ih => simp only [Prog.run]; rw [ih _ (h.2 _), step_looks h.1]
  | _ => rfl

theorem ReadOnly.always {P : Store → Prop} {p : Prog α} (h : p.ReadOnly) {s : Store} (hs : P s) : Always E P p s := by
  induction p generalizing s with
  | op o k ih => exact ⟨hs, ih _ (h.2 _) (by rw [step_looks h.1]; exact hs)⟩
  | _ => exact hs

theorem ReadOnly.bind {p : Prog α} {f : α → Prog β} (h : p.ReadOnly) (hf : ∀ a, (f a).ReadOnly) :
    (p >>= f).ReadOnly := by
  show (p.bind f).ReadOnly
  induction p with
  | ret a => exact hf a
  | raise e => trivial
  | stuck => trivial
  | op o k ih => exact ⟨h.1, fun r => ih r (h.2 r)⟩

theorem ReadOnly.catch_ {p : Prog α} {g : PyErr → Prog α} (h : p.ReadOnly) (hg : ∀ e, (g e).ReadOnly) :
    (p.catch_ g).ReadOnly := by
  induction p with
  | ret a => trivial
  | raise e => exact hg e
  | stuck => trivial
  | op o k ih => exact ⟨h.1, fun r => ih r (h.2 r)⟩

theorem ReadOnly.attempt {p : Prog α} (h : p.ReadOnly) : p.attempt.ReadOnly :=
  ReadOnly.catch_ (ReadOnly.bind (f := fun a => Prog.ret (Except.ok a)) h fun _ => trivial) fun _ => trivial

theorem readOnly_prim {o : Op} (h : o.looks = true) : (Prog.prim o).ReadOnly :=
  ⟨h, fun r => by cases r <;> trivial⟩

theorem readOnly_attach (n : Str) : (attach n).ReadOnly := readOnly_prim rfl
theorem readOnly_read (i : Nat) : (read i).ReadOnly := readOnly_prim rfl
theorem readOnly_pure (a : α) : (pure a : Prog α).ReadOnly := trivial
theorem readOnly_raise (e : PyErr) : (Prog.raise e : Prog α).ReadOnly := trivial
theorem readOnly_ofExcept (r : Except PyErr α) : (Prog.ofExcept r).ReadOnly := by cases r <;> trivial

theorem readOnly_existsBlock (a : Str) : (existsBlock a).ReadOnly := by
  refine ReadOnly.bind (ReadOnly.attempt (readOnly_attach a)) fun r => ?_
  cases r with
  | ok h => trivial
  | error e => cases e <;> trivial

theorem readOnly_fetchBlockBytes (a : Str) : (fetchBlockBytes a).ReadOnly :=
  ReadOnly.bind (readOnly_attach a) fun h => readOnly_read h

theorem readOnly_remember {V : Type} (c : Codec V) (a : Str) : (remember c a).ReadOnly :=
  ReadOnly.bind (readOnly_fetchBlockBytes a) fun _ => readOnly_ofExcept _

theorem readOnly_check (E' : Env) (ix : Index) (b : Bytes) : (check E' ix b).ReadOnly := by
  refine ReadOnly.bind (readOnly_existsBlock _) fun r => ?_
  cases r with
  | true =>
    simp only [if_true]
    exact ReadOnly.bind (readOnly_attach _) fun h => ReadOnly.bind (readOnly_read h) fun _ => trivial
  | false => trivial

theorem readOnly_readLength (ix : Index) : (readLength ix).ReadOnly :=
  ReadOnly.bind (readOnly_read _) fun _ => trivial

theorem readOnly_decodeUtf8 (E' : Env) (b : Bytes) : (decodeUtf8 E' b).ReadOnly := by
  unfold decodeUtf8; cases E'.utf8dec b <;> trivial

theorem readOnly_loadKey? (E' : Env) (ix : Index) (i : Nat) : (loadKey? E' ix i).ReadOnly := by
  refine ReadOnly.bind (ReadOnly.attempt (readOnly_attach _)) fun r => ?_
  cases r with
  | ok h =>
    exact ReadOnly.bind (readOnly_read h) fun b => ReadOnly.bind (readOnly_decodeUtf8 _ _) fun _ => trivial
  | error e => cases e <;> trivial

theorem readOnly_enumerateKeys (E' : Env) (ix : Index) (i d : Nat) : (enumerateKeys E' ix i d).ReadOnly := by
  induction d generalizing i with
  | zero => trivial
  | succ d ih => exact ReadOnly.bind (readOnly_loadKey? _ _ _) fun k => ReadOnly.bind (ih _) fun _ => trivial

theorem readOnly_indexUpdate (E' : Env) (ix : Index) : (indexUpdate E' ix).ReadOnly :=
  ReadOnly.bind (readOnly_readLength _) fun _ => readOnly_enumerateKeys _ _ _ _

theorem readOnly_scanLocks (name : Str) (fl d : Nat) : (scanLocks name fl d).ReadOnly := by
  induction d with
  | zero => trivial
  | succ d ih =>
    refine ReadOnly.bind (readOnly_existsBlock _) fun b => ?_
    cases b with
    | true => trivial
    | false => exact ih

theorem readOnly_spin (name : Str) (fl n f : Nat) : (spin name fl n f).ReadOnly := by
  induction f with
  | zero => trivial
  | succ f ih =>
    refine ReadOnly.bind (readOnly_scanLocks _ _ _) fun b => ?_
    cases b with
    | true => trivial
    | false => exact ih

/-! ## writing programs -/

theorem always_openBlock {P : Store → Prop} {a : Str} {size : Nat} {cr ow : Bool} {s : Store} (h : P s)
    (hw : s.names a = none → P (s.created a size))
    (h1 : ow = true → cr = true → P (s.unlinked a)) (h2 : ow = true → cr = true → P ((s.unlinked a).created a size)) :
    Always E P (openBlock a size cr ow) s := by
  unfold openBlock
  have hA : ∀ n, Always E P (attach n) s := fun n => ReadOnly.always (readOnly_attach n) h
  cases cr with
  | false =>
    simp only [Bool.false_eq_true, if_false]
    refine always_bind (always_attempt (hA _)) fun r s' hr => ?_
    have hs' : s' = s := by
      have := ReadOnly.run (E := E) (ReadOnly.attempt (readOnly_attach a)) s; rw [hr] at this; exact this
    subst hs'
    have hne : r ≠ .error .fileExists := by
      intro he; subst he
      rw [run_attempt] at hr
      cases hok : E.okName a with
      | false => rw [run_attach_bad _ hok] at hr; simp at hr
      | true =>
        cases hn : s'.names a with
        | none => rw [run_attach_none hok hn] at hr; simp at hr
        | some i => rw [run_attach hok hn] at hr; simp at hr
    cases r with
    | ok i => exact h
    | error e => cases e <;> first | exact h | exact absurd rfl hne
  | true =>
    simp only [if_true]
    by_cases hz : size = 0
    · subst hz
      refine always_bind (always_attempt (always_prim_run h (run_create_zero _ _) h)) fun r s' hr => ?_
      rw [run_attempt, run_create_zero] at hr
      simp at hr; obtain ⟨hr, rfl⟩ := hr; subst hr; exact h
    · cases hok : E.okName a with
      | false =>
        refine always_bind (always_attempt (always_prim_run h (run_create_bad _ hz hok) h)) fun r s' hr => ?_
        rw [run_attempt, run_create_bad _ hz hok] at hr
        simp at hr; obtain ⟨hr, rfl⟩ := hr; subst hr; exact h
      | true =>
        cases hn : s.names a with
        | none =>
          refine always_bind (always_attempt (always_prim_run h (run_create hz hok hn) (hw hn))) fun r s' hr => ?_
          rw [run_attempt, run_create hz hok hn] at hr
          simp at hr; obtain ⟨hr, rfl⟩ := hr; subst hr; exact hw hn
        | some i =>
          refine always_bind (always_attempt (always_prim_run h (run_create_exists hz hok hn) h)) fun r s' hr => ?_
          rw [run_attempt, run_create_exists hz hok hn] at hr
          simp at hr; obtain ⟨hr, rfl⟩ := hr; subst hr
          simp only []
          cases ow with
          | false => simp only [if_true]; exact hA _
          | true =>
            simp only [Bool.true_eq_false, if_false]
            refine always_bind (hA _) fun _ s' hr => ?_
            rw [run_attach hok hn] at hr
            injection hr with _ hr; subst hr
            refine always_bind (always_prim_run h (run_unlink hn) (h1 rfl rfl)) fun _ s' hr => ?_
            rw [run_unlink hn] at hr
            injection hr with _ hr; subst hr
            exact always_prim_run (h1 rfl rfl) (run_create hz hok (by simp)) (h2 rfl rfl)

theorem always_write {P : Store → Prop} {i : Nat} {b : Bytes} {s : Store} (h : P s)
    (h' : b.length = (s.segs i).length → P (s.wrote i b)) : Always E P (write i b) s := by
  by_cases hl : b.length = (s.segs i).length
  · exact always_prim_run h (run_write hl) (h' hl)
  · exact always_prim_run h (run_write_bad hl) h

theorem always_create {P : Store → Prop} {a : Str} {size : Nat} {s : Store} (h : P s)
    (hw : s.names a = none → P (s.created a size)) : Always E P (create a size) s := by
  by_cases hz : size = 0
  · subst hz; exact always_prim_run h (run_create_zero _ _) h
  · cases hok : E.okName a with
    | false => exact always_prim_run h (run_create_bad _ hz hok) h
    | true =>
      cases hn : s.names a with
      | none => exact always_prim_run h (run_create hz hok hn) (hw hn)
      | some i => exact always_prim_run h (run_create_exists hz hok hn) h

theorem always_unlink {P : Store → Prop} {a : Str} {s : Store} (h : P s) (h' : P (s.unlinked a)) :
    Always E P (unlink a) s := by
  cases hn : s.names a with
  | none => exact always_prim_run h (run_unlink_none hn) h
  | some i => exact always_prim_run h (run_unlink hn) h'

theorem always_deleteBlock {P : Store → Prop} {a : Str} {mo : Bool} {s : Store} (h : P s) (h' : P (s.unlinked a)) :
    Always E P (deleteBlock a mo) s := by
  unfold deleteBlock
  have hb : Always E P (do let _ ← attach a; unlink a : Prog Unit) s := by
    refine always_bind (ReadOnly.always (readOnly_attach a) h) fun _ s' hr => ?_
    have : s' = s := by have := ReadOnly.run (E := E) (readOnly_attach a) s; rw [hr] at this; exact this
    subst this
    exact always_unlink h h'
  refine always_bind (always_attempt hb) fun r s' hr => ?_
  have hs' := always_end (always_attempt hb)
  rw [hr] at hs'
  cases r with
  | ok u => exact hs'
  | error e => cases e <;> first | exact hs' | (cases mo <;> exact hs')

/-! ## an uncontended lock -/

/-- entering an uncontended lock passes only through stores that differ at the lock's own blocks -/
theorem always_lockEnter {s : Store} (w : s.WF) {name : Str} {fl fuel : Nat} (hok : NamesOK E name)
    (hc : LockClean s name fl) (hb : fl + 1 < 256 ^ 5) :
    Always E (fun s' => s'.WF ∧ SameOff (lockNames name) s s') (lockEnter fuel name) s := by
  have h0 : s.WF ∧ SameOff (lockNames name) s s := ⟨w, SameOff.refl _ _⟩
  unfold lockEnter
  obtain ⟨c, s1, e1, w1, n1, v1, l1, o1⟩ := run_openCount w hok hc
  have h1 : s1.WF ∧ SameOff (lockNames name) s s1 := ⟨w1, o1.mono (fun x hx => hx ▸ lockNames_count name)⟩
  refine always_bind (always_openBlock h0 (fun _ => ⟨wf_created w _ _, (eff_created w _ _).sameOff (lockNames_count _)⟩)
    (by simp) (by simp)) fun c' s1' hr => ?_
  rw [e1] at hr; injection hr with hr1 hr2; injection hr1 with hr1; subst hr1; subst hr2
  have hfloor : fromLE (s1.segs c) = fl := by
    rw [v1]
    rcases hc.count with ⟨h, h'⟩ | h
    · rw [h, h']; simp
    · rw [h]; simp; exact fromLE_toLE _ _ (by omega)
  have hb' : fl + 1 < 256 ^ 8 := by have : (256:Nat) ^ 5 < 256 ^ 8 := by decide
                                    omega
  refine always_bind (ReadOnly.always (readOnly_read c) h1) fun b s' hr => ?_
  rw [run_read] at hr; injection hr with hr1 hr2; injection hr1 with hr1; subst hr1; subst hr2
  rw [hfloor]
  have hm1 : ∀ n, s1.content (markerAddr name n) = none := fun n => by
    rw [(o1 _ (by simp only [addr_marker, addr_count, addr_inj]; simp)).2]; exact hc.marker n
  have hl1 : ∀ n, s1.content (lockAddr name n) = none := fun n => by
    rw [(o1 _ (by simp only [addr_lock, addr_count, addr_inj]; simp)).2]; exact hc.lock n
  have f2 := eff_created w1 (markerAddr name (fl + 1)) 1
  have e2 := run_create (E := E) (size := 1) (by omega) (hok.marker _ hb') (content_none.1 (hm1 (fl + 1)))
  have h2 : (s1.created (markerAddr name (fl + 1)) 1).WF ∧ SameOff (lockNames name) s
      (s1.created (markerAddr name (fl + 1)) 1) := ⟨f2.wf, h1.2.trans (f2.sameOff (lockNames_marker name _))⟩
  cases fuel with
  | zero => exact h1
  | succ fuel =>
    have er : (renumber name (fuel + 1) (fl + 1)).run E s1 =
        (.ok (fl + 1), s1.created (markerAddr name (fl + 1)) 1) := by
      rw [renumber, run_bind, run_attempt, e2]; rfl
    refine always_bind ?_ fun n s' hr => ?_
    · rw [renumber]
      refine always_bind (always_attempt (always_prim_run h1 e2 h2)) fun r s' hr => ?_
      rw [run_attempt, e2] at hr
      simp at hr; obtain ⟨hr, rfl⟩ := hr; subst hr; exact h2
    · rw [er] at hr; injection hr with hr1 hr2; injection hr1 with hr1; subst hr1; subst hr2
      have hl2 : ∀ n, (s1.created (markerAddr name (fl + 1)) 1).content (lockAddr name n) = none := fun n => by
        rw [f2.content, if_neg (by simp only [addr_lock, addr_marker, addr_inj]; simp)]; exact hl1 n
      have f3 := eff_created f2.wf (lockAddr name (fl + 1)) 1
      have e3 := run_create (E := E) (size := 1) (by omega) (hok.lock _ hb') (content_none.1 (hl2 (fl + 1)))
      have h3 : ((s1.created (markerAddr name (fl + 1)) 1).created (lockAddr name (fl + 1)) 1).WF ∧
          SameOff (lockNames name) s ((s1.created (markerAddr name (fl + 1)) 1).created (lockAddr name (fl + 1)) 1) :=
        ⟨f3.wf, h2.2.trans (f3.sameOff (lockNames_lock name _))⟩
      refine always_bind (always_attempt (always_prim_run h2 e3 h3)) fun r s' hr => ?_
      rw [run_attempt, e3] at hr
      simp at hr; obtain ⟨hr, rfl⟩ := hr; subst hr
      simp only []
      exact ReadOnly.always (ReadOnly.bind (readOnly_spin _ _ _ _) fun _ => readOnly_pure _) h3

/-- so does releasing it -/
theorem always_lockRelease {s : Store} (w : s.WF) {name : Str} {h : Held} (hh : LockHeld s name h) :
    Always E (fun s' => s'.WF ∧ SameOff (lockNames name) s s') (lockRelease name h) s := by
  have h0 : s.WF ∧ SameOff (lockNames name) s s := ⟨w, SameOff.refl _ _⟩
  unfold lockRelease
  by_cases hb : h.number < 256 ^ 5
  · refine always_bind (always_intBytes h0) fun b s' hr => ?_
    rw [run_intBytes hb] at hr
    injection hr with hr1 hr2; injection hr1 with hr1; subst hr1; subst hr2
    have f1 := eff_wrote w hh.count (toLE 5 h.number)
    have h1 : (s.wrote h.count (toLE 5 h.number)).WF ∧ SameOff (lockNames name) s (s.wrote h.count (toLE 5 h.number)) :=
      ⟨f1.wf, f1.sameOff (lockNames_count name)⟩
    have e1 := run_write (E := E) (s := s) (i := h.count) (b := toLE 5 h.number) (by rw [toLE_length, hh.countLen])
    refine always_bind (always_prim_run h0 e1 h1) fun u s' hr => ?_
    rw [e1] at hr; injection hr with _ hr; subst hr
    rw [hh.own]
    simp only [if_true]
    have f2 := eff_unlinked f1.wf (lockAddr name h.number)
    have h2 := h1.2.trans (f2.sameOff (lockNames_lock name _))
    have l1 : (s.wrote h.count (toLE 5 h.number)).content (lockAddr name h.number) = some [0] := by
      rw [f1.content, if_neg (by simp only [addr_lock, addr_count, addr_inj]; simp), hh.lock]; simp
    obtain ⟨i, hi, _⟩ := names_of_content l1
    refine always_bind (always_unlink h1 ⟨f2.wf, h2⟩) fun u s' hr => ?_
    rw [run_unlink hi] at hr; injection hr with _ hr; subst hr
    have f3 := eff_unlinked f2.wf (markerAddr name h.number)
    exact always_unlink ⟨f2.wf, h2⟩ ⟨f3.wf, h2.trans (f3.sameOff (lockNames_marker name _))⟩
  · refine always_bind (always_intBytes h0) fun b s' hr => ?_
    rw [run_intBytes_overflow hb] at hr
    simp at hr

/-- `with lock: body`, uncontended: a property of stores that does not depend on the lock's own blocks holds
throughout, if it holds throughout the body -/
theorem always_withLock {P : Store → Prop} {s : Store} (w : s.WF) {name : Str} {fl : Nat} {mode : LockMode}
    {body : Prog α} (hok : NamesOK E name) (hc : LockClean s name fl) (hb : fl + 1 < 256 ^ 5)
    (hP : ∀ s1 s2, s2.WF → P s1 → SameOff (lockNames name) s1 s2 → P s2)
    (h0 : P s)
    (hbody : ∀ s1, s1.WF → SameOff (lockNames name) s s1 → P s1 → Always E P body s1 ∧
      SameOff (fun x => ¬ lockNames name x) s1 (body.run E s1).2) :
    Always E P (withLock mode name body) s := by
  cases mode with
  | fake => exact (hbody s w (SameOff.refl _ _) h0).1
  | sliding fuel =>
    simp only [withLock]
    refine always_bind (always_mono (always_lockEnter w hok hc hb) fun s' h => hP s s' h.1 h0 h.2) fun h s1 hr => ?_
    cases hf : fuel with
    | zero =>
      exfalso
      subst hf
      obtain ⟨c, s1, e1, w1, n1, v1, l1, o1⟩ := run_openCount w hok hc
      rw [lockEnter, run_bind, e1, andThen_ok, run_bind, run_read, andThen_ok, run_bind] at hr
      simp [renumber] at hr
    | succ f =>
      obtain ⟨h', s1', e1, hnum, w1, hh, hs1, _⟩ := run_lockEnter (E := E) w hok (fuel := fuel) (by omega) hc hb
      rw [e1] at hr; injection hr with hr1 hr2; injection hr1 with hr1; subst hr1; subst hr2
      obtain ⟨hA, hS⟩ := hbody s1' w1 hs1 (hP s s1' w1 h0 hs1)
      refine always_bind (always_attempt hA) fun r s2 hr => ?_
      have hs2 : s2 = (body.run E s1').2 := by
        rw [run_attempt] at hr
        rcases hb' : body.run E s1' with ⟨o, s2'⟩
        rw [hb'] at hr
        cases o <;> simp at hr <;> simp [hr.2]
      have w2 : s2.WF := by rw [hs2]; exact run_wf E body s1' w1
      have p2 : P s2 := by rw [hs2]; exact always_end hA
      rw [← hs2] at hS
      have hRel := always_lockRelease (E := E) w2 (hh.same hS)
      refine always_bind (always_mono hRel fun s' h => hP s2 s' h.1 p2 h.2) fun u s3 hr => ?_
      have := always_end hRel
      rw [hr] at this
      exact always_ofExcept (hP s2 s3 this.1 p2 this.2)

end Verif.Lemmas
