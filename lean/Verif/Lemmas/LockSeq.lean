import Verif.Lemmas.Slots
/-! # `with lock: body` when nobody else holds or waits for the lock -/
namespace Verif.Lemmas
open Verif Verif.Model
variable {α : Type} {E : Env}

/-- nobody holds or waits for the lock, and its counter stands at `fl` -/
structure LockClean (s : Store) (name : Str) (fl : Nat) : Prop where
  count : (s.content (countAddr name) = none ∧ fl = 0) ∨ s.content (countAddr name) = some (toLE 5 fl)
  marker : ∀ n, s.content (markerAddr name n) = none
  lock : ∀ n, s.content (lockAddr name n) = none

/-- the addresses of the lock's blocks -/
def lockNames (name x : Str) : Prop := ∃ sl : Slot, sl.isLock = true ∧ x = sl.addr name

theorem lockNames_count (name : Str) : lockNames name (countAddr name) := ⟨.count, rfl, rfl⟩
theorem lockNames_marker (name : Str) (n : Nat) : lockNames name (markerAddr name n) := ⟨.marker n, rfl, rfl⟩
theorem lockNames_lock (name : Str) (n : Nat) : lockNames name (lockAddr name n) := ⟨.lock n, rfl, rfl⟩

theorem not_lockNames {name : Str} {sl : Slot} (h : sl.isLock = false) : ¬ lockNames name (sl.addr name) := by
  rintro ⟨sl', h1, h2⟩
  rw [addr_inj] at h2
  subst h2; simp [h] at h1

/-- the fuel lets a loop run at least once -/
def _root_.Verif.Model.LockMode.Runs : LockMode → Prop
  | .sliding fuel => 0 < fuel
  | .fake => True

/-- state while the lock is held -/
structure LockHeld (s : Store) (name : Str) (h : Held) : Prop where
  count : s.names (countAddr name) = some h.count
  countLen : (s.segs h.count).length = 5
  own : h.own = true
  marker : ∀ n, s.content (markerAddr name n) = if n = h.number then some [0] else none
  lock : ∀ n, s.content (lockAddr name n) = if n = h.number then some [0] else none

theorem run_openCount {s : Store} (w : s.WF) {name : Str} {fl : Nat} (hok : NamesOK E name)
    (hc : LockClean s name fl) :
    ∃ c s', (openBlock (countAddr name) 5).run E s = (.ok c, s') ∧ s'.WF ∧ s'.names (countAddr name) = some c ∧
      fromLE (s'.segs c) = (if s.content (countAddr name) = none then 0 else fromLE (toLE 5 fl)) ∧
      (s'.segs c).length = 5 ∧
      SameOff (fun x => x = countAddr name) s s' := by
  cases hn : s.names (countAddr name) with
  | none =>
    refine ⟨_, _, run_openBlock_new (by omega) hok.count hn, wf_created w _ _, by simp, ?_, by simp [Store.created],
      (eff_created w _ _).sameOff rfl⟩
    rw [content_none.2 hn]
    simp [Store.created, fromLE]
  | some i =>
    have h1 := content_some hn
    rcases hc.count with ⟨h, _⟩ | h
    · rw [h] at h1; simp at h1
    · rw [h] at h1
      injection h1 with h1
      exact ⟨_, _, run_openBlock_attach (by omega) hok.count hn, w, hn, by rw [h, ← h1]; simp, by rw [← h1]; simp,
        SameOff.refl _ _⟩

theorem run_lockEnter_any {s : Store} (w : s.WF) {name : Str} {fl fuel : Nat} (hok : NamesOK E name) (hf : 0 < fuel)
    (hc : LockClean s name fl) (hb : fl < 256 ^ 5) :
    ∃ h s', (lockEnter fuel name).run E s = (.ok h, s') ∧ h.number = fl + 1 ∧ s'.WF ∧ LockHeld s' name h ∧
      SameOff (lockNames name) s s' ∧ fromLE (s'.segs h.count) = fl := by
  obtain ⟨c, s1, e1, w1, n1, v1, l1, o1⟩ := run_openCount w hok hc
  have hfloor : fromLE (s1.segs c) = fl := by
    rw [v1]
    rcases hc.count with ⟨h, h'⟩ | h
    · rw [h, h']; simp
    · rw [h]; simp; exact fromLE_toLE _ _ (by omega)
  have hb' : fl + 1 < 256 ^ 8 := by have : (256:Nat) ^ 5 < 256 ^ 8 := by decide
                                    omega
  have hm1 : ∀ n, s1.content (markerAddr name n) = none := fun n => by
    rw [(o1 _ (by simp only [addr_marker, addr_count, addr_inj]; simp)).2]; exact hc.marker n
  have hl1 : ∀ n, s1.content (lockAddr name n) = none := fun n => by
    rw [(o1 _ (by simp only [addr_lock, addr_count, addr_inj]; simp)).2]; exact hc.lock n
  have f2 := eff_created w1 (markerAddr name (fl + 1)) 1
  have e2 := run_create (E := E) (size := 1) (by omega) (hok.marker _ hb') (content_none.1 (hm1 (fl + 1)))
  have hl2 : ∀ n, (s1.created (markerAddr name (fl + 1)) 1).content (lockAddr name n) = none := fun n => by
    rw [f2.content, if_neg (by simp only [addr_lock, addr_marker, addr_inj]; simp)]; exact hl1 n
  have f3 := eff_created f2.wf (lockAddr name (fl + 1)) 1
  have e3 := run_create (E := E) (size := 1) (by omega) (hok.lock _ hb') (content_none.1 (hl2 (fl + 1)))
  obtain ⟨f, hf'⟩ : ∃ f, fuel = f + 1 := ⟨fuel - 1, by omega⟩
  have hsame : SameOff (lockNames name) s ((s1.created (markerAddr name (fl + 1)) 1).created (lockAddr name (fl + 1)) 1) :=
    ((o1.mono (fun x hx => hx ▸ lockNames_count name)).trans (f2.sameOff (lockNames_marker name _))).trans
      (f3.sameOff (lockNames_lock name _))
  have hscan : ((s1.created (markerAddr name (fl + 1)) 1).created (lockAddr name (fl + 1)) 1).names
      (lockAddr name fl) = none := by
    rw [← content_none, f3.content, if_neg (by simp only [addr_lock, addr_inj, Slot.lock.injEq]; omega)]
    exact hl2 fl
  refine ⟨⟨c, fl + 1, true⟩, _, ?_, rfl, f3.wf, ⟨?_, ?_, rfl, ?_, ?_⟩, hsame, ?_⟩
  rotate_right
  · have hlt := w1.lt n1
    have h1 : c ≠ s1.next := by omega
    have h2 : c ≠ s1.next + 1 := by omega
    simpa [Store.created, h1, h2] using hfloor
  · rw [lockEnter, run_bind, e1, andThen_ok, run_bind, run_read, andThen_ok, hfloor, run_bind]
    have : (renumber name fuel (fl + 1)).run E s1 = (.ok (fl + 1), s1.created (markerAddr name (fl + 1)) 1) := by
      rw [hf', renumber, run_bind, run_attempt, e2]; rfl
    rw [this, andThen_ok, run_bind, run_attempt, e3, asValue_ok, andThen_ok]
    simp only []
    rw [run_bind]
    have : (spin name fl (fl + 1) fuel).run E
        ((s1.created (markerAddr name (fl + 1)) 1).created (lockAddr name (fl + 1)) 1) =
        (.ok (), ((s1.created (markerAddr name (fl + 1)) 1).created (lockAddr name (fl + 1)) 1)) := by
      rw [hf', spin, run_bind]
      have : fl + 1 - fl = 0 + 1 := by omega
      rw [this, scanLocks, run_bind, run_existsBlock _ (hok.lock _ (by omega))]
      simp only [Nat.add_zero]
      rw [hscan]
      rfl
    rw [this]; rfl
  · rw [f3.names _ (by simp only [addr_lock, addr_count, addr_inj]; simp),
      f2.names _ (by simp only [addr_marker, addr_count, addr_inj]; simp)]
    exact n1
  · have hlt := w1.lt n1
    have h1 : c ≠ s1.next := by omega
    have h2 : c ≠ s1.next + 1 := by omega
    simpa [Store.created, h1, h2] using l1
  · intro n
    rw [f3.content, if_neg (by simp only [addr_lock, addr_marker, addr_inj]; simp), f2.content]
    simp only [addr_marker, addr_inj, Slot.marker.injEq]
    by_cases hn : n = fl + 1
    · simp [hn]
    · rw [if_neg hn, if_neg hn]; exact hm1 n
  · intro n
    rw [f3.content]
    simp only [addr_lock, addr_inj, Slot.lock.injEq]
    by_cases hn : n = fl + 1
    · simp [hn]
    · rw [if_neg hn, if_neg hn]; exact hl2 n

theorem run_lockEnter {s : Store} (w : s.WF) {name : Str} {fl fuel : Nat} (hok : NamesOK E name) (hf : 0 < fuel)
    (hc : LockClean s name fl) (hb : fl + 1 < 256 ^ 5) :
    ∃ h s', (lockEnter fuel name).run E s = (.ok h, s') ∧ h.number = fl + 1 ∧ s'.WF ∧ LockHeld s' name h ∧
      SameOff (lockNames name) s s' ∧ fromLE (s'.segs h.count) = fl :=
  run_lockEnter_any w hok hf hc (Nat.lt_of_succ_lt hb)

theorem run_lockRelease {s : Store} (w : s.WF) {name : Str} {h : Held} (hh : LockHeld s name h)
    (hb : h.number < 256 ^ 5) :
    ∃ s', (lockRelease name h).run E s = (.ok (), s') ∧ s'.WF ∧ LockClean s' name h.number ∧
      SameOff (lockNames name) s s' := by
  obtain ⟨s1, e1, n1, f1⟩ := run_write_at (E := E) (b := toLE 5 h.number) w hh.count
    (by rw [toLE_length, hh.countLen])
  have l1 : s1.content (lockAddr name h.number) = some [0] := by
    rw [f1.content, if_neg (by simp only [addr_lock, addr_count, addr_inj]; simp), hh.lock]; simp
  obtain ⟨i, hi, _⟩ := names_of_content l1
  have f2 := eff_unlinked f1.wf (lockAddr name h.number)
  have m2 : (s1.unlinked (lockAddr name h.number)).content (markerAddr name h.number) = some [0] := by
    rw [f2.content, if_neg (by simp only [addr_lock, addr_marker, addr_inj]; simp),
      f1.content, if_neg (by simp only [addr_marker, addr_count, addr_inj]; simp), hh.marker]; simp
  obtain ⟨j, hj, _⟩ := names_of_content m2
  have f3 := eff_unlinked f2.wf (markerAddr name h.number)
  refine ⟨_, ?_, f3.wf, ⟨Or.inr ?_, ?_, ?_⟩, ((f1.sameOff (lockNames_count name)).trans
    (f2.sameOff (lockNames_lock name _))).trans (f3.sameOff (lockNames_marker name _))⟩
  · rw [lockRelease, run_bind, run_intBytes hb, andThen_ok, run_bind, e1, andThen_ok, hh.own]
    simp only [if_true]
    rw [run_bind, run_unlink hi, andThen_ok, run_unlink hj]
  · rw [f3.content, if_neg (by simp only [addr_count, addr_marker, addr_inj]; simp),
      f2.content, if_neg (by simp only [addr_count, addr_lock, addr_inj]; simp), f1.content]; simp
  · intro n
    rw [f3.content]
    by_cases hn : n = h.number
    · rw [hn]; simp
    · rw [if_neg (by simp only [addr_marker, addr_inj, Slot.marker.injEq]; exact hn),
        f2.content, if_neg (by simp only [addr_lock, addr_marker, addr_inj]; simp),
        f1.content, if_neg (by simp only [addr_count, addr_marker, addr_inj]; simp), hh.marker, if_neg hn]
  · intro n
    rw [f3.content, if_neg (by simp only [addr_lock, addr_marker, addr_inj]; simp), f2.content]
    by_cases hn : n = h.number
    · rw [hn]; simp
    · rw [if_neg (by simp only [addr_lock, addr_inj, Slot.lock.injEq]; exact hn),
        f1.content, if_neg (by simp only [addr_count, addr_lock, addr_inj]; simp), hh.lock, if_neg hn]

theorem LockHeld.same {s s' : Store} {name : Str} {h : Held} (hh : LockHeld s name h)
    (hs : SameOff (fun x => ¬ lockNames name x) s s') : LockHeld s' name h := by
  have hcn := hs (countAddr name) (by simpa using lockNames_count name)
  have c1 : s'.names (countAddr name) = some h.count := by rw [hcn.1]; exact hh.count
  refine ⟨c1, ?_, hh.own, ?_, ?_⟩
  · have := hcn.2
    rw [content_some c1, content_some hh.count] at this
    injection this with this
    rw [this]; exact hh.countLen
  · intro n
    rw [(hs (markerAddr name n) (by simpa using lockNames_marker name n)).2]; exact hh.marker n
  · intro n
    rw [(hs (lockAddr name n) (by simpa using lockNames_lock name n)).2]; exact hh.lock n

theorem LockClean.same {s s' : Store} {name : Str} {fl : Nat} (hh : LockClean s name fl)
    (hs : SameOff (fun x => ¬ lockNames name x) s s') : LockClean s' name fl := by
  refine ⟨?_, ?_, ?_⟩
  · rw [(hs (countAddr name) (by simpa using lockNames_count name)).2]; exact hh.count
  · intro n
    rw [(hs (markerAddr name n) (by simpa using lockNames_marker name n)).2]; exact hh.marker n
  · intro n
    rw [(hs (lockAddr name n) (by simpa using lockNames_lock name n)).2]; exact hh.lock n

/-- an uncontended `with lock: body` has the outcome of `body`, and only moves the counter -/
theorem run_withLock {s : Store} (w : s.WF) {name : Str} {fl : Nat} {mode : LockMode} {body : Prog α}
    (hok : NamesOK E name) (hm : mode.Runs) (hc : LockClean s name fl) (hb : fl + 1 < 256 ^ 5)
    (Post : Outcome α → Store → Store → Prop)
    (hbody : ∀ s1, s1.WF → SameOff (lockNames name) s s1 → ∃ o s2, body.run E s1 = (o, s2) ∧ o ≠ .stuck ∧ s2.WF ∧
      SameOff (fun x => ¬ lockNames name x) s1 s2 ∧ Post o s1 s2) :
    ∃ o s1 s2 s3 fl', (withLock mode name body).run E s = (o, s3) ∧ o ≠ .stuck ∧ s3.WF ∧ LockClean s3 name fl' ∧
      fl' ≤ fl + 1 ∧ SameOff (lockNames name) s s1 ∧ Post o s1 s2 ∧ SameOff (lockNames name) s2 s3 := by
  cases mode with
  | fake =>
    obtain ⟨o, s2, e, ho, w2, hs, hp⟩ := hbody s w (SameOff.refl _ _)
    exact ⟨o, s, s2, s2, fl, e, ho, w2, hc.same hs, by omega, SameOff.refl _ _, hp, SameOff.refl _ _⟩
  | sliding fuel =>
    obtain ⟨h, s1, e1, hnum, w1, hh, hs1, _⟩ := run_lockEnter w hok hm hc hb
    obtain ⟨o, s2, e2, ho, w2, hs2, hp⟩ := hbody s1 w1 hs1
    obtain ⟨s3, e3, w3, hc3, hs3⟩ := run_lockRelease (E := E) w2 (hh.same hs2) (by rw [hnum]; exact hb)
    refine ⟨o, s1, s2, s3, h.number, ?_, ho, w3, hc3, by omega, hs1, hp, hs3⟩
    simp only [withLock]
    rw [run_bind, e1, andThen_ok, run_bind, run_attempt, e2]
    cases o with
    | ok a => rw [asValue_ok, andThen_ok, run_bind, e3]; rfl
    | err e => rw [asValue_err, andThen_ok, run_bind, e3]; rfl
    | stuck => exact absurd rfl ho

end Verif.Lemmas
