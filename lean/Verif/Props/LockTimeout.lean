import Verif.Model.LockTimeout
import Verif.Lemmas.Blocked
import Verif.Props.Lock
import Verif.Props.TagIndex
/-! # C80-C82: `SlidingLock` with `max_spins` -/
namespace Verif.Props
open Verif Verif.Model Verif.Lemmas Verif.Model.LockTS Verif.Lemmas.LockTS

section programs
variable {α : Type} {E : Env}

/-- the waits of a lock object after it gave up: it had waited `spins` times before -/
def spinsAfter (maxSpins spins : Nat) : Nat := if spins ≤ maxSpins then maxSpins + 1 else spins + 1

private theorem run_spinT_blocked {s : Store} {name : Str} {fl number : Nat}
    (hheld : s.content (lockAddr name (fl + 1)) ≠ none) (hok : NamesOK E name) (hn : fl + 2 ≤ number)
    (hb : number < 256 ^ 8) (mx : Nat) : ∀ (fuel spins : Nat), spinsAfter mx spins - spins ≤ fuel →
    (spinT name fl number mx fuel spins).run E s = (.ok (.error .timeoutError, spinsAfter mx spins), s)
  | 0, spins, hf => by unfold spinsAfter at hf; split at hf <;> omega
  | f + 1, spins, hf => by
    rw [spinT, run_bind, run_scan_blocked hheld hok _ (by omega) (by omega), andThen_ok]
    simp only [Bool.false_eq_true, if_false]
    by_cases h : mx < spins + 1
    · rw [if_pos h]
      have : spinsAfter mx spins = spins + 1 := by unfold spinsAfter; split <;> omega
      rw [this]; rfl
    · rw [if_neg h]
      have e : spinsAfter mx (spins + 1) = spinsAfter mx spins := by
        unfold spinsAfter; split <;> split <;> omega
      rw [run_spinT_blocked hheld hok hn hb mx f (spins + 1) (by rw [e]; omega), e]

private theorem run_renumber_ok {s : Store} {name : Str} {fl n : Nat} (hb : Blocked s name fl n) (hok : NamesOK E name)
    (hn : n < 256 ^ 8) : ∀ (fuel k : Nat), fl < k → k ≤ n → n < k + fuel →
    (renumber name fuel k).run E s = (.ok n, s.created (markerAddr name n) 1)
  | 0, k, _, _, h => by omega
  | f + 1, k, hk, hkn, h => by
    rw [renumber, run_bind, run_attempt]
    by_cases hkn' : k = n
    · subst hkn'
      rw [run_create (by omega) (hok.marker _ hn) (content_none.1 (hb.free k (Nat.le_refl _)).1)]
      rfl
    · obtain ⟨i, hi⟩ := names_of_ne_none (hb.taken k hk (by omega))
      rw [run_create_exists (by omega) (hok.marker _ (by omega)) hi]
      exact run_renumber_ok hb hok hn f (k + 1) (by omega) (by omega) (by omega)

/-- **C80, the call.** When the lock is held by another process (and others may be waiting) and not released, `with lock:
body` on a lock with `max_spins` raises `TimeoutError` without running the body, and every block of memory is as before: no
marker, no lock block, the count unchanged. -/
theorem C80_timeout {s : Store} (w : s.WF) {name : Str} {fl n : Nat} (hb : Blocked s name fl n) (hok : NamesOK E name)
    (hn : n < 256 ^ 8) (mx spins fuel : Nat) (hf : n + mx + 1 ≤ fuel) (body : Prog α) :
    ∃ s', (withLockT fuel name mx spins body).run E s = (.ok (.error .timeoutError, spinsAfter mx spins), s') ∧ s'.WF ∧
      ∀ x, s'.content x = s.content x := by
  obtain ⟨b, hcb, hfl⟩ := hb.count
  obtain ⟨c, hc, hcs⟩ := names_of_content hcb
  have two := hb.two
  have f1 := eff_created w (markerAddr name n) 1
  have hl : (s.created (markerAddr name n) 1).content (lockAddr name n) = none := by
    rw [f1.content, if_neg (by simp only [addr_lock, addr_marker, addr_inj]; simp)]; exact (hb.free n (Nat.le_refl _)).2
  have f2 := eff_created f1.wf (lockAddr name n) 1
  have hheld : ((s.created (markerAddr name n) 1).created (lockAddr name n) 1).content (lockAddr name (fl + 1)) ≠ none := by
    rw [f2.content]
    split
    · simp
    · rw [f1.content, if_neg (by simp only [addr_lock, addr_marker, addr_inj]; simp)]; exact hb.held
  have l2 : ((s.created (markerAddr name n) 1).created (lockAddr name n) 1).content (lockAddr name n) = some [0] := by
    rw [f2.content, if_pos rfl]; rfl
  obtain ⟨i, hi, _⟩ := names_of_content l2
  have f3 := eff_unlinked f2.wf (lockAddr name n)
  have m3 : (((s.created (markerAddr name n) 1).created (lockAddr name n) 1).unlinked (lockAddr name n)).content
      (markerAddr name n) = some [0] := by
    rw [f3.content, if_neg (by simp only [addr_lock, addr_marker, addr_inj]; simp), f2.content,
      if_neg (by simp only [addr_lock, addr_marker, addr_inj]; simp), f1.content, if_pos rfl]; rfl
  obtain ⟨j, hj, _⟩ := names_of_content m3
  have f4 := eff_unlinked f3.wf (markerAddr name n)
  refine ⟨_, ?_, f4.wf, fun x => ?_⟩
  · rw [withLockT, run_bind, lockEnterT, run_bind, run_openBlock_attach (by omega) hok.count hc, andThen_ok, run_bind,
      run_read, andThen_ok, hcs, hfl, run_bind, run_renumber_ok hb hok hn fuel (fl + 1) (by omega) (by omega) (by omega),
      andThen_ok, run_bind, run_attempt, run_create (by omega) (hok.lock _ hn) (content_none.1 hl), asValue_ok, andThen_ok]
    simp only []
    rw [run_bind, run_spinT_blocked hheld hok two hn mx fuel spins (by unfold spinsAfter; split <;> omega), andThen_ok]
    simp only []
    rw [run_bind, run_unlink hi, andThen_ok, run_bind, run_unlink hj, andThen_ok]
    rfl
  · rw [f4.content, f3.content, f2.content, f1.content]
    by_cases h1 : x = markerAddr name n
    · rw [if_pos h1, h1, (hb.free n (Nat.le_refl _)).1]
    · rw [if_neg h1]
      by_cases h2 : x = lockAddr name n
      · rw [if_pos h2, h2, (hb.free n (Nat.le_refl _)).2]
      · rw [if_neg h2, if_neg h2, if_neg h1]

private theorem exists_store (a : Str) (s : Store) :
    (∃ b, (existsBlock a).run E s = (.ok b, s)) ∨ ∃ e, (existsBlock a).run E s = (.err e, s) := by
  rw [existsBlock, run_bind, run_attempt]
  have h : (∃ i, (attach a).run E s = (.ok i, s)) ∨ ∃ e, (attach a).run E s = (.err e, s) := by
    cases hok : E.okName a with
    | true =>
      cases hn : s.names a with
      | none => exact Or.inr ⟨_, run_attach_none hok hn⟩
      | some i => exact Or.inl ⟨_, run_attach hok hn⟩
    | false => exact Or.inr ⟨_, run_attach_bad _ hok⟩
  rcases h with ⟨i, h⟩ | ⟨e, h⟩
  · rw [h]; exact Or.inl ⟨true, rfl⟩
  · rw [h, asValue_err, andThen_ok]
    cases e <;> first | exact Or.inl ⟨false, rfl⟩ | exact Or.inl ⟨true, rfl⟩ | exact Or.inr ⟨_, rfl⟩

private theorem scan_store (name : Str) (fl : Nat) (s : Store) : ∀ d : Nat,
    (∃ b, (scanLocks name fl d).run E s = (.ok b, s)) ∨ ∃ e, (scanLocks name fl d).run E s = (.err e, s)
  | 0 => Or.inl ⟨true, rfl⟩
  | d + 1 => by
    rw [scanLocks, run_bind]
    rcases exists_store (lockAddr name (fl + d)) s with ⟨b, h⟩ | ⟨e, h⟩
    · rw [h, andThen_ok]
      cases b with
      | true => exact Or.inl ⟨false, rfl⟩
      | false => simpa using scan_store name fl s d
    · rw [h, andThen_err]; exact Or.inr ⟨e, rfl⟩

private theorem spinT_of_spin {name : Str} {fl n : Nat} {s s' : Store} (mx spins : Nat) : ∀ fuel : Nat,
    (spin name fl n fuel).run E s = (.ok (), s') → (spinT name fl n mx fuel spins).run E s = (.ok (.ok (), spins), s')
  | 0, h => by simp [spin] at h
  | f + 1, h => by
    rw [spin, run_bind] at h
    rw [spinT, run_bind]
    rcases scan_store (E := E) name fl s (n - fl) with ⟨b, hb⟩ | ⟨e, he⟩
    · rw [hb, andThen_ok] at h ⊢
      cases b with
      | true =>
        have h : (Outcome.ok (), s) = (Outcome.ok (), s') := h
        injection h with _ h
        subst h
        rfl
      | false =>
        exfalso
        have h : (spin name fl n f).run E s = (.ok (), s') := by simpa using h
        have stuck : ∀ g, (spin name fl n g).run E s = (.stuck, s) := fun g => by
          induction g with
          | zero => rfl
          | succ g ih => rw [spin, run_bind, hb, andThen_ok]; simpa using ih
        rw [stuck] at h
        simp at h
    · rw [he, andThen_err] at h; simp at h

private theorem enterT_of_enter {name : Str} {s s' : Store} {fuel : Nat} {h : Held} (mx spins : Nat)
    (e : (lockEnter fuel name).run E s = (.ok h, s')) :
    (lockEnterT fuel name mx spins).run E s = (.ok (.ok h, spins), s') := by
  rw [lockEnter, run_bind] at e
  rw [lockEnterT, run_bind]
  rcases h1 : (openBlock (countAddr name) 5).run E s with ⟨o1, s1⟩
  rw [h1] at e
  cases o1 with
  | err x => simp at e
  | stuck => simp at e
  | ok c =>
    rw [andThen_ok, run_bind, run_read, andThen_ok, run_bind] at e ⊢
    rcases h2 : (renumber name fuel (fromLE (s1.segs c) + 1)).run E s1 with ⟨o2, s2⟩
    rw [h2] at e
    cases o2 with
    | err x => simp at e
    | stuck => simp at e
    | ok n =>
      rw [andThen_ok, run_bind] at e ⊢
      rcases h3 : ((create (lockAddr name n) 1).attempt).run E s2 with ⟨o3, s3⟩
      rw [h3] at e
      cases o3 with
      | err x => simp at e
      | stuck => simp at e
      | ok r =>
        rw [andThen_ok] at e ⊢
        cases r with
        | ok i =>
          simp only [] at e ⊢
          rw [run_bind] at e ⊢
          rcases h4 : (spin name (fromLE (s1.segs c)) n fuel).run E s3 with ⟨o4, s4⟩
          rw [h4] at e
          cases o4 with
          | err x => simp at e
          | stuck => simp at e
          | ok u =>
            have e : (Outcome.ok (⟨c, n, true⟩ : Held), s4) = (.ok h, s') := e
            simp only [Prod.mk.injEq, Outcome.ok.injEq] at e
            obtain ⟨rfl, rfl⟩ := e
            rw [spinT_of_spin mx spins fuel h4]
            rfl
        | error x =>
          by_cases hx : x = .fileExists
          · subst hx
            have e : (Outcome.ok (⟨c, n, false⟩ : Held), s3) = (.ok h, s') := e
            simp only [Prod.mk.injEq, Outcome.ok.injEq] at e
            obtain ⟨rfl, rfl⟩ := e
            rfl
          · exfalso
            rcases h5 : (unlink (markerAddr name n)).run E s3 with ⟨o5, s5⟩
            cases x <;> first | exact hx rfl | (simp only [] at e; rw [run_bind, h5] at e; cases o5 <;> simp [Prog.run] at e)

/-- **C80, when the lock can be had.** Whenever `with lock: body` without `max_spins` runs to its end, so does the one with
any `max_spins`, however often the lock object has waited before, with the same result and the same memory. -/
theorem C80_available {s s' : Store} {name : Str} {fuel : Nat} (mx spins : Nat) (body : Prog α) (a : α)
    (e : (withLock (.sliding fuel) name body).run E s = (.ok a, s')) :
    (withLockT fuel name mx spins body).run E s = (.ok (.ok a, spins), s') := by
  simp only [withLock] at e
  rw [run_bind] at e
  rw [withLockT, run_bind]
  rcases h1 : (lockEnter fuel name).run E s with ⟨o1, s1⟩
  rw [h1] at e
  cases o1 with
  | err x => simp at e
  | stuck => simp at e
  | ok h =>
    rw [enterT_of_enter mx spins h1, andThen_ok]
    rw [andThen_ok, run_bind] at e
    simp only []
    rw [run_bind]
    rcases h2 : body.attempt.run E s1 with ⟨o2, s2⟩
    rw [h2] at e
    cases o2 with
    | err x => simp at e
    | stuck => simp at e
    | ok r =>
      rw [andThen_ok, run_bind] at e ⊢
      rcases h3 : (lockRelease name h).run E s2 with ⟨o3, s3⟩
      rw [h3] at e
      cases o3 with
      | err x => simp at e
      | stuck => simp at e
      | ok u =>
        rw [andThen_ok] at e ⊢
        cases r with
        | ok b =>
          have e : (Outcome.ok b, s3) = (.ok a, s') := e
          simp only [Prod.mk.injEq, Outcome.ok.injEq] at e
          obtain ⟨rfl, rfl⟩ := e
          rfl
        | error x =>
          have e : (Outcome.err x, s3) = (.ok a, s') := e
          simp at e

/-- memory with a lock held by another process -/
theorem held_store : ∃ s : Store, s.WF ∧ Blocked s ['n'] 0 2 := by
  obtain ⟨h, s', _, hnum, w', hh, _, hfl⟩ := run_lockEnter (E := labEnv) (name := ['n']) (fl := 0) (fuel := 1) wf_empty
    (labNames (by simp)) (by omega) ⟨Or.inl ⟨rfl, rfl⟩, fun _ => rfl, fun _ => rfl⟩ (by decide)
  exact ⟨s', w', hh.blocked hnum hfl⟩

/-- the hypotheses of C80 are met: with `max_spins = 3`, the fourth look raises -/
example : ∃ s s' : Store, (withLockT 9 ['n'] 3 0 (.ret 5)).run labEnv s = (.ok (.error .timeoutError, 4), s') ∧
    ∀ x, s'.content x = s.content x := by
  obtain ⟨s, w, hb⟩ := held_store
  obtain ⟨s', e, _, h⟩ := C80_timeout w hb (labNames (by simp)) (by decide) 3 0 9 (by omega) (.ret 5)
  exact ⟨s, s', e, h⟩

example : ∃ s', (withLock (.sliding 1) ['n'] (.ret 5)).run labEnv Store.empty = (.ok 5, s') := ⟨_, rfl⟩

/-- **C81, in full**: every attempt on a lock that stays held looks `max_spins + 1` times before it gives up -/
def C81_full : Prop :=
  ∀ (E : Env) (s : Store) (_ : s.WF) (name : Str) (fl n : Nat) (_ : Blocked s name fl n) (_ : NamesOK E name)
    (_ : n < 256 ^ 8) (mx spins fuel : Nat) (_ : n + mx + 1 ≤ fuel),
    ∃ s', (withLockT fuel name mx spins (.ret ())).run E s = (.ok (.error .timeoutError, spins + (mx + 1)), s')

/-- **C81 (partial).** A lock object that has never waited looks exactly `max_spins + 1` times. Missing: lock objects that
have waited before, whose waits are added up (`C81_reused`). -/
theorem C81_fresh_partial {s : Store} (w : s.WF) {name : Str} {fl n : Nat} (hb : Blocked s name fl n) (hok : NamesOK E name)
    (hn : n < 256 ^ 8) (mx fuel : Nat) (hf : n + mx + 1 ≤ fuel) (body : Prog α) :
    ∃ s', (withLockT fuel name mx 0 body).run E s = (.ok (.error .timeoutError, 0 + (mx + 1)), s') := by
  obtain ⟨s', h, _⟩ := C80_timeout w hb hok hn mx 0 fuel hf body
  refine ⟨s', ?_⟩
  rw [h]
  simp [spinsAfter]

/-- **C81, lock objects used before.** A lock object that has waited more than `max_spins` times over its life gives up at
the first look that finds the lock taken; one that has waited `spins` times looks `max_spins + 1 - spins` times. -/
theorem C81_reused {s : Store} (w : s.WF) {name : Str} {fl n : Nat} (hb : Blocked s name fl n) (hok : NamesOK E name)
    (hn : n < 256 ^ 8) (mx spins fuel : Nat) (hf : n + mx + 1 ≤ fuel) (body : Prog α) :
    ∃ s', (withLockT fuel name mx spins body).run E s =
      (.ok (.error .timeoutError, spins + (if spins ≤ mx then mx + 1 - spins else 1)), s') := by
  obtain ⟨s', h, _⟩ := C80_timeout w hb hok hn mx spins fuel hf body
  refine ⟨s', ?_⟩
  rw [h]
  unfold spinsAfter
  split
  · rw [show spins + (mx + 1 - spins) = mx + 1 by omega]
  · rfl

/-- **C81 is false of the code**: a lock object that has waited once before looks one time fewer -/
theorem C81_full_false : ¬ C81_full := by
  intro h
  obtain ⟨s, w, hb⟩ := held_store
  obtain ⟨s1, e1⟩ := h labEnv s w ['n'] 0 2 hb (labNames (by simp)) (by decide) 3 1 6 (by omega)
  obtain ⟨s2, e2⟩ := C81_reused w hb (labNames (by simp)) (by decide) 3 1 6 (by omega) (.ret ())
  rw [e1] at e2
  simp at e2

end programs

/-! ## many processes -/

section many
variable {ι : Type} [DecidableEq ι]

theorem inv_quit {σ : St ι} (h : Inv σ) (i : ι) : Inv (quit σ i) := by
  unfold quit
  cases e : σ.pc i with
  | scanning f n d =>
    simp only
    split
    · exact h.move (c := σ.count) trivial (by rw [e]; rfl) (by rw [e]; rfl)
    · exact h
  | _ => exact h

theorem inv_runsT {σ : St ι} (h : Inv σ) (sched : List (Ev ι)) : Inv (runsT σ sched) := by
  induction sched generalizing σ with
  | nil => exact h
  | cons ev t ih =>
    refine ih ?_
    cases ev with
    | step i => exact inv_next h i
    | quit i => exact inv_quit h i

/-- the process of an event -/
def who : Ev ι → ι
  | .step i => i
  | .quit i => i

theorem support_runsT {σ : St ι} {L : List ι} (h : Support σ L) (t : List (Ev ι)) (ht : ∀ ev ∈ t, who ev ∈ L) :
    Support (runsT σ t) L := by
  induction t generalizing σ with
  | nil => exact h
  | cons ev t ih =>
    refine ih ?_ fun e he => ht e (List.mem_cons_of_mem _ he)
    have hin := ht ev List.mem_cons_self
    cases ev with
    | step i => exact support_next h hin
    | quit i =>
      show Support (quit σ i) L
      unfold quit
      cases e : σ.pc i with
      | scanning f n d =>
        simp only
        split
        · intro j hj
          have hji : j ≠ i := fun hh => hj (hh ▸ hin)
          show put σ.pc i _ j = _
          rw [put_ne _ _ hji]; exact h j hj
        · exact h
      | _ => exact h

/-- **C80, many processes.** With any pattern of timeouts: slots are never shared, a process inside made its lock block
itself, and from every state all processes can still finish, leaving no marker and no lock block. -/
theorem C80_many (c0 : Nat) (sched : List (Ev ι)) :
    (∀ i j n, num? ((runsT (start c0) sched).pc i) = some n → num? ((runsT (start c0) sched).pc j) = some n → i = j) ∧
    (∀ i n own, (runsT (start c0) sched).pc i = .inside n own → own = true ∧ (runsT (start c0) sched).lock n = true) ∧
    ∃ t : List ι, (∀ i, (runs (runsT (start c0) sched) t).pc i = .out) ∧
      ∀ n, (runs (runsT (start c0) sched) t).marker n = false ∧ (runs (runsT (start c0) sched) t).lock n = false := by
  have h := inv_runsT (inv_start (ι := ι) c0) sched
  refine ⟨h.uniq, fun i n own e => ?_, ?_⟩
  · have hok := h.ok i
    rw [e] at hok
    have hok : own = true := hok
    subst hok
    exact ⟨rfl, (h.lock n).2 ⟨i, by rw [e]; rfl⟩⟩
  · have hs : Support (runsT (start c0) sched) (sched.map who) :=
      support_runsT (fun _ _ => rfl) sched fun ev he => List.mem_map_of_mem he
    obtain ⟨t, _, hout⟩ := all_finish h hs
    have h' := inv_runs h t
    refine ⟨t, hout, fun n => ⟨?_, ?_⟩⟩
    · by_contra hc
      obtain ⟨i, hi⟩ := (h'.marker n).1 (by simpa using hc)
      rw [hout i] at hi; simp [num?] at hi
    · by_contra hc
      obtain ⟨i, hi⟩ := (h'.lock n).1 (by simpa using hc)
      rw [hout i] at hi; simp [holds?] at hi

/-! ## C82 -/

/-- what happens in one go: an operation, or a process giving up and unlinking its two blocks -/
inductive Move (ι : Type) where
  | step (i : ι)
  | giveUp (i : ι)

/-- the events of a move -/
def events : Move ι → List (Ev ι)
  | .step i => [.step i]
  | .giveUp i => [.quit i, .step i, .step i]

/-- no doorway is disturbed -/
def QuietMove (σ : St ι) : Move ι → Prop
  | .step i => Quiet σ i
  | .giveUp i => (∀ j, inDoor (σ.pc j) = false) ∧ ∃ f n d, σ.pc i = .scanning f n d ∧ σ.lock (f + (d - 1)) = true

/-- the process that gives up is the last in line -/
def LastMove (σ : St ι) : Move ι → Prop
  | .step _ => True
  | .giveUp i => ∀ j n m, num? (σ.pc i) = some n → act? (σ.pc j) = some m → m ≤ n

/-- every move of a schedule, in the state in which it happens -/
def Moves (P : St ι → Move ι → Prop) (σ : St ι) : List (Move ι) → Prop
  | [] => True
  | m :: t => P σ m ∧ Moves P (runsT σ (events m)) t

/-- **C82, in full**: as C49_mutual_exclusion_partial, with processes that give up -/
def C82_full : Prop :=
  ∀ (ι : Type) [DecidableEq ι] (c0 : Nat) (ms : List (Move ι)) (_ : Moves QuietMove (start c0) ms) (i j : ι),
    Inside ((runsT (start c0) (ms.flatMap events)).pc i) → Inside ((runsT (start c0) (ms.flatMap events)).pc j) → i = j

private theorem giveUp_eq {σ : St ι} {i : ι} {f n d : Nat} (e : σ.pc i = .scanning f n d) (hl : σ.lock (f + (d - 1)) = true) :
    runsT σ (events (.giveUp i)) =
      { σ with marker := put σ.marker n false, lock := put σ.lock n false, pc := put σ.pc i .out } := by
  have e1 : quit σ i = { σ with pc := put σ.pc i (.unlocking n) } := by simp only [quit, e, hl, if_true]
  have pp : ∀ p q : Pc, put (put σ.pc i p) i q = put σ.pc i q := fun p q => by
    funext x; simp only [put]; split <;> rfl
  show nextT (nextT (nextT σ (.quit i)) (.step i)) (.step i) = _
  show next (next (quit σ i) i) i = _
  rw [e1]
  simp only [next, put_self, pp]

private theorem qinv_giveUp {σ : St ι} (h : QInv σ) {i : ι} (hq : QuietMove σ (.giveUp i)) (hlast : LastMove σ (.giveUp i)) :
    QInv (runsT σ (events (.giveUp i))) := by
  obtain ⟨hd, f, n, d, e, hl⟩ := hq
  have hinv : Inv (runsT σ (events (.giveUp i))) := inv_runsT h.toInv _
  rw [giveUp_eq e hl] at hinv ⊢
  have hun : ∀ j, j ≠ i → act? (σ.pc j) ≠ some n := fun j hj ha =>
    hj (h.uniq j i n (act_num ha) (by rw [e]; rfl))
  have eA : ∀ m, Act { σ with marker := put σ.marker n false, lock := put σ.lock n false, pc := put σ.pc i .out } m →
      Act σ m ∧ m ≠ n := by
    rintro m ⟨j, hj⟩
    simp only at hj
    by_cases hji : j = i
    · subst hji; rw [put_self] at hj; simp [act?] at hj
    · rw [put_ne _ _ hji] at hj; exact ⟨⟨j, hj⟩, fun hm => hun j hji (hm ▸ hj)⟩
  have eA' : ∀ m, Act σ m → m ≠ n →
      Act { σ with marker := put σ.marker n false, lock := put σ.lock n false, pc := put σ.pc i .out } m := by
    rintro m ⟨j, hj⟩ hm
    refine ⟨j, ?_⟩
    simp only
    by_cases hji : j = i
    · subst hji; rw [e] at hj; simp [act?] at hj; exact absurd hj.symm hm
    · rwa [put_ne _ _ hji]
  have hmax : ∀ m, Act σ m → m ≤ n := fun m ⟨j, hj⟩ => hlast j n m (by rw [e]; rfl) hj
  refine { hinv with rel := fun j => ?_, above := fun m hA => ?_, contig := fun n' m hA h1 h2 => ?_, door := fun a b => ?_ }
  · show D σ.count _ (put σ.pc i .out j)
    by_cases hji : j = i
    · subst hji; rw [put_self]; trivial
    · rw [put_ne _ _ hji]
      have hr := h.rel j
      have hnd := hd j
      cases ej : σ.pc j with
      | marking f' k' => rw [ej] at hnd; simp [inDoor] at hnd
      | placing f' n' => rw [ej] at hnd; simp [inDoor] at hnd
      | scanning f' n' d' =>
        rw [ej] at hr
        exact ⟨hr.1, fun m h1 h2 hA => hr.2 m h1 h2 (eA m hA).1⟩
      | inside n' o' => rw [ej] at hr; exact hr
      | unlocking n' => rw [ej] at hr; exact hr
      | unmarking n' => rw [ej] at hr; exact hr
      | out => trivial
      | reading => trivial
  · exact h.above m (eA m hA).1
  · have h3 := hmax n' (eA n' hA).1
    exact eA' m (h.contig n' m (eA n' hA).1 h1 h2) (by omega)
  · show inDoor (put σ.pc i .out a) = true → _
    by_cases ha : a = i
    · subst ha; rw [put_self]; simp [inDoor]
    · rw [put_ne _ _ ha, hd a]; simp

private theorem qinv_moves {σ : St ι} (h : QInv σ) (ms : List (Move ι))
    (hm : Moves (fun σ m => QuietMove σ m ∧ LastMove σ m) σ ms) : QInv (runsT σ (ms.flatMap events)) := by
  induction ms generalizing σ with
  | nil => exact h
  | cons m t ih =>
    rw [List.flatMap_cons, runsT, List.foldl_append]
    refine ih ?_ hm.2
    cases m with
    | step i => exact qinv_next h hm.1.1
    | giveUp i => exact qinv_giveUp h hm.1.1 hm.1.2

/-- **C82 (partial).** In schedules that disturb no doorway, in which a process gives up only when no process waits behind
it, two processes are never inside. Missing: giving up in the middle of the line (`C82_full_false`). -/
theorem C82_exclusion_partial (c0 : Nat) (ms : List (Move ι))
    (hm : Moves (fun σ m => QuietMove σ m ∧ LastMove σ m) (start c0) ms) (i j : ι)
    (hi : Inside ((runsT (start c0) (ms.flatMap events)).pc i))
    (hj : Inside ((runsT (start c0) (ms.flatMap events)).pc j)) : i = j := by
  have h := qinv_moves (qinv_start c0) ms hm
  obtain ⟨n, o, e⟩ := hi
  obtain ⟨m, p, e'⟩ := hj
  have h1 := h.rel i
  have h2 := h.rel j
  rw [e] at h1
  rw [e'] at h2
  have h1 : n = _ := h1
  have h2 : m = _ := h2
  exact h.uniq i j n (by rw [e]; rfl) (by rw [e', h2, ← h1]; rfl)

/-- process 0 is inside with slot 1, 1 and 2 wait with slots 2 and 3; 1 gives up; 0 leaves; 2 gets in; 3 takes slot 2 and gets
in too, since it looks only for lock block 1 -/
def quitMoves : List (Move (Fin 4)) :=
  [.step 0, .step 0, .step 0, .step 0, .step 0,
   .step 1, .step 1, .step 1, .step 1, .step 1,
   .step 2, .step 2, .step 2, .step 2, .step 2, .step 2,
   .giveUp 1,
   .step 0, .step 0, .step 0,
   .step 2, .step 2, .step 2,
   .step 3, .step 3, .step 3, .step 3, .step 3]

/-- `QuietMove` among four processes, computed -/
def quietMoveB (σ : St (Fin 4)) : Move (Fin 4) → Bool
  | .step i => calm (σ.pc i) || [0, 1, 2, 3].all fun j => j == i || !inDoor (σ.pc j)
  | .giveUp i => ([0, 1, 2, 3].all fun j => !inDoor (σ.pc j)) && match σ.pc i with
    | .scanning f _ d => σ.lock (f + (d - 1))
    | _ => false

private theorem mem4 (j : Fin 4) : j ∈ [(0 : Fin 4), 1, 2, 3] := by revert j; decide

private theorem quietMove_of_B {σ : St (Fin 4)} {m : Move (Fin 4)} (h : quietMoveB σ m = true) : QuietMove σ m := by
  cases m with
  | step i =>
    intro j hj hd
    simp only [quietMoveB, Bool.or_eq_true, List.all_eq_true] at h
    rcases h with h | h
    · exact h
    · have := h j (mem4 j)
      simp [hd, hj] at this
  | giveUp i =>
    simp only [quietMoveB, Bool.and_eq_true, List.all_eq_true] at h
    refine ⟨fun j => by simpa using h.1 j (mem4 j), ?_⟩
    cases e : σ.pc i with
    | scanning f n d => rw [e] at h; exact ⟨f, n, d, rfl, h.2⟩
    | _ => rw [e] at h; simp at h

def movesB (σ : St (Fin 4)) : List (Move (Fin 4)) → Bool
  | [] => true
  | m :: t => quietMoveB σ m && movesB (runsT σ (events m)) t

private theorem moves_of_B {σ : St (Fin 4)} (ms : List (Move (Fin 4))) (h : movesB σ ms = true) : Moves QuietMove σ ms := by
  induction ms generalizing σ with
  | nil => trivial
  | cons m t ih =>
    simp only [movesB, Bool.and_eq_true] at h
    exact ⟨quietMove_of_B h.1, ih h.2⟩

/-- **C82 is false of the code**: one timeout in the middle of the line lets two later processes in together, although no
doorway is disturbed -/
theorem C82_full_false : ¬ C82_full := by
  intro h
  have := h (Fin 4) 0 quitMoves (moves_of_B _ (by decide +kernel)) 2 3 ⟨3, true, by decide +kernel⟩ ⟨2, true, by decide +kernel⟩
  exact absurd this (by decide)

/-- `LastMove` among four processes, computed -/
def lastMoveB (σ : St (Fin 4)) : Move (Fin 4) → Bool
  | .step _ => true
  | .giveUp i => [0, 1, 2, 3].all fun j => match num? (σ.pc i), act? (σ.pc j) with
    | some n, some m => decide (m ≤ n)
    | _, _ => true

private theorem lastMove_of_B {σ : St (Fin 4)} {m : Move (Fin 4)} (h : lastMoveB σ m = true) : LastMove σ m := by
  cases m with
  | step i => trivial
  | giveUp i =>
    intro j n m hn hm
    simp only [lastMoveB, List.all_eq_true] at h
    have := h j (mem4 j)
    rw [hn, hm] at this
    simpa using this

def lastMovesB (σ : St (Fin 4)) : List (Move (Fin 4)) → Bool
  | [] => true
  | m :: t => quietMoveB σ m && lastMoveB σ m && lastMovesB (runsT σ (events m)) t

private theorem moves_of_lastB {σ : St (Fin 4)} (ms : List (Move (Fin 4))) (h : lastMovesB σ ms = true) :
    Moves (fun σ m => QuietMove σ m ∧ LastMove σ m) σ ms := by
  induction ms generalizing σ with
  | nil => trivial
  | cons m t ih =>
    simp only [lastMovesB, Bool.and_eq_true] at h
    exact ⟨⟨quietMove_of_B h.1.1, lastMove_of_B h.1.2⟩, ih h.2⟩

/-- 0 is inside, 1 and 2 wait; 2 gives up, 3 comes and takes its slot; 0 leaves, 1 gets in -/
def lastMoves : List (Move (Fin 4)) :=
  [.step 0, .step 0, .step 0, .step 0, .step 0,
   .step 1, .step 1, .step 1, .step 1, .step 1,
   .step 2, .step 2, .step 2, .step 2, .step 2, .step 2, .step 2,
   .giveUp 2,
   .step 3, .step 3, .step 3, .step 3, .step 3, .step 3,
   .step 0, .step 0, .step 0,
   .step 1, .step 1]

/-- the hypotheses of the partial result are met, with a process inside at the end -/
example : Moves (fun σ m => QuietMove σ m ∧ LastMove σ m) (start 0) lastMoves ∧
    Inside ((runsT (start 0) (lastMoves.flatMap events)).pc 1) ∧
    num? ((runsT (start 0) (lastMoves.flatMap events)).pc 3) = some 3 :=
  ⟨moves_of_lastB _ (by decide +kernel), ⟨2, true, by decide +kernel⟩, by decide +kernel⟩

end many
end Verif.Props
