import Verif.Lemmas.LockProgress
/-!
# C49-C52: `SlidingLock` among concurrent processes

A schedule is any list of process names; each entry lets that process perform its next primitive shared-memory operation.
-/
namespace Verif.Props
open Verif.Model.LockTS Verif.Lemmas.LockTS

variable {ι : Type} [DecidableEq ι]

/-- the process has acquired the lock and not started to release it -/
def Inside (p : Pc) : Prop := ∃ n own, p = .inside n own

/-! ## C49 -/

/-- C49, in full: never are two processes inside -/
def C49_full : Prop :=
  ∀ (ι : Type) [DecidableEq ι] (c0 : Nat) (sched : List ι) (i j : ι),
    Inside ((runs (start c0) sched).pc i) → Inside ((runs (start c0) sched).pc j) → i = j

/-- C49, the part that holds: as long as, while a process is in its doorway (from its reading of the count block to its
creation of its lock block), no other process enters its own or leaves the critical section, two processes are never
inside -/
theorem C49_mutual_exclusion_partial (c0 : Nat) (sched : List ι) (hq : QuietRun (start c0) sched) (i j : ι)
    (hi : Inside ((runs (start c0) sched).pc i)) (hj : Inside ((runs (start c0) sched).pc j)) : i = j := by
  have h := qinv_runs (qinv_start c0) sched hq
  obtain ⟨n, o, e⟩ := hi
  obtain ⟨m, p, e'⟩ := hj
  have h1 := h.rel i
  have h2 := h.rel j
  rw [e] at h1
  rw [e'] at h2
  have h1 : n = _ := h1
  have h2 : m = _ := h2
  exact h.uniq i j n (by rw [e]; rfl) (by rw [e', h2, ← h1]; rfl)

/-- process `false` is overtaken between creating its marker and creating its lock block -/
def gapSched : List Bool :=
  [false, false, false,                    -- opens, reads 0, makes marker 1
   true, true, true, true, true, true, true,  -- opens, reads 0, marker 1 is taken, marker 2, lock 2, looks for locks 1, 0
   false, false]                           -- makes lock 1, looks for lock 0

/-- process `false` uses a count that is out of date -/
def staleSched : List (Fin 3) :=
  [0, 0,                                   -- opens, reads 0
   1, 1, 1, 1, 1, 1, 1, 1,                 -- in and out with slot 1
   2, 2, 2, 2, 2,                          -- opens, reads 1, takes slot 2, is inside
   0, 0, 0]                                -- takes slot 1, is inside

/-- C49 is false of the code: the gap between marker and lock block -/
theorem C49_full_false : ¬ C49_full := by
  intro h
  have := h Bool 0 gapSched false true ⟨1, true, by decide⟩ ⟨2, true, by decide⟩
  simp at this

/-- C49 is false of the code for a second reason: a count that is out of date when the slot is taken -/
theorem C49_stale_count : Inside ((runs (start 0) staleSched).pc 0) ∧ Inside ((runs (start 0) staleSched).pc 2) :=
  ⟨⟨1, true, by decide⟩, ⟨2, true, by decide⟩⟩

/-- two processes through their doorways one after the other, then the first inside -/
def quietSched : List Bool := [false, false, false, false, true, true, true, true, true, true, true, false, true, true]

/-- for two processes, whether a schedule disturbs a doorway can be computed -/
def quietB (σ : St Bool) : List Bool → Bool
  | [] => true
  | i :: t => (!(inDoor (σ.pc !i)) || calm (σ.pc i)) && quietB (next σ i) t

theorem quietRun_of_quietB {σ : St Bool} (t : List Bool) (h : quietB σ t = true) : QuietRun σ t := by
  induction t generalizing σ with
  | nil => trivial
  | cons i t ih =>
    simp only [quietB, Bool.and_eq_true, Bool.or_eq_true, Bool.not_eq_true'] at h
    refine ⟨fun j hj hd => ?_, ih h.2⟩
    have : j = !i := by cases i <;> cases j <;> simp_all
    subst this
    rcases h.1 with h1 | h1
    · rw [hd] at h1; simp at h1
    · exact h1

example (j : Bool) (hj : Inside ((runs (start 0) quietSched).pc j)) : false = j :=
  C49_mutual_exclusion_partial 0 quietSched (quietRun_of_quietB _ (by decide)) false j ⟨1, true, by decide⟩ hj

/-- the schedules that break mutual exclusion are not quiet -/
example : quietB (start 0) gapSched = false := by decide

/-! ## C50 -/

/-- C50: in every schedule, two processes that have a slot have different slots, every slot held has its marker, and a
process that is inside made the lock block of its slot itself, which exists and is no one else's -/
theorem C50_slots (c0 : Nat) (sched : List ι) :
    (∀ i j n, num? ((runs (start c0) sched).pc i) = some n → num? ((runs (start c0) sched).pc j) = some n → i = j) ∧
    (∀ i n, num? ((runs (start c0) sched).pc i) = some n → (runs (start c0) sched).marker n = true) ∧
    (∀ i n own, (runs (start c0) sched).pc i = .inside n own →
      own = true ∧ (runs (start c0) sched).lock n = true ∧
      ∀ j, j ≠ i → holds? ((runs (start c0) sched).pc j) ≠ some n) := by
  have h := inv_runs (inv_start (ι := ι) c0) sched
  refine ⟨h.uniq, fun i n hn => (h.marker n).2 ⟨i, hn⟩, fun i n own e => ?_⟩
  have hok := h.ok i
  rw [e] at hok
  have hok : own = true := hok
  subst hok
  exact ⟨rfl, (h.lock n).2 ⟨i, by rw [e]; rfl⟩, fun j hj hh => hj (h.uniq j i n (holds_num hh) (by rw [e]; rfl))⟩

example : num? ((runs (start 0) gapSched).pc false) = some 1 ∧ num? ((runs (start 0) gapSched).pc true) = some 2 := by
  decide

/-! ## C51 -/

/-- C51: from every state the processes can reach there is a way on, using only processes that have taken part, in which
every process comes out; those waiting have been inside; no marker and no lock block is left -/
theorem C51_no_deadlock (c0 : Nat) (sched : List ι) :
    ∃ t, (∀ j ∈ t, j ∈ sched) ∧ (∀ i, (runs (start c0) (sched ++ t)).pc i = .out) ∧
      (∀ n, (runs (start c0) (sched ++ t)).marker n = false ∧ (runs (start c0) (sched ++ t)).lock n = false) ∧
      ∀ i, waiting ((runs (start c0) sched).pc i) = true →
        ∃ t1 t2, t = t1 ++ t2 ∧ Inside ((runs (start c0) (sched ++ t1)).pc i) := by
  have h := inv_runs (inv_start (ι := ι) c0) sched
  obtain ⟨t, ht, hout⟩ := all_finish h (support_start c0 sched)
  rw [← runs_append] at hout
  have h' := inv_runs (inv_start (ι := ι) c0) (sched ++ t)
  refine ⟨t, ht, hout, fun n => ⟨?_, ?_⟩, fun i hw => ?_⟩
  · by_contra hc
    obtain ⟨i, hi⟩ := (h'.marker n).1 (by simpa using hc)
    rw [hout i] at hi; simp [num?] at hi
  · by_contra hc
    obtain ⟨i, hi⟩ := (h'.lock n).1 (by simpa using hc)
    rw [hout i] at hi; simp [holds?] at hi
  · obtain ⟨t1, t2, n, own, h1, h2⟩ := waiting_then_inside hw t (by rw [← runs_append]; exact hout i)
    exact ⟨t1, t2, h1, n, own, by rw [runs_append]; exact h2⟩

example : waiting ((runs (start 0) quietSched).pc true) = true ∧ Inside ((runs (start 0) quietSched).pc false) :=
  ⟨by decide, 1, true, by decide⟩

/-! ## C52 -/

/-- C52, in full: when a process stops for good while its lock block exists, no process that enters later and gets a
higher slot ever acquires -/
def C52_full : Prop :=
  ∀ (ι : Type) [DecidableEq ι] (c0 : Nat) (sched : List ι) (j : ι) (m : Nat)
    (_ : holds? ((runs (start c0) sched).pc j) = some m) (i : ι) (_ : (runs (start c0) sched).pc i = .out)
    (t : List ι) (_ : j ∉ t) (n : Nat) (own : Bool), (runs (start c0) (sched ++ t)).pc i = .inside n own → ¬ m < n

/-- C52, the part that holds in every schedule: a process whose count was no higher than the slot of the dead process, and
that has a higher slot, never acquires while the dead process's lock block exists -/
theorem C52_dead_holder_blocks_partial (c0 : Nat) (sched : List ι) (i : ι) (m : Nat)
    (hb : Behind m ((runs (start c0) sched).pc i)) (t : List ι) (hl : LockStays m (runs (start c0) sched) t) :
    ¬ Inside ((runs (start c0) (sched ++ t)).pc i) := by
  have h := behind_stays (inv_runs (inv_start c0) sched) hb t hl
  rw [← runs_append] at h
  rintro ⟨n, own, e⟩
  rw [e] at h
  exact h

/-- C52, as stated, for schedules that disturb no doorway and a process that dies before it leaves the critical section:
no process that enters later acquires -/
theorem C52_quiet_partial (c0 : Nat) (sched : List ι) (j : ι) (m : Nat)
    (hj : act? ((runs (start c0) sched).pc j) = some m) (i : ι) (hi : (runs (start c0) sched).pc i = .out)
    (t : List ι) (hjt : j ∉ t) (hq : QuietRun (start c0) sched) (hqt : QuietRun (runs (start c0) sched) t) :
    ¬ Inside ((runs (start c0) (sched ++ t)).pc i) := by
  have h := queued_stays (qinv_runs (qinv_start c0) sched hq) (i := i) hj (by rw [hi]; trivial) t hjt hqt
  rw [← runs_append] at h
  rintro ⟨n, own, e⟩
  rw [e] at h
  exact h

/-- process 0 dies inside with slot 1 after process 1, inside with slot 2 by the gap of C49; process 1 leaves -/
def deadSched : List (Fin 3) := [0, 0, 0, 1, 1, 1, 1, 1, 1, 1, 0, 0, 1, 1, 1]

/-- C52 is false of the code: process 2 starts from count 2 and never looks at the lock block 1 -/
theorem C52_full_false : ¬ C52_full := by
  intro h
  exact h (Fin 3) 0 deadSched 0 1 (by decide) 2 (by decide) [2, 2, 2, 2, 2] (by decide) 3 true (by decide) (by decide)

/-- process 0 is inside with slot 1 and dies; process 1 has slot 2 and waits -/
example : Behind 1 ((runs (start 0) [(0 : Fin 2), 0, 0, 0, 0, 1, 1, 1, 1, 1]).pc 1) ∧
    LockStays 1 (runs (start 0) [(0 : Fin 2), 0, 0, 0, 0, 1, 1, 1, 1, 1]) [1, 1, 1, 1, 1, 1, 1] := by
  constructor
  · have : (runs (start 0) [(0 : Fin 2), 0, 0, 0, 0, 1, 1, 1, 1, 1]).pc 1 = .scanning 0 2 2 := by decide
    rw [this]; simp [Behind]
  · simp only [LockStays]; decide

end Verif.Props
