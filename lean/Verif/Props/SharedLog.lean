import Verif.Spec.SharedLog
import Verif.Props.Tracker
/-!
# C98: Trackers with the same log file
-/
namespace Verif.Props
open Verif Verif.Model Verif.Spec

theorem writeAt_length_le (l : List UInt8) (pos : Nat) (bs : List UInt8) : l.length ≤ (writeAt l pos bs).length := by
  unfold writeAt; simp; omega

/-- bytes before the position stay -/
theorem writeAt_prefix {c l : List UInt8} {pos : Nat} (bs : List UInt8) (h : c <+: l) (hp : c.length ≤ pos) : c <+: writeAt l pos bs := by
  obtain ⟨t, rfl⟩ := h
  unfold writeAt
  rw [List.append_assoc, List.append_assoc, List.take_append, List.take_of_length_le hp, List.append_assoc]
  exact List.prefix_append _ _

theorem writeAt_nil (l : List UInt8) (pos : Nat) (h : pos ≤ l.length) : writeAt l pos [] = l := by
  unfold writeAt
  rw [Nat.sub_eq_zero_of_le h]
  simp

/-- two pieces written one after the other -/
theorem writeAt_append {l : List UInt8} {pos : Nat} (a b : List UInt8) (h : pos ≤ l.length) :
    writeAt (writeAt l pos a) (pos + a.length) b = writeAt l pos (a ++ b) := by
  have e : ∀ m : List UInt8, writeAt l pos m = l.take pos ++ m ++ l.drop (pos + m.length) := by
    intro m; unfold writeAt; rw [Nat.sub_eq_zero_of_le h]; simp
  have hlen : (l.take pos ++ a).length = pos + a.length := by simp; omega
  rw [e a, e (a ++ b)]
  unfold writeAt
  have h1 : pos + a.length - (l.take pos ++ a ++ l.drop (pos + a.length)).length = 0 := by
    rw [List.length_append, hlen]; omega
  have h2 : (l.take pos ++ a ++ l.drop (pos + a.length)).drop (pos + a.length + b.length) = l.drop (pos + a.length + b.length) := by
    rw [List.drop_append, List.drop_of_length_le (by omega), List.nil_append, List.drop_drop, hlen]
    congr 1; omega
  have h3 : (l.take pos ++ a ++ l.drop (pos + a.length)).take (pos + a.length) = l.take pos ++ a := by
    rw [List.take_append, List.take_of_length_le (Nat.le_of_eq hlen), hlen, Nat.sub_self, List.take_zero, List.append_nil]
  rw [h1, List.replicate_zero, List.append_nil, h2, h3, List.length_append, ← Nat.add_assoc]
  simp only [List.append_assoc]

/-- what one process does alone -/
def soloRun (d : Disk) (j : LogJob) (pc : LogPc) (ns : List Nat) : Disk × LogPc :=
  ns.foldl (fun s n => logStep s.1 j s.2 n) (d, pc)

theorem soloRun_cons (d : Disk) (j : LogJob) (pc : LogPc) (n : Nat) (ns : List Nat) :
    soloRun d j pc (n :: ns) = soloRun (logStep d j pc n).1 j (logStep d j pc n).2 ns := rfl

theorem soloRun_finished (d : Disk) (j : LogJob) (r : Except PyErr Unit) (ns : List Nat) :
    soloRun d j (.finished r) ns = (d, .finished r) := by
  induction ns with
  | nil => rfl
  | cons n t ih => rw [soloRun_cons]; cases j <;> exact ih

theorem Disk.set_set (d : Disk) (i : Nat) (a b : List UInt8) : (d.set i a).set i b = d.set i b := by
  unfold Disk.set; congr 1; funext j; dsimp only; split <;> rfl

theorem Disk.set_self (d : Disk) (i : Nat) : d.set i (d.inode i) = d := by
  unfold Disk.set; cases d; congr 1; funext j; dsimp only; split
  · subst_vars; rfl
  · rfl

theorem Disk.set_inode (d : Disk) (i : Nat) (a : List UInt8) : (d.set i a).inode i = a := by
  unfold Disk.set; simp

/-- writing, in whatever pieces, to the end -/
theorem solo_writing (doc : Except PyErr (List UInt8)) (i : Nat) (ns : List Nat) : ∀ (d : Disk) (pos : Nat) (rest : List UInt8),
    pos ≤ (d.inode i).length → ∀ d' r, soloRun d (.dump doc) (.writing i pos rest) ns = (d', .finished r) →
    r = dumpEnd doc ∧ d' = d.set i (writeAt (d.inode i) pos rest) := by
  induction ns with
  | nil => intro d pos rest _ d' r h; cases h
  | cons n t ih =>
    intro d pos rest hpos d' r h
    rw [soloRun_cons] at h
    cases rest with
    | nil =>
      have h : soloRun d (.dump doc) (.finished (dumpEnd doc)) t = _ := h
      rw [soloRun_finished] at h
      cases h
      exact ⟨rfl, by rw [writeAt_nil _ _ hpos, Disk.set_self]⟩
    | cons b l =>
      obtain ⟨h1, h2⟩ := ih _ _ _ (by
        show _ ≤ ((d.set i _).inode i).length
        rw [Disk.set_inode]
        unfold writeAt
        rw [List.length_append, List.length_append]
        simp only [List.length_take, List.length_append, List.length_replicate]; omega) d' r h
      refine ⟨h1, h2.trans ?_⟩
      show (d.set i _).set i _ = _
      rw [Disk.set_set]
      congr 1
      show writeAt ((d.set i _).inode i) _ _ = _
      rw [Disk.set_inode, writeAt_append _ _ hpos, List.take_append_drop]

/-- bytes of the file after something has been done to its inode -/
theorem file_set {d : Disk} {i : Nat} (h : d.path = some i) (l : List UInt8) : (d.set i l).file = some l := by
  show d.path.map _ = _
  rw [h]; simp [Disk.set]

/-- C98: alone, a dump of several steps is the dump of one step of `Verif/Model/Tracker.lean` (C62), however its bytes come in
pieces: it ends in the same way and leaves the same file. -/
theorem C98_alone {J : Type} (dumps : Dumps J) (t : Trk J) (stamp : J) (hp : t.paused = false) (d : Disk) (hf : d.file = t.file)
    (ns : List Nat) (d' : Disk) (r : Except PyErr Unit)
    (h : soloRun d (.dump (dumps (logDoc t stamp))) .start ns = (d', .finished r)) :
    r = (dump dumps t stamp).1 ∧ d'.file = (dump dumps t stamp).2.file := by
  generalize hdoc : dumps (logDoc t stamp) = doc at h
  unfold dump
  rw [if_neg (by simp [hp]), hdoc, ← hf]
  cases ns with
  | nil => cases h
  | cons n ns =>
  rw [soloRun_cons] at h
  have h : soloRun d (.dump doc) (.checked d.path.isSome) ns = _ := h
  cases ns with
  | nil => cases h
  | cons n ns =>
  rw [soloRun_cons] at h
  rcases hpath : d.path with _ | i
  · rw [hpath] at h
    have hfile : d.file = none := by unfold Disk.file; rw [hpath]; rfl
    have h : soloRun (logStep d (.dump doc) (.checked false) n).1 (.dump doc) (logStep d (.dump doc) (.checked false) n).2 ns = _ := h
    have hstep : logStep d (.dump doc) (.checked false) n =
        (⟨some d.next, fun j => if j = d.next then [] else d.inode j, d.next + 1⟩, .writing d.next 0 (payload [91] doc)) := by
      simp only [logStep]; rw [hpath]
    rw [hstep] at h
    obtain ⟨h1, h2⟩ := solo_writing doc _ _ _ _ _ (Nat.zero_le _) _ _ h
    subst h1 h2
    rw [file_set rfl, hfile]
    simp only [writeHead]
    cases doc with
    | error e => exact ⟨rfl, by simp [writeAt, payload]⟩
    | ok doc => exact ⟨rfl, by simp [writeAt, payload]⟩
  · rw [hpath] at h
    have hfile : d.file = some (d.inode i) := by unfold Disk.file; rw [hpath]; rfl
    have h : soloRun (logStep d (.dump doc) (.checked true) n).1 (.dump doc) (logStep d (.dump doc) (.checked true) n).2 ns = _ := h
    have hstep : logStep d (.dump doc) (.checked true) n = (d, .opened i) := by simp only [logStep]; rw [hpath]
    rw [hstep] at h
    cases ns with
    | nil => cases h
    | cons n ns =>
    rw [soloRun_cons] at h
    rw [hfile]
    rcases hc : d.inode i with _ | ⟨b, l⟩
    · have hstep : logStep d (.dump doc) (.opened i) n = (d, .finished (.error .osError)) := by simp only [logStep]; rw [hc]
      rw [hstep, soloRun_finished] at h
      cases h
      exact ⟨rfl, by rw [hfile, hc]; show some [] = t.file; rw [← hf, hfile, hc]⟩
    · have hstep : logStep d (.dump doc) (.opened i) n = (d, .writing i l.length (payload [44, 10] doc)) := by
        simp only [logStep]; rw [hc]
      rw [hstep] at h
      obtain ⟨h1, h2⟩ := solo_writing doc _ _ _ _ _ (by rw [hc]; simp) _ _ h
      subst h1 h2
      rw [file_set hpath, hc]
      simp only [writeHead]
      have hw : ∀ m : List UInt8, m ≠ [] → writeAt (b :: l) l.length m = (b :: l).dropLast ++ m := by
        intro m hm
        have hl : 0 < m.length := List.length_pos_iff.2 hm
        unfold writeAt
        rw [List.drop_of_length_le (by simp; omega), List.append_nil, List.length_cons,
          show l.length - (l.length + 1) = 0 by omega, List.replicate_zero, List.append_nil, List.dropLast_eq_take]
        rfl
      cases doc with
      | error e => exact ⟨rfl, by rw [hw _ (by simp [payload])]; rfl⟩
      | ok doc => exact ⟨rfl, by rw [hw _ (by simp [payload])]; simp [payload]⟩

theorem run_cons (w : LogWorld) (e : Nat × Nat) (s : List (Nat × Nat)) : w.run (e :: s) = (w.step e).run s := rfl

theorem run_append (w : LogWorld) (s s' : List (Nat × Nat)) : w.run (s ++ s') = (w.run s).run s' := List.foldl_append ..

/-- C98: however many dumps overlap, in whatever way, and however many stop halfway: what was in the log stays, byte for byte, up
to the closing bracket. -/
theorem C98_intact (docs : List (List UInt8)) (d : Disk) (hl : IsLog d.file docs) (hne : docs ≠ [])
    (procs : List (LogJob × LogPc)) (hd : ∀ p ∈ procs, p.2 = .start ∧ ∃ doc, p.1 = .dump doc) (sched : List (Nat × Nat)) :
    ∃ bytes, (LogWorld.run ⟨d, procs⟩ sched).disk.file = some bytes ∧ (91 :: commaSep docs) <+: bytes := by
  obtain ⟨_, h⟩ | ⟨hf, _⟩ := hl
  · exact absurd h hne
  obtain ⟨i, hpath, hi⟩ := Option.map_eq_some_iff.1 hf
  -- the invariant: processes that have the file open write behind the documents
  let c := 91 :: commaSep docs
  let inv : LogWorld → Prop := fun w => w.disk.path = some i ∧ c <+: w.disk.inode i ∧ c.length < (w.disk.inode i).length ∧
    ∀ p ∈ w.procs, (∃ doc, p.1 = .dump doc) ∧ (p.2 = .start ∨ p.2 = .checked true ∨ p.2 = .opened i ∨
      (∃ pos rest, p.2 = .writing i pos rest ∧ c.length ≤ pos) ∨ ∃ r, p.2 = .finished r)
  have hstep : ∀ w e, inv w → inv (w.step e) := by
    rintro w ⟨k, n⟩ ⟨h1, h2, h3, h4⟩
    unfold LogWorld.step
    rcases hk : w.procs[k]? with _ | ⟨j, pc⟩
    · exact ⟨h1, h2, h3, h4⟩
    obtain ⟨⟨doc, hj⟩, hpc⟩ := h4 (j, pc) (List.mem_of_getElem? hk)
    dsimp only at hj hpc ⊢
    subst hj
    have same : ∀ pc', ((∃ doc', LogJob.dump doc = .dump doc') ∧ (pc' = .start ∨ pc' = .checked true ∨ pc' = .opened i ∨
        (∃ pos rest, pc' = .writing i pos rest ∧ c.length ≤ pos) ∨ ∃ r, pc' = .finished r)) →
        ∀ p ∈ w.procs.set k (.dump doc, pc'), (∃ doc, p.1 = .dump doc) ∧ (p.2 = .start ∨ p.2 = .checked true ∨ p.2 = .opened i ∨
      (∃ pos rest, p.2 = .writing i pos rest ∧ c.length ≤ pos) ∨ ∃ r, p.2 = .finished r) := by
      intro pc' h p hp
      rcases List.mem_or_eq_of_mem_set hp with hp | rfl
      · exact h4 p hp
      · exact h
    rcases hpc with rfl | rfl | rfl | ⟨pos, rest, rfl, hpos⟩ | ⟨r, rfl⟩
    · refine ⟨h1, h2, h3, same _ ⟨⟨_, rfl⟩, .inr (.inl ?_)⟩⟩
      simp [logStep, h1]
    · have : logStep w.disk (.dump doc) (.checked true) n = (w.disk, .opened i) := by simp only [logStep]; rw [h1]
      rw [this]
      exact ⟨h1, h2, h3, same _ ⟨⟨_, rfl⟩, .inr (.inr (.inl rfl))⟩⟩
    · rcases hc : w.disk.inode i with _ | ⟨b, l⟩
      · rw [hc] at h3; simp at h3
      have : logStep w.disk (.dump doc) (.opened i) n = (w.disk, .writing i l.length (payload [44, 10] doc)) := by
        simp only [logStep]; rw [hc]
      rw [this]
      refine ⟨h1, h2, h3, same _ ⟨⟨_, rfl⟩, .inr (.inr (.inr (.inl ⟨_, _, rfl, ?_⟩)))⟩⟩
      have h3 : c.length < (w.disk.inode i).length := h3
      rw [hc, List.length_cons] at h3
      exact Nat.le_of_lt_succ h3
    · cases rest with
      | nil => exact ⟨h1, h2, h3, same _ ⟨⟨_, rfl⟩, .inr (.inr (.inr (.inr ⟨_, rfl⟩)))⟩⟩
      | cons b l =>
        refine ⟨h1, ?_, ?_, same _ ⟨⟨_, rfl⟩, .inr (.inr (.inr (.inl ⟨_, _, rfl, by omega⟩)))⟩⟩
        · show c <+: (w.disk.set i _).inode i
          rw [Disk.set_inode]; exact writeAt_prefix _ h2 hpos
        · show _ < ((w.disk.set i _).inode i).length
          rw [Disk.set_inode]; exact Nat.lt_of_lt_of_le h3 (writeAt_length_le ..)
    · exact ⟨h1, h2, h3, same _ ⟨⟨_, rfl⟩, .inr (.inr (.inr (.inr ⟨_, rfl⟩)))⟩⟩
  have hinv : inv ⟨d, procs⟩ := by
    refine ⟨hpath, ?_, ?_, fun p hp => ⟨(hd p hp).2, .inl (hd p hp).1⟩⟩
    · show c <+: d.inode i
      rw [hi]; exact List.prefix_append _ _
    · show _ < (d.inode i).length
      rw [hi]; simp [c]
  have : inv (LogWorld.run ⟨d, procs⟩ sched) := by
    generalize (⟨d, procs⟩ : LogWorld) = w at hinv
    induction sched generalizing w with
    | nil => exact hinv
    | cons e s ih => rw [run_cons]; exact ih _ (hstep _ _ hinv)
  exact ⟨_, by unfold Disk.file; rw [this.1]; rfl, this.2.1⟩

/-- steps of one process -/
theorem run_solo (d : Disk) (pre post : List (LogJob × LogPc)) (j : LogJob) (pc : LogPc) (s : List (Nat × Nat))
    (hs : ∀ e ∈ s, e.1 = pre.length) :
    LogWorld.run ⟨d, pre ++ (j, pc) :: post⟩ s =
      ⟨(soloRun d j pc (s.map Prod.snd)).1, pre ++ (j, (soloRun d j pc (s.map Prod.snd)).2) :: post⟩ := by
  induction s generalizing d pc with
  | nil => rfl
  | cons e s ih =>
    rw [run_cons]
    have he := hs e (List.mem_cons_self ..)
    have : LogWorld.step ⟨d, pre ++ (j, pc) :: post⟩ e = ⟨(logStep d j pc e.2).1, pre ++ (j, (logStep d j pc e.2).2) :: post⟩ := by
      unfold LogWorld.step
      rw [he]
      simp
    rw [this, ih _ _ fun e h => hs e (List.mem_cons_of_mem _ h)]
    rfl

/-- those whose turn it is not do nothing -/
theorem run_other (w : LogWorld) (s : List (Nat × Nat)) (k : Nat) (h : ∀ e ∈ s, e.1 ≠ k) : (w.run s).procs[k]? = w.procs[k]? := by
  induction s generalizing w with
  | nil => rfl
  | cons e s ih =>
    rw [run_cons, ih _ fun e he => h e (List.mem_cons_of_mem _ he)]
    unfold LogWorld.step
    split
    · rfl
    · rw [List.getElem?_set_ne (h e (List.mem_cons_self ..))]

theorem run_length (w : LogWorld) (s : List (Nat × Nat)) : (w.run s).procs.length = w.procs.length := by
  induction s generalizing w with
  | nil => rfl
  | cons e s ih =>
    rw [run_cons, ih]
    unfold LogWorld.step
    split <;> simp

/-- a sorted schedule has the steps of the first process first -/
theorem serial_split (s : List (Nat × Nat)) (k : Nat) (hs : Serial s) (hk : ∀ e ∈ s, k ≤ e.1) :
    ∃ a b, s = a ++ b ∧ (∀ e ∈ a, e.1 = k) ∧ (∀ e ∈ b, k + 1 ≤ e.1) ∧ Serial b := by
  induction s with
  | nil => exact ⟨[], [], rfl, by simp, by simp, .nil⟩
  | cons e t ih =>
    have hs' := List.pairwise_cons.1 hs
    by_cases h : e.1 = k
    · obtain ⟨a, b, rfl, h1, h2, h3⟩ := ih hs'.2 fun x hx => hk x (List.mem_cons_of_mem _ hx)
      refine ⟨e :: a, b, rfl, fun x hx => ?_, h2, h3⟩
      rcases List.mem_cons.1 hx with rfl | hx
      · exact h
      · exact h1 x hx
    · have := hk e (List.mem_cons_self ..)
      refine ⟨[], e :: t, rfl, by simp, fun x hx => ?_, hs⟩
      rcases List.mem_cons.1 hx with rfl | hx
      · omega
      · have := hs'.1 x hx; omega

/-- The claim: dumps that end leave a log of all documents, in some order. -/
def C98_full : Prop :=
  ∀ (docs new : List (List UInt8)) (d : Disk), IsLog d.file docs → ∀ sched,
    AllEnded (LogWorld.run ⟨d, dumping new⟩ sched) →
    AllDone (LogWorld.run ⟨d, dumping new⟩ sched) ∧
    ∃ new', new'.Perm new ∧ IsLog (LogWorld.run ⟨d, dumping new⟩ sched).disk.file (docs ++ new')

/-- C98, the part that holds: dumps of any number of Trackers to one file, one after the other, leave a log of the documents that
were there and those dumped, in order; none raises. (Missing: dumps that overlap, see `C98_full_false`.) -/
theorem C98_serial_partial (docs new : List (List UInt8)) (d : Disk) (hl : IsLog d.file docs) (sched : List (Nat × Nat))
    (hs : Serial sched) (hend : AllEnded (LogWorld.run ⟨d, dumping new⟩ sched)) :
    AllDone (LogWorld.run ⟨d, dumping new⟩ sched) ∧ IsLog (LogWorld.run ⟨d, dumping new⟩ sched).disk.file (docs ++ new) := by
  have key : ∀ (new : List (List UInt8)) (pre : List (LogJob × LogPc)) (docs : List (List UInt8)) (d : Disk) (sched : List (Nat × Nat)),
      IsLog d.file docs → Serial sched → (∀ e ∈ sched, pre.length ≤ e.1) → (∀ p ∈ pre, p.2 = .finished (.ok ())) →
      AllEnded (LogWorld.run ⟨d, pre ++ dumping new⟩ sched) →
      AllDone (LogWorld.run ⟨d, pre ++ dumping new⟩ sched) ∧
        IsLog (LogWorld.run ⟨d, pre ++ dumping new⟩ sched).disk.file (docs ++ new) := by
    intro new
    induction new with
    | nil =>
      intro pre docs d sched hl hs hk hp hend
      have : LogWorld.run ⟨d, pre ++ dumping []⟩ sched = ⟨d, pre⟩ := by
        clear hs hend
        simp only [dumping, List.map_nil, List.append_nil]
        induction sched with
        | nil => rfl
        | cons e s ih =>
          rw [run_cons]
          have : LogWorld.step ⟨d, pre⟩ e = ⟨d, pre⟩ := by
            unfold LogWorld.step
            rw [List.getElem?_eq_none (hk e (List.mem_cons_self ..))]
          rw [this]
          exact ih fun e h => hk e (List.mem_cons_of_mem _ h)
      rw [this, List.append_nil]
      exact ⟨hp, hl⟩
    | cons x new ih =>
      intro pre docs d sched hl hs hk hp hend
      obtain ⟨a, b, rfl, ha, hb, hsb⟩ := serial_split sched pre.length hs hk
      rw [run_append] at hend ⊢
      have hsolo := run_solo d pre (dumping new) (.dump (.ok x)) .start a ha
      have hcons : pre ++ dumping (x :: new) = pre ++ (.dump (.ok x), .start) :: dumping new := rfl
      rw [hcons, hsolo] at hend ⊢
      generalize hr : soloRun d (.dump (.ok x)) .start (a.map Prod.snd) = s at hend ⊢
      obtain ⟨d', pc⟩ := s
      dsimp only at hend ⊢
      have hpc : ∃ r, pc = .finished r := by
        have h1 := run_other ⟨d', pre ++ (.dump (.ok x), pc) :: dumping new⟩ b pre.length fun e he => by have := hb e he; omega
        simp only [List.getElem?_append_right (Nat.le_refl _), Nat.sub_self, List.getElem?_cons_zero] at h1
        exact hend _ (List.mem_of_getElem? h1)
      obtain ⟨r, rfl⟩ := hpc
      -- what one dump does is known of a Tracker
      let t : Trk Unit := { name := (), initStamp := (), file := d.file }
      obtain ⟨h1, h2⟩ := C98_alone (fun _ => .ok x) t () rfl d rfl _ d' r hr
      obtain ⟨h3, h4⟩ := C62_dump_appends (fun _ => .ok x) t () rfl docs hl x rfl
      rw [h3] at h1
      rw [← h2] at h4
      subst h1
      have := ih (pre ++ [(.dump (.ok x), .finished (.ok ()))]) (docs ++ [x]) d' b h4 hsb
        (by simpa using hb) (by
          intro p hp'
          rcases List.mem_append.1 hp' with hp' | hp'
          · exact hp p hp'
          · rw [List.mem_singleton.1 hp']) (by simpa using hend)
      simpa using this
  exact key new [] docs d sched hl hs (by simp) (by simp) hend

/-- three Trackers, to a file that is not there yet; `true` in pieces -/
def noFile : Disk := ⟨none, fun _ => [], 0⟩

example : (LogWorld.run ⟨noFile, dumping [[49], [116, 114, 117, 101], [50]]⟩
      [(0, 9), (0, 9), (0, 9), (0, 9), (1, 9), (1, 9), (1, 9), (1, 2), (1, 1), (1, 7), (1, 0), (2, 9), (2, 9), (2, 9), (2, 9), (2, 9)]).disk.file =
    some ("[1,\ntrue,\n2]".toList.map fun c => c.toNat.toUInt8) ∧
    IsLog (LogWorld.run ⟨noFile, dumping [[49], [116, 114, 117, 101], [50]]⟩
      [(0, 9), (0, 9), (0, 9), (0, 9), (1, 9), (1, 9), (1, 9), (1, 2), (1, 1), (1, 7), (1, 0), (2, 9), (2, 9), (2, 9), (2, 9), (2, 9)]).disk.file
      [[49], [116, 114, 117, 101], [50]] := by
  refine ⟨by decide, (C98_serial_partial [] [[49], [116, 114, 117, 101], [50]] noFile (.inl ⟨rfl, rfl⟩) _ ?_ ?_).2⟩
  · unfold Serial; decide
  · intro p hp
    simp [LogWorld.run, LogWorld.step, dumping, noFile, logStep, payload, dumpEnd] at hp
    rcases hp with rfl | rfl | rfl <;> exact ⟨_, rfl⟩

/-- **C98 is false in general**: two Trackers that both find no file. The second to open it empties it; both dumps end well, and the
first document is lost. -/
theorem C98_full_false : ¬ C98_full := by
  intro h
  obtain ⟨-, new', hp, hl⟩ := h [] [[49, 49], [50]] noFile (.inl ⟨rfl, rfl⟩)
    [(0, 9), (1, 9), (0, 9), (0, 9), (0, 9), (1, 9), (1, 9), (1, 9)] (by
      intro p hp
      simp [LogWorld.run, LogWorld.step, dumping, noFile, logStep, payload, dumpEnd] at hp
      rcases hp with rfl | rfl <;> exact ⟨_, rfl⟩)
  have hf : (LogWorld.run ⟨noFile, dumping [[49, 49], [50]]⟩ [(0, 9), (1, 9), (0, 9), (0, 9), (0, 9), (1, 9), (1, 9), (1, 9)]).disk.file =
      some [91, 50, 93] := by decide
  rw [hf] at hl
  rcases hl with ⟨h, _⟩ | ⟨h, _⟩
  · cases h
  · have hlen : new'.length = 2 := hp.length_eq
    match new', hlen with
    | [a, b], _ =>
      have := congrArg List.length (Option.some.inj h)
      simp [commaSep] at this
      omega

/-- a file with one document, `1` -/
def oneDoc : Disk := ⟨some 0, fun _ => [91, 49, 93], 1⟩

/-- Two Trackers that add to a file at once: both dumps end well, and the file is `[1,⏎3]]`, which is no JSON. -/
theorem C98_overlap_spoils : ∃ sched, AllDone (LogWorld.run ⟨oneDoc, dumping [[50, 50], [51]]⟩ sched) ∧
    (LogWorld.run ⟨oneDoc, dumping [[50, 50], [51]]⟩ sched).disk.file = some [91, 49, 44, 10, 51, 93, 93] := by
  refine ⟨[(0, 9), (1, 9), (0, 9), (1, 9), (0, 9), (1, 9), (0, 9), (1, 9), (0, 9), (1, 9)], ?_, by decide⟩
  intro p hp
  simp [LogWorld.run, LogWorld.step, dumping, oneDoc, logStep, payload, dumpEnd, Disk.set] at hp
  rcases hp with rfl | rfl <;> rfl

/-- what was there is still there, as C98 says -/
example : ∃ bytes, (LogWorld.run ⟨oneDoc, dumping [[50, 50], [51]]⟩ [(0, 9), (1, 9), (0, 9), (1, 9), (0, 9), (1, 9), (0, 2)]).disk.file =
    some bytes ∧ [91, 49] <+: bytes :=
  C98_intact [[49]] oneDoc (.inr ⟨rfl, by simp⟩) (by simp) _ (by
    intro p hp; simp [dumping] at hp; rcases hp with rfl | rfl <;> exact ⟨rfl, _, rfl⟩) _

/-- A Tracker is cleared while another dumps: the dump ends well, and there is no file. -/
theorem C98_clear_loses : ∃ sched, AllDone (LogWorld.run ⟨oneDoc, dumping [[50]] ++ [(.clear, .start)]⟩ sched) ∧
    (LogWorld.run ⟨oneDoc, dumping [[50]] ++ [(.clear, .start)]⟩ sched).disk.file = none := by
  refine ⟨[(0, 9), (0, 9), (1, 0), (0, 9), (0, 9), (0, 9)], ?_, by decide⟩
  intro p hp
  simp [LogWorld.run, LogWorld.step, dumping, oneDoc, logStep, payload, dumpEnd, Disk.set] at hp
  rcases hp with rfl | rfl <;> rfl

end Verif.Props
