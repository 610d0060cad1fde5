import Verif.Lemmas.PadShared
import Verif.Props.PadOwn
/-!
# C91: reading keys that other processes set

Processes are scripts, each with a notepad object of its own; any of them may name any key. `PadRun` collects what the run
comes to.
-/
namespace Verif.Props
open Verif Verif.Model Verif.Lemmas Verif.Spec

variable {V ρ : Type}

/-- where a block may have had `b` from: it was there, or a process has begun to set it -/
def Source (c : Codec V) (pre : Str) (s : Store) (procs : List (Pad × PadScript V ρ)) (rec : Nat → Record V ρ) (k : Str) (b : Bytes) :
    Prop := s.content (padAddr pre k) = some b ∨ ∃ i x, procs[i]? = some x ∧ setsOf c k (begun (rec i).1 (rec i).2) b

/-- what has come of a run: `rec` are the calls and outcomes of each process and what remains of its script -/
structure PadRun (c : Codec V) (isNone : V → Bool) (pre : Str) (U : Str → Prop) (s : Store) (procs : List (Pad × PadScript V ρ))
    (run : Pad → PadCall V → Prog (PadOut V)) (Ok : Bytes → Bytes → Prop) (out : List (Prog ρ) × Store) (rec : Nat → Record V ρ) :
    Prop where
  /-- the record of a process that has returned is that of all its calls -/
  ended : ∀ (i : Nat) (p : Pad) (sc : PadScript V ρ) (r : ρ), procs[i]? = some (p, sc) → out.1[i]? = some (.ret r) → sc.Follows (rec i).1 r
  /-- that of a process in the midst of a call, of all calls before this one -/
  going : ∀ (i : Nat) (p : Pad) (sc : PadScript V ρ) (q : Prog ρ), procs[i]? = some (p, sc) → out.1[i]? = some q → sc.Reaches (rec i).1 (rec i).2 ∧
    ∀ o k, (rec i).2 = .call o k → ∃ a : Prog (Except PyErr (PadOut V)), q = a.bind fun x => (k x).progOf (run p)
  /-- what has been read -/
  reads : ∀ (i : Nat) (x : Pad × PadScript V ρ) (k : Key) (y : Except PyErr (PadOut V)), procs[i]? = some x → (.get k, y) ∈ (rec i).1 → ReadFrom c isNone Ok (Source c pre s procs rec k.text) y
  /-- what is left -/
  left : ∀ (k : Str) (d : Bytes), U k → out.2.content (padAddr pre k) = some d → ∃ b, Source c pre s procs rec k b ∧ Ok b d

theorem reaches_ret {sc : PadScript V ρ} {h : List (PadCall V × Except PyErr (PadOut V))} {r : ρ} (hr : sc.Reaches h (.ret r)) :
    sc.Follows h r := by
  induction h generalizing sc with
  | nil => cases sc <;> first | (injection hr with hr; subst hr; rfl) | cases hr
  | cons a h ih =>
    obtain ⟨o, x⟩ := a
    cases sc with
    | ret r => exact hr.elim
    | raise e => exact hr.elim
    | call o' k => exact ⟨hr.1, ih hr.2⟩

theorem pad_shared (E : Env) (c : Codec V) (isNone : V → Bool) (pre : Str) (U : Str → Prop) (hU : OwnOK E pre U) (s : Store) (w : s.WF)
    (procs : List (Pad × PadScript V ρ)) (hpad : ∀ x ∈ procs, x.1.pre = pre ∧ PadOpen x.1 s) (hon : ∀ x ∈ procs, x.2.On U)
    (Ok : Bytes → Bytes → Prop) (hO : Seen Ok) (run : Pad → PadCall V → Prog (PadOut V))
    (hr : ∀ x ∈ procs, RunsOK E c isNone Ok U x.1 (run x.1)) (sched : List Nat) :
    ∃ rec, PadRun c isNone pre U s procs run Ok (interleave E sched (procs.map fun x => x.2.progOf (run x.1)) s) rec := by
  classical
  let S : Str → Prop := fun x => ¬ ownBlocks pre U x
  let init : Meant := fun x b => ∃ k, U k ∧ x = padAddr pre k ∧ s.content x = some b
  let born : Nat → Str × Bytes := fun i => if h : ∃ x, s.names x = some i then (h.choose, s.segs i) else (indexName pre, [])
  have hborn : ∀ x i, s.names x = some i → born i = (x, s.segs i) := by
    intro x i hx
    have h : ∃ x, s.names x = some i := ⟨x, hx⟩
    simp only [born, dif_pos h]
    rw [w.inj h.choose_spec hx]
  have hslots : ∀ sl : Slot, S (sl.addr (indexName pre)) := slots_off (p := ⟨pre, .fake, .fake⟩) hU
  have hmemS : S (indexName pre) := by
    have := hslots .mem
    simpa [Slot.addr, Slot.suffix] using this
  have hcells : Cells S Ok init born s := by
    refine ⟨fun x i hx => ⟨w.lt hx, by rw [hborn x i hx]⟩, fun i hi => ?_⟩
    by_cases h : ∃ x, s.names x = some i
    · obtain ⟨x, hx⟩ := h
      rw [hborn x i hx]
      by_cases hS : S x
      · exact Or.inl hS
      · obtain ⟨k, hk, rfl⟩ := not_not.1 hS
        exact Or.inr ⟨⟨k, hk, rfl, by simp [Store.content, hx]⟩, hO.all _⟩
    · refine Or.inl ?_
      simp only [born, dif_neg h]
      exact hmemS
  -- what each process begins with
  have hstart : ∀ l : List (Pad × PadScript V ρ), (∀ x ∈ l, x ∈ procs) → ∀ W0 : Meant, ∃ (rec : Nat → Record V ρ) (W : Meant), W0.le W ∧
      (∀ x b, W x b → W0 x b ∨ ∃ i x', l[i]? = some x' ∧ ∃ o ∈ begun (rec i).1 (rec i).2, Puts c pre o x b) ∧
      ∀ i p sc, l[i]? = some (p, sc) → sc.Reaches (rec i).1 (rec i).2 ∧ (rec i).2.On U ∧ HistOK c isNone Ok pre W (rec i).1 ∧
        ∃ K : Knows, K.True S born s ∧ AtNode E c isNone S Ok p (run p) (rec i).2 (sc.progOf (run p)) W K := by
    intro l
    induction l with
    | nil =>
      intro _ W0
      exact ⟨fun _ => ([], .raise .keyError), W0, Meant.le_refl _, fun _ _ h => Or.inl h, fun i p sc h => by simp at h⟩
    | cons y l ih =>
      intro hl W0
      obtain ⟨p, sc⟩ := y
      have hmem := hl _ (List.mem_cons_self ..)
      obtain ⟨hpre, hop⟩ := hpad _ hmem
      have hrun := hr _ hmem
      simp only at hpre hop hrun
      subst hpre
      let K : Knows := fun h x b => ∃ ix, p.index = .tag ix ∧ h = ix.memory ∧ x = indexName p.pre ∧ b = []
      have hKt : K.True S born s := by
        rintro h x b ⟨ix, hix, rfl, rfl, rfl⟩
        obtain ⟨h1, h2⟩ := hop ix hix
        rw [h1] at h2
        exact ⟨w.lt h2, by rw [hborn _ _ h2], Or.inl hmemS⟩
      have hmk : MemKnown S p K := fun ix hix => ⟨_, _, hmemS, ix, hix, rfl, rfl, rfl⟩
      obtain ⟨h, sc', W1, g1, g2, g3, g4, g5, g6⟩ := enter hrun sc (hon _ hmem) W0 hmk
      obtain ⟨rec, W, k1, k2, k3⟩ := ih (fun x hx => hl x (List.mem_cons_of_mem _ hx)) W1
      refine ⟨fun i => match i with | 0 => (h, sc') | i + 1 => rec i, W, Meant.le_trans g1 k1, ?_, ?_⟩
      · intro x b hxb
        rcases k2 x b hxb with h1 | ⟨i, x', h1, h2⟩
        · rcases g2 x b h1 with h1 | h1
          · exact Or.inl h1
          · exact Or.inr ⟨0, _, rfl, h1⟩
        · exact Or.inr ⟨i + 1, x', h1, h2⟩
      · intro i p' sc2 hi
        cases i with
        | zero =>
          injection hi with hi
          injection hi with e1 e2
          subst e1 e2
          exact ⟨g3, g4, g5.grow k1, K, hKt, g6.grow k1⟩
        | succ i => exact k3 i p' sc2 hi
  obtain ⟨rec0, W0, k1, k2, k3⟩ := hstart procs (fun _ h => h) init
  have hinv : SysInv E c isNone Ok pre U run init procs rec0 (procs.map fun x => x.2.progOf (run x.1)) s W0 born := by
    refine ⟨hcells.grow k1, k2, fun i p sc q hi hq => ?_⟩
    rw [List.getElem?_map, hi] at hq
    injection hq with hq
    subst hq
    exact k3 i p sc hi
  obtain ⟨rec, W, born', hfin⟩ := hinv.run (fun x hx => ⟨(hpad x hx).1, hr x hx⟩) sched (by simp)
  have src : ∀ k, U k → ∀ b, W (padAddr pre k) b → Source c pre s procs rec k b := by
    intro k hk b hb
    rcases hfin.meant _ _ hb with ⟨k', _, _, h⟩ | ⟨i, x, hx, o, ho, h⟩
    · exact Or.inl h
    · refine Or.inr ⟨i, x, hx, ?_⟩
      cases o with
      | set key v eo => exact ⟨key, v, eo, ho, (pad_inj h.1).symm, h.2⟩
      | _ => exact h.elim
  have hlen : ∀ (sched : List Nat) (qs : List (Prog ρ)) (s : Store), (interleave E sched qs s).1.length = qs.length := by
    intro sched
    induction sched with
    | nil => intro qs s; rfl
    | cons i sched ih =>
      intro qs s
      rw [interleave]
      cases qs[i]? with
      | none => exact ih _ _
      | some q =>
        simp only
        cases q.step E s with
        | none => exact ih _ _
        | some x => rw [ih]; simp
  have hOnG : ∀ sc : PadScript V ρ, sc.On U → ∀ (h : List (PadCall V × Except PyErr (PadOut V))) (sc' : PadScript V ρ), sc.Reaches h sc' →
      ∀ x ∈ h, x.1.On U := by
    intro sc hsc h
    induction h generalizing sc with
    | nil => intro _ _ x hx; cases hx
    | cons a h ih =>
      intro sc' hre x hx
      obtain ⟨o, y⟩ := a
      cases sc with
      | ret r => exact hre.elim
      | raise e => exact hre.elim
      | call o' k =>
        obtain ⟨rfl, hre⟩ := hre
        rcases List.mem_cons.1 hx with rfl | hx
        · exact hsc.1
        · exact ih (k y) (hsc.2 y) sc' hre x hx
  refine ⟨rec, ?_, ?_, ?_, ?_⟩
  · intro i p sc r hi hq
    obtain ⟨h1, _, _, K, _, h5⟩ := hfin.proc i p sc _ hi hq
    rcases h5 with ⟨r', h6, h7⟩ | ⟨e, _, h7⟩ | ⟨o, k, a, _, h7, h8, _, _⟩
    · injection h7 with h7
      subst h7
      rw [h6] at h1
      exact reaches_ret h1
    · cases h7
    · exfalso
      cases a with
      | ret x => exact h8 x rfl
      | _ => cases h7
  · intro i p sc q hi hq
    obtain ⟨h1, _, _, K, _, h5⟩ := hfin.proc i p sc _ hi hq
    refine ⟨h1, fun o k hok => ?_⟩
    rcases h5 with ⟨r', h6, h7⟩ | ⟨e, h6, h7⟩ | ⟨o', k', a, h6, h7, _, _, _⟩
    · rw [h6] at hok; cases hok
    · rw [h6] at hok; cases hok
    · rw [h6] at hok
      injection hok with e1 e2
      subst e2
      exact ⟨a, h7⟩
  · intro i x k y hi hy
    obtain ⟨p, sc⟩ := x
    obtain ⟨q, hq⟩ : ∃ q, (interleave E sched (procs.map fun x => x.2.progOf (run x.1)) s).1[i]? = some q := by
      have := (List.getElem?_eq_some_iff.1 hi).1
      exact ⟨_, List.getElem?_eq_getElem (by rw [hlen]; simpa using this)⟩
    obtain ⟨h1, _, h3, _⟩ := hfin.proc i p sc _ hi hq
    have hk : U k.text := hOnG sc (hon _ (List.mem_of_getElem? hi)) _ _ h1 _ hy
    rcases h3 _ hy with h | ⟨b, d, h4, h5⟩
    · exact Or.inl h
    · exact Or.inr ⟨b, d, src _ hk _ h4, h5⟩
  · intro k d hk hd
    simp only [Store.content] at hd
    cases hnm : (interleave E sched (procs.map fun x => x.2.progOf (run x.1)) s).2.names (padAddr pre k) with
    | none => rw [hnm] at hd; cases hd
    | some j =>
      rw [hnm] at hd
      injection hd with hd
      subst hd
      obtain ⟨h1, h2⟩ := hfin.cells.named _ _ hnm
      rcases hfin.cells.ok j h1 with h3 | ⟨h3, h4⟩
      · rw [h2] at h3
        exact absurd ⟨k, hk, rfl⟩ h3
      · rw [h2] at h3
        exact ⟨_, src k hk _ h3, h4⟩

theorem seen_mixed : Seen Mixed :=
  ⟨fun b => ⟨by simp, fun i hi => Or.inl (by
      simp only [List.length_replicate] at hi
      simp [List.getD_eq_getElem?_getD, hi])⟩,
    fun b => ⟨rfl, fun _ _ => Or.inr rfl⟩⟩

theorem seen_whole : Seen Whole := ⟨fun _ => Or.inr rfl, fun _ => Or.inl rfl⟩

/-- the programs of the processes, with copies in and out of blocks taken apart byte by byte -/
def fineProgs (E : Env) (c : Codec V) (isNone : V → Bool) (procs : List (Pad × PadScript V ρ)) : List (Prog ρ) :=
  procs.map fun x => x.2.progOf fun o => (o.run E c isNone x.1).fine

/-- C91: whatever processes do to shared keys, with copies in and out of blocks in progress byte by byte: a process that
reads a key finds nothing, or bytes each of which is zero or that of one single value, which was there at the beginning or
which some process has begun to set; never bytes of two values. Such bytes also are what is left under each key. -/
theorem C91_no_mixture (E : Env) (c : Codec V) (isNone : V → Bool) (pre : Str) (U : Str → Prop) (hU : OwnOK E pre U) (s : Store)
    (w : s.WF) (procs : List (Pad × PadScript V ρ)) (hpad : ∀ x ∈ procs, x.1.pre = pre ∧ PadOpen x.1 s)
    (hon : ∀ x ∈ procs, x.2.On U) (sched : List Nat) :
    ∃ rec, PadRun c isNone pre U s procs (fun p o => (o.run E c isNone p).fine) Mixed
      (interleave E sched (fineProgs E c isNone procs) s) rec :=
  pad_shared E c isNone pre U hU s w procs hpad hon Mixed seen_mixed (fun p o => (o.run E c isNone p).fine)
    (fun x hx o W K ho hm hW => by
      obtain ⟨h1, h2⟩ := hpad x hx
      refine obeys_fine (obeys_call seen_mixed (h1 ▸ hU) (fun ix hix => (h2 ix hix).1) hm o ho hW)) sched

/-- C91, when copies are not interrupted: a read gives `FileNotFoundError`, or what a value that was there or that some
process has begun to set gives, or what as many zeros give -/
theorem C91_whole_values (E : Env) (c : Codec V) (isNone : V → Bool) (pre : Str) (U : Str → Prop) (hU : OwnOK E pre U) (s : Store)
    (w : s.WF) (procs : List (Pad × PadScript V ρ)) (hpad : ∀ x ∈ procs, x.1.pre = pre ∧ PadOpen x.1 s)
    (hon : ∀ x ∈ procs, x.2.On U) (sched : List Nat) :
    ∃ rec, PadRun c isNone pre U s procs (PadCall.run E c isNone) Whole (interleave E sched (padProgs E c isNone procs) s) rec := by
  have e : padProgs E c isNone procs = procs.map fun x => x.2.progOf (PadCall.run E c isNone x.1) := by
    simp only [padProgs, PadScript.progOf_run]
  rw [e]
  exact pad_shared E c isNone pre U hU s w procs hpad hon Whole seen_whole (PadCall.run E c isNone)
    (fun x hx o W K ho hm hW => by
      obtain ⟨h1, h2⟩ := hpad x hx
      exact obeys_call seen_whole (h1 ▸ hU) (fun ix hix => (h2 ix hix).1) hm o ho hW) sched

/-! ## a reader and a writer -/

/-- nonempty bytes as themselves -/
def rawCodec : Codec Bytes where
  encode := fun v => if v = [] then .error .typeError else .ok v
  decode := fun b => .ok b

/-- the value, or what was raised -/
def rawOut : Except PyErr (PadOut Bytes) → Option (Outcome Bytes)
  | .ok (.val v) => some (.ok v)
  | .error e => some (.err e)
  | _ => none

/-- sets "a" to [5, 6] -/
def writerS : PadScript Bytes (Option (Outcome Bytes)) := .call (.set kA [5, 6] true) fun _ => .ret none
/-- reads "a", which is [2, 2] at the beginning -/
def readerS : PadScript Bytes (Option (Outcome Bytes)) := .call (.get kA) fun r => .ret (rawOut r)

def writeRead : List (Pad × PadScript Bytes (Option (Outcome Bytes))) := [(padOne, writerS), (padOne, readerS)]

/-- the writer's first `n` operations, then the reader, then the rest of the writer -/
def readAt (n : Nat) : List Nat := List.replicate n 0 ++ List.replicate 9 1 ++ List.replicate 9 0

/-- what the reader returns -/
def readRuns (progs : List (Prog (Option (Outcome Bytes)))) (n : Nat) : Option (Outcome Bytes) :=
  ((interleave labEnv (readAt n) progs twoStore).1[1]?.bind outcomeL).join

/-- C91, why no more is claimed: of a key with a value that one process replaces by another, a reader may find the first
value, no value, zeros, a part of the second value, or the second value -/
theorem C91_reader_may_miss :
    readRuns (fineProgs labEnv rawCodec (fun _ => false) writeRead) 13 = some (.ok [2, 2]) ∧
    readRuns (fineProgs labEnv rawCodec (fun _ => false) writeRead) 14 = some (.err .fileNotFound) ∧
    readRuns (fineProgs labEnv rawCodec (fun _ => false) writeRead) 15 = some (.ok [0, 0]) ∧
    readRuns (fineProgs labEnv rawCodec (fun _ => false) writeRead) 17 = some (.ok [5, 0]) ∧
    readRuns (fineProgs labEnv rawCodec (fun _ => false) writeRead) 18 = some (.ok [5, 6]) := by
  decide +kernel

/-- the same with copies that are not interrupted, but for the part of the second value -/
theorem C91_reader_may_miss_whole :
    readRuns (padProgs labEnv rawCodec (fun _ => false) writeRead) 5 = some (.ok [2, 2]) ∧
    readRuns (padProgs labEnv rawCodec (fun _ => false) writeRead) 6 = some (.err .fileNotFound) ∧
    readRuns (padProgs labEnv rawCodec (fun _ => false) writeRead) 7 = some (.ok [0, 0]) ∧
    readRuns (padProgs labEnv rawCodec (fun _ => false) writeRead) 8 = some (.ok [5, 6]) := by
  decide +kernel

theorem writeRead_pads : ∀ x ∈ writeRead, x.1.pre = np ∧ PadOpen x.1 twoStore := by
  intro x hx
  have hm : twoStore.names (indexName np) = some 0 := by decide +kernel
  simp only [writeRead, List.mem_cons, List.not_mem_nil, or_false] at hx
  rcases hx with rfl | rfl <;> refine ⟨rfl, fun ix hix => ?_⟩ <;> injection hix with hix <;> subst hix <;> exact ⟨rfl, hm⟩

theorem writeRead_on : ∀ x ∈ writeRead, x.2.On ownA := by
  intro x hx
  simp only [writeRead, List.mem_cons, List.not_mem_nil, or_false] at hx
  rcases hx with rfl | rfl <;> exact ⟨rfl, fun _ => trivial⟩

example : ∃ rec, PadRun rawCodec (fun _ => false) np ownA twoStore writeRead
    (fun p o => (o.run labEnv rawCodec (fun _ => false) p).fine) Mixed
    (interleave labEnv (readAt 17) (fineProgs labEnv rawCodec (fun _ => false) writeRead) twoStore) rec :=
  C91_no_mixture labEnv rawCodec (fun _ => false) np ownA ownA_ok twoStore
    (two_inUse.rep (labKeysOK np) (labIndexOK np)).1 writeRead writeRead_pads writeRead_on (readAt 17)

example : ∃ rec, PadRun rawCodec (fun _ => false) np ownA twoStore writeRead (PadCall.run labEnv rawCodec (fun _ => false)) Whole
    (interleave labEnv (readAt 7) (padProgs labEnv rawCodec (fun _ => false) writeRead) twoStore) rec :=
  C91_whole_values labEnv rawCodec (fun _ => false) np ownA ownA_ok twoStore
    (two_inUse.rep (labKeysOK np) (labIndexOK np)).1 writeRead writeRead_pads writeRead_on (readAt 7)

end Verif.Props
