import Verif.Lemmas.StickyShared
import Verif.Props.Pickle
/-!
# C145: reading a `Sticky` while others stick, read and close it

The full claim is that a `read` gives `None`, a value that was stuck, or an exception. It is false: a copy into the block or out
of it takes time, and what is half of one pickle and half of another may be a pickle too.
-/
namespace Verif.Props
open Verif Verif.Model Verif.Lemmas Verif.Spec
variable {V : Type}

theorem noteInv_fresh {c : Codec V} {isNone : V → Bool} {a : Str} {P : Bytes → Prop} {own : List (StickyCall V)} {s0 s : Store}
    {p : StickyProc V} (h : StickyProc.Fresh a p) : NoteInv c isNone a P own s0 s p := by
  obtain ⟨h1, h2, h3⟩ := h
  refine ⟨by rw [h1], fun v hv => ?_, fun rr out hm => ?_, fun o q hq => ?_⟩
  · rw [h1] at hv; cases hv
  · rw [h2] at hm; cases hm
  · rw [h3] at hq; cases hq

theorem sane_start {a : Str} {P : Bytes → Prop} {s : Store} (w : s.WF) (hP : ∀ b, (s.names a).map s.segs = some b → P b) : Sane s a P s :=
  ⟨Nat.le_refl _, fun i hi => ⟨.inl hi, w.lt hi⟩, fun i hi hl => by
    rcases hi with hi | hi
    · exact hP _ (by rw [hi]; rfl)
    · omega⟩

/-- **C145**: any number of processes, each with its own `Sticky` of one address, stick, read and close as they like, copies byte by
byte: every `read` gives `None` because there is no block, a value this object has itself stuck, or what bytes decode to each of
which is zero or stands in its place in an encoding of the same length that was there or that some process had begun to stick. Such
bytes are what is in the block at the end, too. -/
theorem C145_blends_partial (E : Env) (c : Codec V) (isNone : V → Bool) (a : Str) (hok : E.okName a = true) (s : Store) (w : s.WF)
    (ps : List (StickyProc V)) (hps : ∀ p ∈ ps, StickyProc.Fresh a p) (sched : List Nat) (qs : List (StickyProc V)) (s' : Store)
    (hrun : noteRun E c isNone true sched ps s = (qs, s')) :
    (∀ q ∈ qs, ∀ rr out, (.read rr, out) ∈ q.hist →
      NoteRead c isNone (Blend (StuckSource c s a qs)) (StickyProc.begun q) out) ∧
    ∀ d, (s'.names a).map s'.segs = some d → Blend (StuckSource c s a qs) d := by
  have hq : (noteRun E c isNone true sched ps s).1 = qs := by rw [hrun]
  have hs' : (noteRun E c isNone true sched ps s).2 = s' := by rw [hrun]
  have src : ∀ b, StuckSource c s a qs b → Blend (StuckSource c s a qs) b := fun b hb i _ => .inr ⟨b, hb, rfl, rfl⟩
  have := note_run (E := E) (c := c) (isNone := isNone) (P := Blend (StuckSource c s a qs)) (fine := true) hok (fun _ => ⟨_, rfl⟩) sched ps s
    (fun i => (qs[i]?.map StickyProc.begun).getD []) (sane_start w fun b hb => src b (.inl hb))
    (fun i p hp => noteInv_fresh (hps p (List.mem_of_getElem? hp))) (fun i p hp v hv => by
      rw [hq] at hp
      refine ⟨by simpa [hp] using hv, fun b hb => ⟨src b (.inr ⟨p, List.mem_of_getElem? hp, v, hv, hb⟩), fun j _ => .inl ?_⟩⟩
      simp only [List.getD_eq_getElem?_getD, List.getElem?_replicate]
      split <;> rfl)
  rw [hq, hs'] at this
  refine ⟨fun q hm rr out ho => ?_, fun d hd => ?_⟩
  · obtain ⟨i, hi⟩ := List.getElem?_of_mem hm
    simpa [hi] using (this.2 i q hi).hist rr out ho
  · cases hn : s'.names a with
    | none => rw [hn] at hd; cases hd
    | some i =>
      rw [hn] at hd
      obtain rfl := Option.some.inj hd
      exact this.1.ok i (this.1.named i hn).1 (this.1.named i hn).2

/-- **C145**: if copies are not interrupted, the bytes read are zeros (of a block made and not yet written) or an encoding that was
there or that some process had begun to stick -/
theorem C145_uninterrupted (E : Env) (c : Codec V) (isNone : V → Bool) (a : Str) (hok : E.okName a = true) (s : Store) (w : s.WF)
    (ps : List (StickyProc V)) (hps : ∀ p ∈ ps, StickyProc.Fresh a p) (sched : List Nat) (qs : List (StickyProc V)) (s' : Store)
    (hrun : noteRun E c isNone false sched ps s = (qs, s')) :
    (∀ q ∈ qs, ∀ rr out, (.read rr, out) ∈ q.hist →
      NoteRead c isNone (OneOf (StuckSource c s a qs)) (StickyProc.begun q) out) ∧
    ∀ d, (s'.names a).map s'.segs = some d → OneOf (StuckSource c s a qs) d := by
  have hq : (noteRun E c isNone false sched ps s).1 = qs := by rw [hrun]
  have hs' : (noteRun E c isNone false sched ps s).2 = s' := by rw [hrun]
  have := note_run (E := E) (c := c) (isNone := isNone) (P := OneOf (StuckSource c s a qs)) (fine := false) hok (fun h => nomatch h) sched ps s
    (fun i => (qs[i]?.map StickyProc.begun).getD []) (sane_start w fun b hb => .inl (.inl hb))
    (fun i p hp => noteInv_fresh (hps p (List.mem_of_getElem? hp))) (fun i p hp v hv => by
      rw [hq] at hp
      exact ⟨by simpa [hp] using hv, fun b hb => ⟨.inl (.inr ⟨p, List.mem_of_getElem? hp, v, hv, hb⟩), .inr ⟨_, rfl⟩⟩⟩)
  rw [hq, hs'] at this
  refine ⟨fun q hm rr out ho => ?_, fun d hd => ?_⟩
  · obtain ⟨i, hi⟩ := List.getElem?_of_mem hm
    simpa [hi] using (this.2 i q hi).hist rr out ho
  · cases hn : s'.names a with
    | none => rw [hn] at hd; cases hd
    | some i =>
      rw [hn] at hd
      obtain rfl := Option.some.inj hd
      exact this.1.ok i (this.1.named i hn).1 (this.1.named i hn).2

/-- zeros are no pickle -/
theorem loads_zeros (short : Nat → Bool) (lim z : Nat) : ∃ e, (pickleCodec short lim).decode (List.replicate z 0) = .error e :=
  Pickle.dead_run (u := ⟨none, List.replicate z 0⟩) (zeros_replicate z) _ _

/-- **C145**: with the pickle codec and copies that are not interrupted, a `read` gives `None`, raises, or gives a value that was
there or that some process had begun to stick, the same object graph -/
theorem C145_pickles (E : Env) (short : Nat → Bool) (lim : Nat) (a : Str) (hok : E.okName a = true) (s : Store) (w : s.WF)
    (was : List (PHeap × PRef)) (hwas : ∀ b, (s.names a).map s.segs = some b → ∃ v ∈ was, HeapOK v.1 ∧ (pickleCodec short lim).encode v = .ok b)
    (ps : List (StickyProc (PHeap × PRef))) (hps : ∀ p ∈ ps, StickyProc.Fresh a p) (sched : List Nat) (qs : List (StickyProc (PHeap × PRef)))
    (s' : Store) (hrun : noteRun E (pickleCodec short lim) isNoneP false sched ps s = (qs, s'))
    (hv : ∀ q ∈ qs, ∀ v, .stick v ∈ StickyProc.begun q → HeapOK v.1) (q : StickyProc (PHeap × PRef)) (hq : q ∈ qs) (rr : Bool)
    (out : Except PyErr (StickyOut (PHeap × PRef))) (ho : (.read rr, out) ∈ q.hist) :
    out = .ok (.val none) ∨ (∃ e, out = .error e) ∨
      ∃ w, out = .ok (.val (some w)) ∧ (.stick w ∈ StickyProc.begun q ∨
        ∃ v, (v ∈ was ∨ ∃ q ∈ qs, .stick v ∈ StickyProc.begun q) ∧ SameGraph v.1 v.2 w.1 w.2) := by
  rcases (C145_uninterrupted E _ isNoneP a hok s w ps hps sched qs s' hrun).1 q hq rr out ho with h | ⟨d, hd, h⟩ | ⟨v, h1, h2, h3⟩
  · exact .inl h
  · rcases hd with hd | ⟨z, rfl⟩
    · obtain ⟨v, hv1, hv2, hv3⟩ : ∃ v, (v ∈ was ∨ ∃ q ∈ qs, .stick v ∈ StickyProc.begun q) ∧ HeapOK v.1 ∧ (pickleCodec short lim).encode v = .ok d := by
        rcases hd with hd | ⟨q', hq', v, h1, h2⟩
        · obtain ⟨v, h1, h2, h3⟩ := hwas d hd
          exact ⟨v, .inl h1, h2, h3⟩
        · exact ⟨v, .inr ⟨q', hq', h1⟩, hv q' hq' v h1, h2⟩
      obtain ⟨h', r', k1, k2⟩ := C136_round_trip short lim v.1 v.2 hv2 d hv3 []
      rw [List.append_nil] at k1
      rw [k1] at h
      by_cases e : isNoneP (h', r') = true
      · exact .inl (by simpa [noteVal, e] using h)
      · exact .inr (.inr ⟨(h', r'), by simpa [noteVal, e] using h, .inr ⟨v, hv1, k2⟩⟩)
    · obtain ⟨e, he⟩ := loads_zeros short lim z
      rw [he] at h
      exact .inr (.inl ⟨e, h⟩)
  · exact .inr (.inr ⟨v, h3, .inl h1⟩)

/-! ## witnesses and examples -/

/-- the tuple `(x, y)` -/
def pairP (x y : Int) : PHeap × PRef := ([.tuple [.int x, .int y]], .obj 0)

/-- a process that makes these calls -/
def noteCalls (a : Str) (l : List (StickyCall V)) : StickyProc V := { plan := fun h => l[h.length]?, obj := { address := a, cached := none } }

theorem noteCalls_fresh (a : Str) (l : List (StickyCall V)) : StickyProc.Fresh a (noteCalls a l) := ⟨rfl, rfl, rfl⟩

/-- what the second process has got -/
def secondGot (r : List (StickyProc V) × Store) : Option (List (Except PyErr (StickyOut V))) := (r.1[1]?).map fun p => p.hist.map Prod.snd

/-- one process sticks `(1, 2)`, then `(3, 4)`, and is interrupted; the other reads -/
def restick : List (StickyProc (PHeap × PRef)) × Store :=
  noteRun labEnv (pickleCodec (fun _ => true) 1000) isNoneP true (List.replicate 39 0 ++ List.replicate 23 1)
    [noteCalls np [.stick (pairP 1 2), .stick (pairP 3 4)], noteCalls np [.read false]] Store.empty

/-- **C145**: the full claim is false: a reader gets `(3, 2)`, which nobody has stuck -/
theorem C145_half_of_each_witness : secondGot restick = some [.ok (.val (some (pairP 3 2)))] := by decide +kernel

/-- one process sticks `(5, 6)`, once, while the other reads -/
def firstStick : List (StickyProc (PHeap × PRef)) × Store :=
  noteRun labEnv (pickleCodec (fun _ => true) 1000) isNoneP true
    (List.replicate 15 0 ++ List.replicate 16 1 ++ List.replicate 7 0 ++ List.replicate 7 1)
    [noteCalls np [.stick (pairP 5 6)], noteCalls np [.read false]] Store.empty

/-- **C145**: it is false even if there is nothing else to mix the value with: the reader gets `(0, 6)` -/
theorem C145_half_read_witness : secondGot firstStick = some [.ok (.val (some (pairP 0 6)))] := by decide +kernel

theorem two_fresh (l m : List (StickyCall V)) : ∀ p ∈ [noteCalls np l, noteCalls np m], StickyProc.Fresh np p := by
  intro p hp
  simp only [List.mem_cons, List.not_mem_nil, or_false] at hp
  rcases hp with rfl | rfl <;> exact noteCalls_fresh _ _

example : ∀ q ∈ restick.1, ∀ rr out, (.read rr, out) ∈ q.hist →
    NoteRead (pickleCodec (fun _ => true) 1000) isNoneP (Blend (StuckSource (pickleCodec (fun _ => true) 1000) Store.empty np restick.1))
      (StickyProc.begun q) out :=
  (C145_blends_partial labEnv _ isNoneP np rfl Store.empty wf_empty _ (two_fresh _ _) _ _ _ rfl).1

/-- the same calls, copies not interrupted; the reader reads before, while the block is made, and after -/
def resticks : List (StickyProc (PHeap × PRef)) × Store :=
  noteRun labEnv (pickleCodec (fun _ => true) 1000) isNoneP false
    (List.replicate 4 1 ++ List.replicate 2 0 ++ List.replicate 4 1 ++ List.replicate 9 0 ++ List.replicate 4 1)
    [noteCalls np [.stick (pairP 1 2), .stick (pairP 3 4)], noteCalls np [.read true, .read true, .read true]] Store.empty

example : secondGot resticks = some [.ok (.val none), .error badPickle, .ok (.val (some (pairP 3 4)))] := by decide +kernel

example : ∀ q ∈ resticks.1, ∀ rr out, (.read rr, out) ∈ q.hist →
    NoteRead (pickleCodec (fun _ => true) 1000) isNoneP (OneOf (StuckSource (pickleCodec (fun _ => true) 1000) Store.empty np resticks.1))
      (StickyProc.begun q) out :=
  (C145_uninterrupted labEnv _ isNoneP np rfl Store.empty wf_empty _ (two_fresh _ _) _ _ _ rfl).1

theorem pairP_ok (x y : Int) : HeapOK (pairP x y).1 := by
  intro a n hn
  match a with
  | 0 => cases hn; simp [NodeOK]
  | a + 1 => simp [pairP] at hn

example (q : StickyProc (PHeap × PRef)) (hq : q ∈ resticks.1) (w : PHeap × PRef)
    (ho : (StickyCall.read true, Except.ok (StickyOut.val (some w))) ∈ q.hist) :
    ∃ v, v ∈ [w, pairP 1 2, pairP 3 4] ∧ (v = w ∨ SameGraph v.1 v.2 w.1 w.2) := by
  have hb : resticks.1.flatMap StickyProc.begun = [.stick (pairP 1 2), .stick (pairP 3 4), .read true, .read true, .read true] := by
    decide +kernel
  have hv : ∀ q ∈ resticks.1, ∀ v, .stick v ∈ StickyProc.begun q → v = pairP 1 2 ∨ v = pairP 3 4 := by
    intro q hq v hv
    have : StickyCall.stick v ∈ resticks.1.flatMap StickyProc.begun := List.mem_flatMap.2 ⟨q, hq, hv⟩
    rw [hb] at this
    simpa using this
  rcases C145_pickles labEnv (fun _ => true) 1000 np rfl Store.empty wf_empty [] (fun b hb => nomatch hb) _ (two_fresh _ _) _ _ _ rfl
    (fun q hq v h => by rcases hv q hq v h with rfl | rfl <;> exact pairP_ok _ _) q hq true _ ho with h | ⟨e, h⟩ | ⟨w', h1, h2⟩
  · cases h
  · cases h
  · cases h1
    rcases h2 with h2 | ⟨v, h2 | ⟨q', hq', h2⟩, h3⟩
    · exact ⟨w, by simp, .inl rfl⟩
    · cases h2
    · exact ⟨v, by rcases hv q' hq' v h2 with rfl | rfl <;> simp, .inr h3⟩

end Verif.Props
