import Verif.Props.PadShared
import Verif.Props.StickyShared
/-!
# C146: reading keys of a `Notepad` that others set, values pickled

The full claim is that reading a key gives a value that was there or that somebody has set, or raises. It is false when copies are
taken apart; it holds when they are not interrupted.
-/
namespace Verif.Props
open Verif Verif.Model Verif.Lemmas Verif.Spec
variable {ρ : Type}

/-- **C146**: copies not interrupted: reading a key raises, or gives a value that was there or that some process had begun to set under
this key: the same object graph, never a mixture. -/
theorem C146_values_partial (E : Env) (short : Nat → Bool) (lim : Nat) (pre : Str) (U : Str → Prop) (hU : OwnOK E pre U) (s : Store)
    (w : s.WF) (was : Str → PHeap × PRef → Prop)
    (hwas : ∀ k, U k → ∀ b, s.content (padAddr pre k) = some b → ∃ v, was k v ∧ HeapOK v.1 ∧ (pickleCodec short lim).encode v = .ok b)
    (procs : List (Pad × PadScript (PHeap × PRef) ρ)) (hpad : ∀ x ∈ procs, x.1.pre = pre ∧ PadOpen x.1 s)
    (hon : ∀ x ∈ procs, x.2.On U) (sched : List Nat) :
    ∃ rec, PadRun (pickleCodec short lim) isNoneP pre U s procs (PadCall.run E (pickleCodec short lim) isNoneP) Whole
        (interleave E sched (padProgs E (pickleCodec short lim) isNoneP procs) s) rec ∧
      ((∀ i x key v eo, procs[i]? = some x → .set key v eo ∈ begun (rec i).1 (rec i).2 → HeapOK v.1) →
        ∀ i x (k : Key) y, procs[i]? = some x → U k.text → (.get k, y) ∈ (rec i).1 →
          (∃ e, y = .error e) ∨ ∃ u v, y = .ok (.val u) ∧ SameGraph v.1 v.2 u.1 u.2 ∧
            (was k.text v ∨ ∃ j x key eo, procs[j]? = some x ∧ key.text = k.text ∧ .set key v eo ∈ begun (rec j).1 (rec j).2)) := by
  obtain ⟨rec, h⟩ := C91_whole_values E (pickleCodec short lim) isNoneP pre U hU s w procs hpad hon sched
  refine ⟨rec, h, fun hv i x k y hi hk hy => ?_⟩
  rcases h.reads i x k y hi hy with h1 | ⟨b, d, h1, h2, h3⟩
  · exact .inl ⟨_, h1⟩
  · rcases h2 with rfl | rfl
    · obtain ⟨v, k1, k2, k3⟩ : ∃ v, (was k.text v ∨ ∃ j x key eo, procs[j]? = some x ∧ key.text = k.text ∧
          .set key v eo ∈ begun (rec j).1 (rec j).2) ∧ HeapOK v.1 ∧ (pickleCodec short lim).encode v = .ok d := by
        rcases h1 with h1 | ⟨j, x', hj, key, v, eo, g1, g2, g3⟩
        · obtain ⟨v, g1, g2, g3⟩ := hwas _ hk _ h1
          exact ⟨v, .inl g1, g2, g3⟩
        · exact ⟨v, .inr ⟨j, x', key, eo, hj, g2, g1⟩, hv j x' key v eo hj g1, g3⟩
      obtain ⟨h', r', g1, g2⟩ := C136_round_trip short lim v.1 v.2 k2 d k3 []
      rw [List.append_nil] at g1
      rw [g1] at h3
      simp only [getOut] at h3
      split at h3
      · exact .inl ⟨_, h3⟩
      · exact .inr ⟨(h', r'), v, h3, g2, k1⟩
    · obtain ⟨e, he⟩ := loads_zeros short lim b.length
      rw [he] at h3
      exact .inl ⟨_, h3⟩

/-! ## a reader and a writer -/

/-- the value, or what was raised -/
def pickleOut : Except PyErr (PadOut (PHeap × PRef)) → Option (Outcome (PHeap × PRef))
  | .ok (.val v) => some (.ok v)
  | .error e => some (.err e)
  | _ => none

/-- one process sets a key to `(5, 6)`, the other reads it -/
def setRead (k : Key) : List (Pad × PadScript (PHeap × PRef) (Option (Outcome (PHeap × PRef)))) :=
  [(padOne, .call (.set k (pairP 5 6) true) fun _ => .ret none), (padOne, .call (.get k) fun r => .ret (pickleOut r))]

/-- what the reader returns -/
def setReadGot (progs : List (Prog (Option (Outcome (PHeap × PRef))))) (sched : List Nat) : Option (Outcome (PHeap × PRef)) :=
  ((interleave labEnv sched progs twoStore).1[1]?.bind outcomeL).join

/-- **C146**: with copies taken apart the full claim is false: the reader gets `(0, 6)`. The writer is interrupted before the number 5,
the reader is interrupted after having read a zero in its place. -/
theorem C146_half_read_witness :
    setReadGot (fineProgs labEnv (pickleCodec (fun _ => true) 1000) isNoneP (setRead kA))
      (List.replicate 28 0 ++ List.replicate 15 1 ++ List.replicate 9 0 ++ List.replicate 9 1) = some (.ok (pairP 0 6)) := by
  decide +kernel

/-- the same, not interrupted -/
theorem C146_whole_read :
    setReadGot (padProgs labEnv (pickleCodec (fun _ => true) 1000) isNoneP (setRead kA)) (List.replicate 9 0 ++ List.replicate 9 1) =
      some (.ok (pairP 5 6)) := by
  decide +kernel

theorem setRead_pads (k : Key) : ∀ x ∈ setRead k, x.1.pre = np ∧ PadOpen x.1 twoStore := by
  intro x hx
  have hm : twoStore.names (indexName np) = some 0 := by decide +kernel
  simp only [setRead, List.mem_cons, List.not_mem_nil, or_false] at hx
  rcases hx with rfl | rfl <;> refine ⟨rfl, fun ix hix => ?_⟩ <;> injection hix with hix <;> subst hix <;> exact ⟨rfl, hm⟩

/-- the key "c", which is not there at the beginning -/
def ownC (k : Str) : Prop := k = kC.text

theorem ownC_ok : OwnOK labEnv np ownC :=
  ⟨fun k hk => hk ▸ (labKey_lab kC (by simp)).2.2, fun k hk => hk ▸ (labKeysOK np).ok _ (labKey_lab kC (by simp)).2⟩

example : ∃ rec : Nat → Record (PHeap × PRef) (Option (Outcome (PHeap × PRef))),
    (∀ i x key v eo, (setRead kC)[i]? = some x → .set key v eo ∈ begun (rec i).1 (rec i).2 → HeapOK v.1) →
      ∀ y, (.get kC, y) ∈ (rec 1).1 → (∃ e, y = .error e) ∨ ∃ u v, y = .ok (.val u) ∧ SameGraph v.1 v.2 u.1 u.2 ∧
        (False ∨ ∃ j x key eo, (setRead kC)[j]? = some x ∧ key.text = kC.text ∧ .set key v eo ∈ begun (rec j).1 (rec j).2) := by
  have absent : twoStore.content (padAddr np kC.text) = none := by decide +kernel
  obtain ⟨rec, _, h⟩ := C146_values_partial labEnv (fun _ => true) 1000 np ownC ownC_ok twoStore
    (two_inUse.rep (labKeysOK np) (labIndexOK np)).1 (fun _ _ => False) (fun k hk b hb => by rw [hk, absent] at hb; cases hb)
    (setRead kC) (setRead_pads kC) (fun x hx => by
      simp only [setRead, List.mem_cons, List.not_mem_nil, or_false] at hx
      rcases hx with rfl | rfl <;> exact ⟨rfl, fun _ => trivial⟩) (List.replicate 9 0 ++ List.replicate 9 1)
  exact ⟨rec, fun hv y hy => h hv 1 _ kC y rfl rfl hy⟩

end Verif.Props
