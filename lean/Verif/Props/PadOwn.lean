import Verif.Lemmas.PadOwn
import Verif.Props.Notepad
import Verif.Props.Linear
/-!
# C90: a process's own keys on a shared `Notepad`

Processes are scripts (Verif/Model/PadClients.lean), each with a notepad object of its own; their programs are interleaved
operation by operation, and the schedule may stop any of them anywhere.
-/
namespace Verif.Props
open Verif Verif.Model Verif.Lemmas Verif.Spec

variable {V ρ : Type}

/-- the programs of the processes -/
def padProgs (E : Env) (c : Codec V) (isNone : V → Bool) (procs : List (Pad × PadScript V ρ)) : List (Prog ρ) :=
  procs.map fun x => x.2.prog E c isNone x.1

/-- C90: a process whose keys no other process names finds and leaves under them exactly what its own calls say, whatever
the other processes do to the rest of the notepad meanwhile, and however they are interleaved or stopped -/
theorem C90_own_keys (E : Env) (c : Codec V) (hc : CodecOK c) (isNone : V → Bool) (pre : Str) (own : Str → Prop)
    (hU : OwnOK E pre own) (s : Store) (w : s.WF) (procs : List (Pad × PadScript V ρ))
    (hpad : ∀ x ∈ procs, x.1.pre = pre ∧ PadOpen x.1 s) (i : Nat) (p : Pad) (sc : PadScript V ρ)
    (hi : procs[i]? = some (p, sc)) (hown : sc.On own)
    (hother : ∀ j x, procs[j]? = some x → j ≠ i → x.2.On fun k => ¬ own k)
    (st : Str → Option V) (hst : Holds c pre own s st) (sched : List Nat) (r : ρ)
    (hr : (interleave E sched (padProgs E c isNone procs) s).1[i]? = some (.ret r)) :
    ∃ calls st', sc.Follows calls r ∧ OwnLegal isNone st calls st' ∧
      Holds c pre own (interleave E sched (padProgs E c isNone procs) s).2 st' := by
  have hmem : ∀ j x, procs[j]? = some x → x ∈ procs := fun j x h => List.mem_of_getElem? h
  obtain ⟨hpre, hop⟩ := hpad _ (hmem _ _ hi)
  simp only at hpre
  have good : ∀ x ∈ procs, Good (ownBlocks pre own) (memHandle x.1) s := by
    rintro x hx h ⟨ix, hix, rfl⟩
    obtain ⟨h1, h2⟩ := hpad x hx
    obtain ⟨h3, h4⟩ := h2 ix hix
    refine ⟨w.lt h4, ?_⟩
    rintro y ⟨k, hk, rfl⟩ he
    have e := w.inj h4 he
    rw [h3, h1] at e
    exact slot_ne_pad (hU.free k hk) .mem (by simpa [Slot.addr, Slot.suffix] using e)
  have hg := good _ (hmem _ _ hi)
  subst hpre
  obtain ⟨p', h1, h2, h3⟩ := private_run (D := fun x => ¬ ownBlocks p.pre own x) (fun _ h => h) i sched
    (padProgs E c isNone procs) s w (sc.prog E c isNone p) (by simp [padProgs, hi])
    (prg_script (isNone := isNone) hc hU (fun ix hix => (hop ix hix).1) sc hown w hst hg) (by
      intro j q hj hji
      simp only [padProgs, List.getElem?_map, Option.map_eq_some_iff] at hj
      obtain ⟨x, hx, rfl⟩ := hj
      obtain ⟨e, ho⟩ := hpad x (hmem _ _ hx)
      refine ⟨memHandle x.1, ?_, good x (hmem _ _ hx)⟩
      refine uses_script (own := fun k => ¬ own k) (fun sl => ?_) (fun ix hix => (ho ix hix).1) (fun k hk => ?_) (fun _ h => h) _ (hother j x hx hji)
      · rw [e]; exact slots_off hU sl
      · rw [e]
        rintro ⟨k', hk', he⟩
        rw [pad_inj he] at hk
        exact hk hk')
  rw [hr] at h1
  injection h1 with h1
  subst h1
  exact h2 _ (RPriv.refl h3) r rfl

/-! ## two processes, one without a lock -/

/-- numbers but 0, as that many bytes -/
def ownCodec : Codec Nat where
  encode := fun v => if v = 0 then .error .typeError else .ok (List.replicate v v)
  decode := fun b => match b with
    | [] => .error .valueError
    | x :: _ => .ok x

theorem ownCodecOK : CodecOK ownCodec := by
  intro v b h
  simp only [ownCodec] at h
  split at h
  · cases h
  · injection h with h
    subst h
    cases v with
    | zero => contradiction
    | succ v => simp [ownCodec, List.replicate_succ]

def valOf : Except PyErr (PadOut Nat) → Option Nat
  | .ok (.val v) => some v
  | _ => none

/-- reads "a", replaces it, reads it, removes it, reads it -/
def ownerA : PadScript Nat (List (Option Nat)) :=
  .call (.get kA) fun r1 => .call (.set kA 5 true) fun _ => .call (.get kA) fun r2 => .call (.del kA) fun _ =>
    .call (.get kA) fun r3 => .ret [valOf r1, valOf r2, valOf r3]

/-- removes "b", sets it without leave to overwrite, twice, lists the keys, reads it -/
def ownerB : PadScript Nat (List (Option Nat)) :=
  .call (.del kB) fun _ => .call (.set kB 4 false) fun _ => .call (.set kB 6 false) fun _ => .call .keys fun _ =>
    .call (.get kB) fun r => .ret [valOf r]

def ownProcs : List (Pad × PadScript Nat (List (Option Nat))) := [(padOne, ownerA), (padTwo, ownerB)]

/-- one operation each in turn -/
def ownSched : List Nat := (List.replicate 60 [0, 1]).flatten

theorem own_ran : (interleave labEnv ownSched (padProgs labEnv ownCodec (fun _ => false) ownProcs) twoStore).1.map outcomeL =
    [some [some 2, some 5, none], some [some 4]] := by decide +kernel

def ownA (k : Str) : Prop := k = kA.text

theorem ownA_ok : OwnOK labEnv np ownA :=
  ⟨fun k hk => hk ▸ (labKey_lab kA (by simp)).2.2, fun k hk => hk ▸ (labKeysOK np).ok _ (labKey_lab kA (by simp)).2⟩

example : ∃ calls st', ownerA.Follows calls [some 2, some 5, none] ∧ OwnLegal (fun _ => false) twoMap calls st' ∧
    Holds ownCodec np ownA (interleave labEnv ownSched (padProgs labEnv ownCodec (fun _ => false) ownProcs) twoStore).2 st' := by
  have hrep := two_inUse.rep (labKeysOK np) (labIndexOK np)
  refine C90_own_keys labEnv ownCodec ownCodecOK (fun _ => false) np ownA ownA_ok twoStore hrep.1 ownProcs ?_ 0 padOne ownerA rfl
    ?_ ?_ twoMap ?_ ownSched _ ?_
  · intro x hx
    have hm : twoStore.names (indexName np) = some 0 := by decide +kernel
    simp only [ownProcs, List.mem_cons, List.not_mem_nil, or_false] at hx
    rcases hx with rfl | rfl <;> refine ⟨rfl, fun ix hix => ?_⟩ <;> injection hix with hix <;> subst hix <;> exact ⟨rfl, hm⟩
  · exact ⟨rfl, fun _ => ⟨rfl, fun _ => ⟨rfl, fun _ => ⟨rfl, fun _ => ⟨rfl, fun _ => trivial⟩⟩⟩⟩⟩
  · have hB : ¬ ownA kB.text := by simp [ownA, kA, kB, Key.text]
    intro j x hx hj
    rcases j with _ | _ | j
    · exact absurd rfl hj
    · injection hx with hx
      subst hx
      exact ⟨hB, fun _ => ⟨hB, fun _ => ⟨hB, fun _ => ⟨trivial, fun _ => ⟨hB, fun _ => trivial⟩⟩⟩⟩⟩
    · simp [ownProcs] at hx
  · rintro k rfl
    have hm : twoMap kA.text = some 2 := by decide +kernel
    rw [hm]
    exact ⟨[2, 2], rfl, by decide +kernel⟩
  · have h := own_ran
    generalize (interleave labEnv ownSched (padProgs labEnv ownCodec (fun _ => false) ownProcs) twoStore).1 = l at h ⊢
    cases l with
    | nil => cases h
    | cons x l =>
      simp only [List.map_cons, List.cons.injEq] at h
      cases x with
      | ret a => simpa [outcomeL] using h.1
      | _ => simp [outcomeL] at h

end Verif.Props
