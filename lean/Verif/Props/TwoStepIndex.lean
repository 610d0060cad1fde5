import Verif.Lemmas.TwoStepIndex
import Verif.Props.Linear
/-!
# C157: concurrent calls on a `TagIndex`, when creating a block is not one step

The scripts of C83 (Verif/Props/Linear.lean), run by `interleave2` (Verif/Model/TwoStep.lean).
-/
namespace Verif.Props
open Verif Verif.Model Verif.Lemmas Verif.Spec

/-- C157, in full: C83 as far as it holds (no doorway is disturbed), with creation in two steps -/
def C157_full : Prop :=
  ∀ (ρ : Type) (E : Env) (ix : Index) (_ : NamesOK E ix.name) (s : Store) (_ : s.WF) (keys0 : List Str)
    (_ : IxRep E s ix keys0) (fl : Nat) (_ : LockClean s ix.name fl) (_ : fl < 256 ^ 5) (U : List Str)
    (_ : UniverseOK E U) (_ : keys0 ⊆ U) (fuel : Nat) (_ : fuel + 256 ^ 5 < 256 ^ 8) (scripts : List (IxScript ρ))
    (_ : ∀ sc ∈ scripts, sc.Uses (KeyOpOK E U)) (_ : ∀ n h, s.names n = some h → s.segs h ≠ []) (sched : List Nat)
    (_ : CodeQuietRun E ix.name (begun E sched (scripts.map fun sc => .run (sc.prog E fuel ix)) s) (scripts.map (IxScript.prog E fuel ix)) s),
    ∃ H keys, Linearised2 E fuel ix keys0 scripts sched s H keys ∧
      ((∀ p ∈ (interleave2 E sched (scripts.map fun sc => .run (sc.prog E fuel ix)) s).1, ∃ a, p = .run (.ret a)) →
        (indexUpdate E ix).run E (interleave2 E sched (scripts.map fun sc => .run (sc.prog E fuel ix)) s).2 =
          (.ok keys, (interleave2 E sched (scripts.map fun sc => .run (sc.prog E fuel ix)) s).2))

/-- C157, the part that holds: when the count block of the lock is there already (somebody has held the lock since it was
last removed), and no block is half made at the start, the calls take effect one after the other, as in C83 -/
theorem C157_linearizable_partial {ρ : Type} (E : Env) (ix : Index) (hok : NamesOK E ix.name) (s : Store) (w : s.WF)
    (keys0 : List Str) (h : IxRep E s ix keys0) (fl : Nat) (hc : LockClean s ix.name fl) (hfl : fl < 256 ^ 5)
    (U : List Str) (hU : UniverseOK E U) (hk0 : keys0 ⊆ U) (fuel : Nat) (hf : fuel + 256 ^ 5 < 256 ^ 8)
    (scripts : List (IxScript ρ)) (hs : ∀ sc ∈ scripts, sc.Uses (KeyOpOK E U)) (hfull : ∀ n h, s.names n = some h → s.segs h ≠ [])
    (hcount : (s.names (countAddr ix.name)).isSome = true) (sched : List Nat)
    (hq : CodeQuietRun E ix.name (begun E sched (scripts.map fun sc => .run (sc.prog E fuel ix)) s) (scripts.map (IxScript.prog E fuel ix)) s) :
    ∃ H keys, Linearised2 E fuel ix keys0 scripts sched s H keys ∧
      ((∀ p ∈ (interleave2 E sched (scripts.map fun sc => .run (sc.prog E fuel ix)) s).1, ∃ a, p = .run (.ret a)) →
        (indexUpdate E ix).run E (interleave2 E sched (scripts.map fun sc => .run (sc.prog E fuel ix)) s).2 =
          (.ok keys, (interleave2 E sched (scripts.map fun sc => .run (sc.prog E fuel ix)) s).2)) := by
  obtain ⟨H, keys, h1, h2⟩ := linear2 hok w h hc hfl hU hk0 hf scripts hs hcount hfull sched hq
  exact ⟨H, keys, h1, fun hr => run_indexUpdate (h2 hr) hok⟩

/-- C157: nobody who opens a block finds it empty (but for `exists_block`, which does not mind) -/
theorem C157_unnoticed_partial {ρ : Type} (E : Env) (ix : Index) (hok : NamesOK E ix.name) (s : Store) (w : s.WF)
    (keys0 : List Str) (h : IxRep E s ix keys0) (fl : Nat) (hc : LockClean s ix.name fl) (hfl : fl < 256 ^ 5)
    (U : List Str) (hU : UniverseOK E U) (hk0 : keys0 ⊆ U) (fuel : Nat) (hf : fuel + 256 ^ 5 < 256 ^ 8)
    (scripts : List (IxScript ρ)) (hs : ∀ sc ∈ scripts, sc.Uses (KeyOpOK E U)) (hfull : ∀ n h, s.names n = some h → s.segs h ≠ [])
    (hcount : (s.names (countAddr ix.name)).isSome = true) (sched : List Nat)
    (hq : CodeQuietRun E ix.name (begun E sched (scripts.map fun sc => .run (sc.prog E fuel ix)) s) (scripts.map (IxScript.prog E fuel ix)) s) :
    Unnoticed E sched (scripts.map fun sc => .run (sc.prog E fuel ix)) s := by
  have hmap : (scripts.map fun sc => Proc.run (sc.prog E fuel ix)) = (scripts.map (IxScript.prog E fuel ix)).map .run := by
    rw [List.map_map]; rfl
  rw [hmap] at hq ⊢
  exact (index_unnoticed hok w h hc hfl hU hk0 hf scripts hs hcount hfull sched hq).1

/-! ## the first use of the lock -/

/-- whether a call ended in a `ValueError` -/
def sawValueError : Except PyErr Nat → Nat
  | .error .valueError => 1
  | _ => 0

/-- adds a key, and says whether that raised a `ValueError` -/
def tellScript (k : Key) : IxScript Nat := .call (.add k true) fun r => .ret (sawValueError r)

theorem legal_noVE {h : List (KeyOp × Except PyErr Nat)} {a b : List Str} (hl : Legal h a b) : ∀ e ∈ h, e.2 ≠ .error .valueError := by
  induction h generalizing a with
  | nil => simp
  | cons x t ih =>
    obtain ⟨o, r⟩ := x
    intro e he
    rcases List.mem_cons.1 he with rfl | he
    · rw [show r = _ from hl.1]
      cases o with
      | add k eo =>
        simp only [ixDo, ixAdd]
        split
        · cases eo <;> simp
        · simp
      | del k =>
        simp only [ixDo, ixDel]
        split <;> simp
    · exact ih hl.2 e he

/-- C157 is false of the code: two processes add a key each to a new index, the lock of which has not been used. The first is
making the count block when the second opens it, and `add` raises `ValueError`, which no sequence of calls explains. -/
theorem C157_full_false : ¬ C157_full := by
  intro hC
  obtain ⟨H, keys, hl, _⟩ := hC Nat labEnv newIx (labNames (by simp [newIx, ixName])) newStore newStore_wf [] newIx_rep 0
    newIx_clean (by decide) [kA.text, kB.text] ⟨fun a ha b hb => demoKeysOK.inj a ha b hb, by decide⟩ (by simp) 5 (by decide)
    ([kA, kB].map tellScript) (by
      intro sc hsc
      obtain ⟨k, hk, rfl⟩ := List.mem_map.1 hsc
      exact ⟨⟨(demoKeysOK.text k hk).1, (demoKeysOK.text k hk).2, List.mem_map.2 ⟨k, hk, rfl⟩⟩, fun r => trivial⟩)
    (by
      intro n h hn
      have hn : (if n = ixName then some 0 else none) = some h := hn
      split at hn
      · cases hn
        exact fun h => nomatch h
      · cases hn) [0, 1, 1, 1] (quietRun_of_B _ (by decide +kernel))
  have h1 := hl.own 1 (tellScript kB) 1 rfl (by rfl)
  cases ht : ofClient 1 H with
  | nil => rw [ht] at h1; exact h1
  | cons e t =>
    rw [ht] at h1
    obtain ⟨o, r⟩ := e
    have h2 := h1.2
    have hr : r = .error .valueError := by
      cases t with
      | nil =>
        cases r with
        | ok m => cases h2
        | error e => cases e <;> first | rfl | cases h2
      | cons => exact h2.elim
    have hm : (o, r) ∈ ofClient 1 H := by rw [ht]; exact List.mem_cons_self ..
    obtain ⟨x, hx, hx2⟩ := List.mem_map.1 hm
    have := legal_noVE hl.legal (KOp.text x.2.1, x.2.2) (List.mem_map.2 ⟨x, (List.mem_filter.1 hx).1, rfl⟩)
    rw [hx2, hr] at this
    exact this rfl

/-! ## two clients that add and remove, on an index whose lock has been used -/

def usedStore : Store := newStore.created (countAddr ixName) 5

theorem usedStore_wf : usedStore.WF := wf_created newStore_wf _ _

theorem used_rep : IxRep labEnv usedStore newIx [] :=
  newIx_rep.rely (offX_lock _) ⟨usedStore_wf, fun x hx => by
    have hne : x ≠ countAddr ixName := fun e => hx (e ▸ lockNames_count _)
    have := eff_created newStore_wf (countAddr ixName) 5
    exact ⟨this.names x hne, by rw [usedStore, this.content, if_neg hne]⟩⟩

theorem used_clean : LockClean usedStore newIx.name 0 := by
  have := eff_created newStore_wf (countAddr ixName) 5
  refine ⟨.inr ?_, fun n => ?_, fun n => ?_⟩
  · show usedStore.content (countAddr ixName) = _
    rw [usedStore, this.content, if_pos rfl]; rfl
  · show usedStore.content (markerAddr ixName n) = _
    rw [usedStore, this.content, if_neg (marker_ne_count _ _)]
    exact newIx_clean.marker n
  · show usedStore.content (lockAddr ixName n) = _
    rw [usedStore, this.content, if_neg (lock_ne_count _ _)]
    exact newIx_clean.lock n

theorem used_full : ∀ n h, usedStore.names n = some h → usedStore.segs h ≠ [] := by
  intro n h hn
  have hn : (if n = countAddr ixName then some 1 else if n = ixName then some 0 else none) = some h := hn
  split at hn
  · cases hn; exact fun h => nomatch h
  · split at hn
    · cases hn; exact fun h => nomatch h
    · cases hn

/-- the other client does the next step whenever that disturbs no doorway; also between the two steps of a creation -/
def busySched2 {α : Type} (E : Env) (name : Str) : Nat → Nat → List (Proc α) → Store → List Nat
  | 0, _, _, _ => []
  | n + 1, last, ps, s =>
    let go := match ps[1 - last]? with
      | some (.run _) => mayGo E name (ps.map overall) s (1 - last)
      | some _ => true
      | none => false
    let i := if go then 1 - last else last
    match (ps[i]?).bind fun p => p.step E s with
    | none => []
    | some (p', s') => i :: busySched2 E name n i (ps.set i p') s'

def busyPs2 : List (Proc (List (Option Nat))) := [scriptA, scriptB].map fun sc => .run (sc.prog labEnv 60 newIx)
def busy2 : List Nat := busySched2 labEnv ixName 400 0 busyPs2 usedStore

def outcome2 {α : Type} : Proc α → Option α
  | .run (.ret a) => some a
  | _ => none

/-- client 1 adds "b" at 0, client 0 adds "a" at 1, client 1 removes "a" from 1, client 0 finds no "a" -/
theorem busy2_eq : (quietRunB labEnv ixName (begun labEnv busy2 busyPs2 usedStore) busyPs usedStore,
    (interleave2 labEnv busy2 busyPs2 usedStore).1.map outcome2) = (true, [some [some 1, none], some [some 0, some 1]]) := by decide +kernel

/-- the clients take turns, and the run is longer than the one in whole steps -/
theorem busy2_turns : busy2.take 20 = [1, 0, 1, 0, 1, 0, 1, 1, 1, 1, 0, 1, 0, 1, 0, 1, 0, 1, 0, 1] ∧
    (begun labEnv busy2 busyPs2 usedStore).length < busy2.length := by decide +kernel

example : ∃ H keys, Linearised2 labEnv 60 newIx [] [scriptA, scriptB] busy2 usedStore H keys ∧
    ((∀ p ∈ (interleave2 labEnv busy2 busyPs2 usedStore).1, ∃ a, p = .run (.ret a)) →
      (indexUpdate labEnv newIx).run labEnv (interleave2 labEnv busy2 busyPs2 usedStore).2 =
        (.ok keys, (interleave2 labEnv busy2 busyPs2 usedStore).2)) := by
  have hr := busy2_eq
  simp only [Prod.mk.injEq] at hr
  exact C157_linearizable_partial labEnv newIx (labNames (by simp [newIx, ixName])) usedStore usedStore_wf [] used_rep 0
    used_clean (by decide) [kA.text, kB.text] ⟨fun a ha b hb => demoKeysOK.inj a ha b hb, by decide⟩ (by simp) 60
    (by decide) [scriptA, scriptB] busyScripts_use used_full rfl busy2 (quietRun_of_B _ hr.1)

end Verif.Props
