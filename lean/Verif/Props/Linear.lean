import Verif.Props.LockedAdd
/-!
# C83: concurrent calls on a `TagIndex` take effect one after the other

Clients are scripts (Verif/Model/Clients.lean) that choose each call from the outcomes of their earlier ones; their
programs are those of Verif/Model/Index.lean, interleaved operation by operation.
-/
namespace Verif.Props
open Verif Verif.Model Verif.Lemmas

/-- C83, in full: however the calls are interleaved, there is one sequence of the same calls that explains all outcomes
(`Linearised`, Verif/Lemmas/Linear.lean), and when all clients have returned the listing is what that sequence leaves -/
def C83_full : Prop :=
  ∀ (ρ : Type) (E : Env) (ix : Index) (_ : NamesOK E ix.name) (s : Store) (_ : s.WF) (keys0 : List Str)
    (_ : IxRep E s ix keys0) (fl : Nat) (_ : LockClean s ix.name fl) (_ : fl < 256 ^ 5) (U : List Str)
    (_ : UniverseOK E U) (_ : keys0 ⊆ U) (fuel : Nat) (_ : fuel + 256 ^ 5 < 256 ^ 8) (scripts : List (IxScript ρ))
    (_ : ∀ sc ∈ scripts, sc.Uses (KeyOpOK E U)) (sched : List Nat),
    ∃ H keys, Linearised E fuel ix keys0 scripts sched s H keys ∧
      ((∀ p ∈ (interleave E sched (scripts.map (IxScript.prog E fuel ix)) s).1, ∃ a, p = .ret a) →
        (indexUpdate E ix).run E (interleave E sched (scripts.map (IxScript.prog E fuel ix)) s).2 =
          (.ok keys, (interleave E sched (scripts.map (IxScript.prog E fuel ix)) s).2))

/-- C83, the part that holds: when no client makes a marker or lock block or uses the count block while another is about
to make its marker or lock block -/
theorem C83_linearizable_partial {ρ : Type} (E : Env) (ix : Index) (hok : NamesOK E ix.name) (s : Store) (w : s.WF)
    (keys0 : List Str) (h : IxRep E s ix keys0) (fl : Nat) (hc : LockClean s ix.name fl) (hfl : fl < 256 ^ 5)
    (U : List Str) (hU : UniverseOK E U) (hk0 : keys0 ⊆ U) (fuel : Nat) (hf : fuel + 256 ^ 5 < 256 ^ 8)
    (scripts : List (IxScript ρ)) (hs : ∀ sc ∈ scripts, sc.Uses (KeyOpOK E U)) (sched : List Nat)
    (hq : CodeQuietRun E ix.name sched (scripts.map (IxScript.prog E fuel ix)) s) :
    ∃ H keys, Linearised E fuel ix keys0 scripts sched s H keys ∧
      ((∀ p ∈ (interleave E sched (scripts.map (IxScript.prog E fuel ix)) s).1, ∃ a, p = .ret a) →
        (indexUpdate E ix).run E (interleave E sched (scripts.map (IxScript.prog E fuel ix)) s).2 =
          (.ok keys, (interleave E sched (scripts.map (IxScript.prog E fuel ix)) s).2)) := by
  obtain ⟨H, keys, h1, h2⟩ := linear hok w h hc hfl hU hk0 hf scripts hs sched hq
  exact ⟨H, keys, h1, fun hr => run_indexUpdate (h2 hr) hok⟩

/-- C83 is false of the code: two clients add two different keys to an empty index, and both are told position 0 -/
theorem C83_full_false : ¬ C83_full := by
  intro hC
  have hr := lostRun_eq
  simp only [lostRun, Prod.mk.injEq] at hr
  obtain ⟨h1, h2⟩ := hr
  have hout : ∀ i, i < 2 → (interleave labEnv lostSched (adders labEnv 5 newIx [kA, kB]) newStore).1[i]? = some (.ret 0) := by
    intro i hi
    have : ((interleave labEnv lostSched (adders labEnv 5 newIx [kA, kB]) newStore).1.map outcome)[i]? = some (some 0) := by
      rw [h1]
      rcases i with _ | _ | i
      · rfl
      · rfl
      · omega
    rw [List.getElem?_map] at this
    cases hp : (interleave labEnv lostSched (adders labEnv 5 newIx [kA, kB]) newStore).1[i]? with
    | none => rw [hp] at this; simp at this
    | some p =>
      rw [hp] at this
      cases p with
      | ret a => simp only [Option.map_some, Option.some.injEq, outcome] at this; rw [this]
      | _ => simp [outcome] at this
  obtain ⟨H, keys, hl, hu⟩ := hC Nat labEnv newIx (labNames (by simp [newIx, ixName])) newStore newStore_wf [] newIx_rep 0
    newIx_clean (by decide) [kA.text, kB.text] ⟨fun a ha b hb => demoKeysOK.inj a ha b hb, by decide⟩ (by simp) 5 (by decide)
    ([kA, kB].map adderScript) (by
      intro sc hsc
      obtain ⟨k, hk, rfl⟩ := List.mem_map.1 hsc
      refine ⟨⟨(demoKeysOK.text k hk).1, (demoKeysOK.text k hk).2, List.mem_map.2 ⟨k, hk, rfl⟩⟩, fun r => ?_⟩
      cases r <;> trivial) lostSched
  have hA := hl.own 0 (adderScript kA) 0 rfl (by rw [adders_scripts]; exact hout 0 (by omega))
  have hB := hl.own 1 (adderScript kB) 0 rfl (by rw [adders_scripts]; exact hout 1 (by omega))
  have one : ∀ k t, (adderScript k).Follows t 0 → t = [(.add k true, .ok 0)] := by
    intro k t ht
    cases t with
    | nil => exact ht.elim
    | cons e t =>
      obtain ⟨o, r⟩ := e
      obtain ⟨h1, h2⟩ := ht
      cases r with
      | error e => cases t <;> exact h2.elim
      | ok m =>
        cases t with
        | nil => cases h2; rw [h1]
        | cons => exact h2.elim
  have hA' := one _ _ hA
  have hB' := one _ _ hB
  -- every call is one of the two, and both are there
  have hall : ∀ e ∈ H, e.2 = (.add kA true, .ok 0) ∨ e.2 = (.add kB true, .ok 0) := by
    intro e he
    have hlt := hl.clients e he
    have hm : e.2 ∈ ofClient e.1 H := List.mem_map.2 ⟨e, List.mem_filter.2 ⟨he, by simp⟩, rfl⟩
    simp only [List.map_cons, List.map_nil, List.length_cons, List.length_nil] at hlt
    rcases (by omega : e.1 = 0 ∨ e.1 = 1) with h0 | h0
    · rw [h0, hA'] at hm; simp at hm; exact Or.inl hm
    · rw [h0, hB'] at hm; simp at hm; exact Or.inr hm
  -- the first call leaves a list on which only the same call returns position 0
  have hleg := hl.legal
  cases H with
  | nil => simp [ofClient] at hA'
  | cons e t =>
    have key : ∀ (k : Str) (t : List (Nat × KOp × Except PyErr Nat)) (a b : List Str), a = [k] →
        (∀ e ∈ t, e.2 = (.add kA true, .ok 0) ∨ e.2 = (.add kB true, .ok 0)) → Spec.Legal (allCalls t) a b →
        ∀ e ∈ t, e.2.1.key.text = k := by
      intro k t
      induction t with
      | nil => simp
      | cons e t ih =>
        intro a b ha hall hleg e' he'
        obtain ⟨c, o, r⟩ := e
        obtain ⟨l1, l2⟩ := hleg
        simp only at l1 l2
        have : o.key.text = k ∧ (Spec.ixDo a (KOp.text o)).2 = [k] := by
          subst ha
          have := hall _ (List.mem_cons_self ..)
          simp only [Prod.mk.injEq] at this
          rcases this with ⟨h1, h2⟩ | ⟨h1, h2⟩ <;> subst h1 <;> subst h2 <;>
            simp only [KOp.text, Spec.ixDo, Spec.ixAdd, Spec.position, KOp.key] at l1 ⊢ <;>
            split at l1 <;> rename_i hp <;> split at hp <;> simp_all
        rcases List.mem_cons.1 he' with rfl | he'
        · exact this.1
        · exact ih _ b this.2 (fun e he => hall e (List.mem_cons_of_mem _ he)) l2 e' he'
    obtain ⟨c, o, r⟩ := e
    obtain ⟨l1, l2⟩ := hleg
    have h0 := hall _ (List.mem_cons_self ..)
    simp only [Prod.mk.injEq] at h0
    have hk : ∀ e ∈ t, e.2.1.key.text = o.key.text := by
      refine key o.key.text t _ _ ?_ (fun e he => hall e (List.mem_cons_of_mem _ he)) l2
      rcases h0 with ⟨h1, h2⟩ | ⟨h1, h2⟩ <;> subst h1 <;> rfl
    have hk' : ∀ e ∈ (c, o, r) :: t, e.2.1.key.text = o.key.text := fun e he => by
      rcases List.mem_cons.1 he with rfl | he
      · rfl
      · exact hk e he
    have mA : (KOp.add kA true, (.ok 0 : Except PyErr Nat)) ∈ ofClient 0 ((c, o, r) :: t) := by rw [hA']; simp
    have mB : (KOp.add kB true, (.ok 0 : Except PyErr Nat)) ∈ ofClient 1 ((c, o, r) :: t) := by rw [hB']; simp
    obtain ⟨x, hx, hx2⟩ := List.mem_map.1 mA
    obtain ⟨y, hy, hy2⟩ := List.mem_map.1 mB
    have e1 := hk' x (List.mem_filter.1 hx).1
    have e2 := hk' y (List.mem_filter.1 hy).1
    rw [hx2] at e1
    rw [hy2] at e2
    have := e1.trans e2.symm
    simp [KOp.key, kA, kB, Key.text] at this

/-! ## two clients that add and remove -/

/-- adds "a", removes it again -/
def scriptA : IxScript (List (Option Nat)) := .call (.add kA true) fun r => .call (.del kA) fun r' => .ret [r.toOption, r'.toOption]
/-- adds "b", removes "a" -/
def scriptB : IxScript (List (Option Nat)) := .call (.add kB false) fun r => .call (.del kA) fun r' => .ret [r.toOption, r'.toOption]

/-- the next step of client `i` disturbs no doorway, nor leads to a state where every next step would -/
def mayGo {α : Type} (E : Env) (name : Str) (ps : List (Prog α)) (s : Store) (i : Nat) : Bool :=
  quietStepB name ps s i && match (ps[i]?).bind fun p => p.step E s with
    | none => false
    | some (p', _) => !((ps.set i p').all atDoorB)

/-- a schedule that changes clients at every step at which it may -/
def busySched {α : Type} (E : Env) (name : Str) : Nat → Nat → List (Prog α) → Store → List Nat
  | 0, _, _, _ => []
  | n + 1, last, ps, s =>
    let i := if mayGo E name ps s (1 - last) then 1 - last else last
    match (ps[i]?).bind fun p => p.step E s with
    | none => []
    | some (p', s') => i :: busySched E name n i (ps.set i p') s'

def busyPs : List (Prog (List (Option Nat))) := [scriptA, scriptB].map (IxScript.prog labEnv 60 newIx)
def busy : List Nat := busySched labEnv ixName 400 0 busyPs newStore

def outcomeL {α : Type} : Prog α → Option α
  | .ret a => some a
  | _ => none

/-- client 1 adds "b" at 0, client 0 adds "a" at 1, client 1 removes "a" from 1, client 0 finds no "a" -/
theorem busy_eq : (quietRunB labEnv ixName busy busyPs newStore, (interleave labEnv busy busyPs newStore).1.map outcomeL) =
    (true, [some [some 1, none], some [some 0, some 1]]) := by decide +kernel

/-- the clients take turns -/
theorem busy_turns : busy.take 20 = [1, 0, 1, 0, 1, 1, 0, 1, 0, 1, 0, 1, 0, 1, 0, 1, 0, 1, 0, 1] := by decide +kernel

theorem busyScripts_use : ∀ sc ∈ [scriptA, scriptB], sc.Uses (KeyOpOK labEnv [kA.text, kB.text]) := by
  have hA : KeyOpOK labEnv [kA.text, kB.text] (.add kA true) := ⟨rfl, by simp [kA, KOp.key, Key.text], by simp [KOp.key]⟩
  have hA' : KeyOpOK labEnv [kA.text, kB.text] (.del kA) := ⟨rfl, by simp [kA, KOp.key, Key.text], by simp [KOp.key]⟩
  have hB : KeyOpOK labEnv [kA.text, kB.text] (.add kB false) := ⟨rfl, by simp [kB, KOp.key, Key.text], by simp [KOp.key]⟩
  intro sc hsc
  simp only [List.mem_cons, List.not_mem_nil, or_false] at hsc
  rcases hsc with rfl | rfl
  · exact ⟨hA, fun _ => ⟨hA', fun _ => trivial⟩⟩
  · exact ⟨hB, fun _ => ⟨hA', fun _ => trivial⟩⟩

example : ∃ H keys, Linearised labEnv 60 newIx [] [scriptA, scriptB] busy newStore H keys ∧
    ((∀ p ∈ (interleave labEnv busy busyPs newStore).1, ∃ a, p = .ret a) →
      (indexUpdate labEnv newIx).run labEnv (interleave labEnv busy busyPs newStore).2 =
        (.ok keys, (interleave labEnv busy busyPs newStore).2)) := by
  have hr := busy_eq
  simp only [Prod.mk.injEq] at hr
  exact C83_linearizable_partial labEnv newIx (labNames (by simp [newIx, ixName])) newStore newStore_wf [] newIx_rep 0
    newIx_clean (by decide) [kA.text, kB.text] ⟨fun a ha b hb => demoKeysOK.inj a ha b hb, by decide⟩ (by simp) 60
    (by decide) [scriptA, scriptB] busyScripts_use busy (quietRun_of_B _ hr.1)

end Verif.Props
