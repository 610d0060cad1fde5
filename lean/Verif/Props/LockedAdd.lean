import Verif.Lemmas.Linear
import Verif.Props.TagIndex
/-!
# C53: concurrent `add` calls with the default lock

The programs are those of Verif/Model/Index.lean, interleaved operation by operation. A schedule is a list of the numbers
of the clients; each entry lets that client perform its next primitive shared-memory operation.
-/
namespace Verif.Props
open Verif Verif.Model Verif.Lemmas

/-- the clients' calls `index.add(key)` -/
def adders (E : Env) (fuel : Nat) (ix : Index) (ks : List Key) : List (Prog Nat) :=
  ks.map fun k => indexAdd E (.sliding fuel) ix k true

/-- keys that can be stored and that the digest separates -/
structure KeysOK (E : Env) (keys0 : List Str) (ks : List Key) : Prop where
  text : ∀ k ∈ ks, k.hashed E = E.utf8 k.text ∧ k.text ≠ []
  inj : ∀ a ∈ keys0 ++ ks.map Key.text, ∀ b ∈ keys0 ++ ks.map Key.text, E.sha (E.utf8 a) = E.sha (E.utf8 b) → a = b

/-- C53, in full: however the calls of any number of clients are interleaved, when all have returned the listing contains
the old keys and every key added -/
def C53_full : Prop :=
  ∀ (E : Env) (ix : Index) (_ : NamesOK E ix.name) (s : Store) (_ : s.WF) (keys0 : List Str) (_ : IxRep E s ix keys0)
    (fl : Nat) (_ : LockClean s ix.name fl) (_ : fl < 256 ^ 5) (ks : List Key) (_ : KeysOK E keys0 ks)
    (_ : keys0.length + ks.length < 256 ^ 8) (fuel : Nat) (_ : fuel + 256 ^ 5 < 256 ^ 8) (sched : List Nat)
    (_ : ∀ p ∈ (interleave E sched (adders E fuel ix ks) s).1, ∃ a, p = .ret a),
    ∃ l, (indexUpdate E ix).run E (interleave E sched (adders E fuel ix ks) s).2 =
        (.ok l, (interleave E sched (adders E fuel ix ks) s).2) ∧ ∀ k ∈ keys0 ++ ks.map Key.text, k ∈ l

/-- the call as a script that hands on an exception -/
def adderScript (k : Key) : IxScript Nat := .call (.add k true) fun r => match r with
  | .ok n => .ret n
  | .error e => .raise e

theorem adderScript_prog (E : Env) (fuel : Nat) (ix : Index) (k : Key) :
    (adderScript k).prog E fuel ix = indexAdd E (.sliding fuel) ix k true := by
  rw [← attempt_rethrow (indexAdd E (.sliding fuel) ix k true)]
  show ((KOp.add k true).run E fuel ix).attempt.bind _ = _
  refine congrArg _ (congrArg _ (funext fun r => ?_))
  cases r <;> rfl

theorem adders_scripts (E : Env) (fuel : Nat) (ix : Index) (ks : List Key) :
    (ks.map adderScript).map (IxScript.prog E fuel ix) = adders E fuel ix ks := by
  rw [adders, List.map_map]
  exact List.map_congr_left fun k _ => adderScript_prog E fuel ix k

/-- adds one after the other: the new list -/
theorem legal_adds {h : List (Spec.KeyOp × Except PyErr Nat)} {a b : List Str}
    (hadd : ∀ e ∈ h, ∃ k, e.1 = .add k true) (hl : Spec.Legal h a b) :
    a <+: b ∧ ∀ k, k ∈ b ↔ k ∈ a ∨ ∃ e ∈ h, e.1 = .add k true := by
  induction h generalizing a with
  | nil => cases hl; exact ⟨List.prefix_refl _, fun k => by simp⟩
  | cons e t ih =>
    obtain ⟨o, r⟩ := e
    obtain ⟨k0, hk0⟩ := hadd _ (List.mem_cons_self ..)
    simp only at hk0
    subst hk0
    obtain ⟨h1, h2⟩ := ih (fun e he => hadd e (List.mem_cons_of_mem _ he)) hl.2
    have hcase : (Spec.ixDo a (.add k0 true)).2 = a ∧ k0 ∈ a ∨ (Spec.ixDo a (.add k0 true)).2 = a ++ [k0] := by
      simp only [Spec.ixDo, Spec.ixAdd]
      cases hp : Spec.position k0 a with
      | some i => exact Or.inl ⟨rfl, List.mem_of_getElem? (position_some hp)⟩
      | none => exact Or.inr rfl
    rcases hcase with ⟨e1, hin⟩ | e1
    · rw [e1] at h1 h2
      refine ⟨h1, fun k => ?_⟩
      rw [h2]
      simp only [List.mem_cons]
      constructor
      · rintro (h | ⟨e, he, h⟩)
        · exact Or.inl h
        · exact Or.inr ⟨e, Or.inr he, h⟩
      · rintro (h | ⟨e, rfl | he, h⟩)
        · exact Or.inl h
        · injection h with h _; exact Or.inl (h ▸ hin)
        · exact Or.inr ⟨e, he, h⟩
    · rw [e1] at h1 h2
      refine ⟨(List.prefix_append _ _).trans h1, fun k => ?_⟩
      rw [h2]
      simp only [List.mem_cons, List.mem_append, List.not_mem_nil, or_false]
      constructor
      · rintro ((h | h) | ⟨e, he, h⟩)
        · exact Or.inl h
        · exact Or.inr ⟨_, Or.inl rfl, by rw [h]⟩
        · exact Or.inr ⟨e, Or.inr he, h⟩
      · rintro (h | ⟨e, rfl | he, h⟩)
        · exact Or.inl (Or.inl h)
        · injection h with h _; exact Or.inl (Or.inr h.symm)
        · exact Or.inr ⟨e, he, h⟩

/-- C53, the part that holds: when no client makes a marker or lock block or uses the count block while another is about
to make its marker or lock block, and all have returned, the listing is the old keys followed by the new ones: all of
them, and nothing else -/
theorem C53_adds_partial (E : Env) (ix : Index) (hok : NamesOK E ix.name) (s : Store) (w : s.WF) (keys0 : List Str)
    (h : IxRep E s ix keys0) (fl : Nat) (hc : LockClean s ix.name fl) (hfl : fl < 256 ^ 5) (ks : List Key)
    (hks : KeysOK E keys0 ks) (hb : keys0.length + ks.length < 256 ^ 8) (fuel : Nat) (hf : fuel + 256 ^ 5 < 256 ^ 8)
    (sched : List Nat) (hq : CodeQuietRun E ix.name sched (adders E fuel ix ks) s)
    (hret : ∀ p ∈ (interleave E sched (adders E fuel ix ks) s).1, ∃ a, p = .ret a) :
    ∃ l, (indexUpdate E ix).run E (interleave E sched (adders E fuel ix ks) s).2 =
        (.ok l, (interleave E sched (adders E fuel ix ks) s).2) ∧ l.Nodup ∧ keys0 <+: l ∧
      ∀ k, k ∈ l ↔ k ∈ keys0 ++ ks.map Key.text := by
  obtain ⟨H, l, hlin, hrep⟩ := linear hok w h hc hfl (U := keys0 ++ ks.map Key.text) ⟨hks.inj, by simpa using hb⟩
    (List.subset_append_left _ _) hf (ks.map adderScript) (by
      intro sc hsc
      obtain ⟨k, hk, rfl⟩ := List.mem_map.1 hsc
      refine ⟨⟨(hks.text k hk).1, (hks.text k hk).2, List.mem_append_right _ (List.mem_map.2 ⟨k, hk, rfl⟩)⟩, fun r => ?_⟩
      cases r <;> trivial) sched (by rw [adders_scripts]; exact hq)
  rw [adders_scripts] at hrep
  have h1 := hrep hret
  -- each client made its call, and no other
  have own : ∀ i k, ks[i]? = some k → ∃ n, ofClient i H = [(.add k true, .ok n)] := by
    intro i k hi
    have hlen : i < (interleave E sched (adders E fuel ix ks) s).1.length := by
      rw [interleave_length]
      obtain ⟨hl, _⟩ := List.getElem?_eq_some_iff.1 hi
      simpa [adders] using hl
    obtain ⟨n, hn⟩ := hret _ (List.getElem_mem hlen)
    have := hlin.own i (adderScript k) n (by simp [hi]) (by
      rw [adders_scripts, List.getElem?_eq_getElem hlen, hn])
    refine ⟨n, ?_⟩
    cases hc : ofClient i H with
    | nil => rw [hc] at this; exact this.elim
    | cons e t =>
      rw [hc] at this
      obtain ⟨o, r⟩ := e
      obtain ⟨h1, h2⟩ := this
      cases r with
      | error e => cases t <;> exact h2.elim
      | ok m =>
        cases t with
        | nil => cases h2; rw [h1]
        | cons => exact h2.elim
  have adds : ∀ e ∈ H, ∃ k, ks[e.1]? = some k ∧ e.2.1 = .add k true := by
    intro e he
    have hl := hlin.clients e he
    rw [List.length_map] at hl
    obtain ⟨n, hn⟩ := own e.1 ks[e.1] (List.getElem?_eq_getElem hl)
    have : e.2 ∈ ofClient e.1 H := List.mem_map.2 ⟨e, List.mem_filter.2 ⟨he, by simp⟩, rfl⟩
    rw [hn] at this
    simp only [List.mem_cons, List.not_mem_nil, or_false] at this
    exact ⟨_, List.getElem?_eq_getElem hl, by rw [this]⟩
  obtain ⟨h2, h3⟩ := legal_adds (by
    intro e he
    obtain ⟨x, hx, rfl⟩ := List.mem_map.1 he
    obtain ⟨k, _, hk⟩ := adds x hx
    exact ⟨k.text, by rw [hk]; rfl⟩) hlin.legal
  refine ⟨l, run_indexUpdate h1 hok, h1.nodup, h2, fun k => ?_⟩
  rw [h3, List.mem_append]
  refine or_congr Iff.rfl ⟨?_, fun hk => ?_⟩
  · rintro ⟨e, he, h⟩
    obtain ⟨x, hx, rfl⟩ := List.mem_map.1 he
    obtain ⟨k', hk', hx'⟩ := adds x hx
    rw [hx'] at h
    injection h with h _
    exact List.mem_map.2 ⟨k', List.mem_of_getElem? hk', h⟩
  · obtain ⟨key, hm, e⟩ := List.mem_map.1 hk
    obtain ⟨i, hi⟩ := List.mem_iff_getElem?.1 hm
    obtain ⟨n, hn⟩ := own i key hi
    have : (KOp.add key true, (.ok n : Except PyErr Nat)) ∈ ofClient i H := by rw [hn]; simp
    obtain ⟨x, hx, hx2⟩ := List.mem_map.1 this
    refine ⟨_, List.mem_map.2 ⟨x, (List.mem_filter.1 hx).1, rfl⟩, ?_⟩
    rw [hx2, ← e]
    rfl

/-! ## a check for quiet schedules -/

/-- may be the creation of a marker or a lock block -/
def doorB : Op → Bool
  | .create _ size => size == 1
  | _ => false

/-- may use the count block -/
def countB (name : Str) (s : Store) : Op → Bool
  | .read i => s.names (countAddr name) == some i
  | .write i _ => s.names (countAddr name) == some i
  | _ => false

def atDoorB {α : Type} : Prog α → Bool
  | .stuck => true
  | .op o _ => doorB o
  | _ => false

/-- the next operation of the program cannot disturb a doorway -/
def calmB {α : Type} (name : Str) (s : Store) : Prog α → Bool
  | .op o _ => !(doorB o) && !(countB name s o)
  | _ => true

def quietStepB {α : Type} (name : Str) (ps : List (Prog α)) (s : Store) (i : Nat) : Bool :=
  match ps[i]? with
  | none => true
  | some p => calmB name s p || (List.range ps.length).all fun j => j == i || !((ps[j]?).any atDoorB)

def quietRunB {α : Type} (E : Env) (name : Str) : List Nat → List (Prog α) → Store → Bool
  | [], _, _ => true
  | i :: sched, ps, s => quietStepB name ps s i && match ps[i]? with
    | none => quietRunB E name sched ps s
    | some p => match p.step E s with
      | none => quietRunB E name sched ps s
      | some (p', s') => quietRunB E name sched (ps.set i p') s'

theorem quiet_of_stepB {α : Type} {name : Str} {ps : List (Prog α)} {s : Store} {i : Nat}
    (h : quietStepB name ps s i = true) : CodeQuiet name ps s i := by
  intro j p hj hp hat o k hi
  simp only [quietStepB, hi, Bool.or_eq_true, List.all_eq_true, List.mem_range, beq_iff_eq] at h
  rcases h with h | h
  · simp only [calmB, Bool.and_eq_true, Bool.not_eq_true'] at h
    refine ⟨fun ⟨n, hn⟩ => ?_, fun ⟨c, hc, hn⟩ => ?_⟩
    · rcases hn with hn | hn <;> subst hn <;> simp [doorB] at h
    · rcases hn with hn | ⟨b, hn⟩ <;> subst hn <;> simp [countB, hc] at h
  · obtain ⟨hl, _⟩ := List.getElem?_eq_some_iff.1 hp
    rcases h j hl with h | h
    · exact absurd h hj
    · exfalso
      rw [hp] at h
      rcases hat with hat | ⟨o', k', e, n, hn⟩
      · subst hat; simp [atDoorB] at h
      · subst e; rcases hn with hn | hn <;> subst hn <;> simp [atDoorB, doorB] at h

theorem quietRun_of_B {α : Type} {E : Env} {name : Str} (sched : List Nat) {ps : List (Prog α)} {s : Store}
    (h : quietRunB E name sched ps s = true) : CodeQuietRun E name sched ps s := by
  induction sched generalizing ps s with
  | nil => trivial
  | cons i t ih =>
    simp only [quietRunB, Bool.and_eq_true] at h
    obtain ⟨h1, h2⟩ := h
    refine ⟨quiet_of_stepB h1, ?_⟩
    cases hi : ps[i]? with
    | none => rw [hi] at h2; exact ih h2
    | some p =>
      rw [hi] at h2
      simp only at h2 ⊢
      cases hs : p.step E s with
      | none => rw [hs] at h2; exact ih h2
      | some x => obtain ⟨p', s'⟩ := x; rw [hs] at h2; exact ih h2

/-! ## C53 is false of the code -/

/-- an index just created -/
def newIx : Index := ⟨ixName, 0⟩
def newStore : Store := Store.empty.created ixName 8

/-- client 0 makes marker 1; client 1 goes through its doorway with slot 2, sees no lock block, enters and reads the
length 0; client 0 makes lock block 1, enters, adds its key and leaves; client 1 goes on -/
def lostSched : List Nat := [0, 0, 0] ++ List.replicate 10 1 ++ List.replicate 20 0 ++ List.replicate 20 1

/-- the outcome: how each client's call ended, and the listing -/
def outcome : Prog Nat → Option Nat
  | .ret a => some a
  | _ => none

def lostRun : List (Option Nat) × Outcome (List Str) :=
  let r := interleave labEnv lostSched (adders labEnv 5 newIx [kA, kB]) newStore
  (r.1.map outcome, ((indexUpdate labEnv newIx).run labEnv r.2).1)

theorem lostRun_eq : lostRun = ([some 0, some 0], .ok ["b".toList]) := by decide +kernel

theorem newIx_rep : IxRep labEnv newStore newIx [] := by
  refine ⟨rfl, rfl, by decide, by simp, by simp, ?_, by simp, ?_⟩
  · intro i _
    rw [content_none]
    show (if keyAddr ixName i = ixName then some 0 else none) = none
    rw [if_neg (key_ne_mem _ _)]
  · intro hh _
    rw [content_none]
    show (if (Slot.hash hh).addr ixName = ixName then some 0 else none) = none
    rw [if_neg (hash_ne_mem _ _)]

theorem newStore_wf : newStore.WF := wf_created wf_empty _ _

theorem newIx_clean : LockClean newStore newIx.name 0 := by
  have : ∀ sl : Slot, sl ≠ .mem → newStore.content (sl.addr ixName) = none := by
    intro sl hsl
    rw [content_none]
    show (if sl.addr ixName = ixName then some 0 else none) = none
    rw [if_neg fun e => hsl (addr_injective (e.trans (addr_mem ixName)))]
  exact ⟨Or.inl ⟨this .count (by simp), rfl⟩, fun n => this (.marker n) (by simp), fun n => this (.lock n) (by simp)⟩

theorem demoKeysOK : KeysOK labEnv [] [kA, kB] :=
  ⟨fun k hk => by
    simp only [List.mem_cons, List.not_mem_nil, or_false] at hk
    rcases hk with h | h <;> subst h <;> exact ⟨rfl, by simp [kA, kB, Key.text]⟩,
   fun a _ b _ h => by rwa [labEnv_sha, labEnv_sha] at h⟩

/-- C53 is false of the code: both calls return position 0 and the first key is lost -/
theorem C53_full_false : ¬ C53_full := by
  intro h
  have hr := lostRun_eq
  simp only [lostRun, Prod.mk.injEq] at hr
  obtain ⟨h1, h2⟩ := hr
  obtain ⟨l, e, hl⟩ := h labEnv newIx (labNames (by simp [newIx, ixName])) newStore newStore_wf [] newIx_rep 0 newIx_clean
    (by decide) [kA, kB] demoKeysOK (by decide) 5 (by decide) lostSched (by
      intro p hp
      have : outcome p ∈ ([some 0, some 0] : List (Option Nat)) := by rw [← h1]; exact List.mem_map.2 ⟨p, hp, rfl⟩
      cases p with
      | ret a => exact ⟨a, rfl⟩
      | _ => simp [outcome] at this)
  rw [e] at h2
  injection h2 with h2
  have := hl "a".toList (by simp [kA, Key.text])
  rw [h2] at this
  simp at this

/-- client 1 goes through its doorway while client 0 is inside, and waits; the operations of the two alternate -/
def fairSched : List Nat := List.replicate 6 0 ++ List.replicate 6 1 ++ (List.replicate 20 [0, 1]).flatten ++ List.replicate 20 1

def fairRun : Bool × List (Option Nat) :=
  (quietRunB labEnv ixName fairSched (adders labEnv 30 newIx [kA, kB]) newStore,
   (interleave labEnv fairSched (adders labEnv 30 newIx [kA, kB]) newStore).1.map outcome)

theorem fairRun_eq : fairRun = (true, [some 0, some 1]) := by decide +kernel

/-- the schedule of the counterexample disturbs a doorway -/
theorem lostSched_not_quiet : quietRunB labEnv ixName lostSched (adders labEnv 5 newIx [kA, kB]) newStore = false := by
  decide +kernel

example : ∃ l, (indexUpdate labEnv newIx).run labEnv (interleave labEnv fairSched (adders labEnv 30 newIx [kA, kB]) newStore).2 =
      (.ok l, (interleave labEnv fairSched (adders labEnv 30 newIx [kA, kB]) newStore).2) ∧ l.Nodup ∧ [] <+: l ∧
    ∀ k, k ∈ l ↔ k ∈ ([] : List Str) ++ [kA, kB].map Key.text := by
  have hr := fairRun_eq
  simp only [fairRun, Prod.mk.injEq] at hr
  refine C53_adds_partial labEnv newIx (labNames (by simp [newIx, ixName])) newStore newStore_wf [] newIx_rep 0 newIx_clean
    (by decide) [kA, kB] demoKeysOK (by decide) 30 (by decide) fairSched (quietRun_of_B _ hr.1) ?_
  intro p hp
  have : outcome p ∈ ([some 0, some 1] : List (Option Nat)) := by rw [← hr.2]; exact List.mem_map.2 ⟨p, hp, rfl⟩
  cases p with
  | ret a => exact ⟨a, rfl⟩
  | _ => simp [outcome] at this

end Verif.Props
