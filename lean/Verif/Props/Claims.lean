import Verif.Lemmas.ClaimRun
import Verif.Props.PadOwn
/-!
# C150: claiming the keys of a shared `Notepad`

Processes are scripts (Verif/Model/PadClients.lean) that claim keys with `set(key, value, exists_ok=False)` and give them up
with `del`; their programs are interleaved operation by operation, and the schedule may stop any of them anywhere.
-/
namespace Verif.Props
open Verif Verif.Model Verif.Lemmas Verif.Spec

variable {V ρ : Type}

/-- C150, in full: however the processes are interleaved, their claims are as if made one after the other (`Claimed`,
Verif/Lemmas/ClaimRun.lean), and when all have returned the notepad lists the keys that are taken -/
def C150_full : Prop :=
  ∀ (V ρ : Type) (E : Env) (c : Codec V) (_ : CodecOK c) (isNone : V → Bool) (p : Pad) (ix : Index) (fuel : Nat)
    (_ : p.index = .tag ix) (_ : p.mode = .sliding fuel) (_ : fuel + 256 ^ 5 < 256 ^ 8) (_ : NamesOK E ix.name)
    (_ : ix.name = indexName p.pre) (U : List Str) (_ : PlayOK E p.pre U) (s : Store) (_ : s.WF) (keys0 : List Str)
    (_ : IxRep E s ix keys0) (_ : keys0 ⊆ U) (_ : ∀ k ∈ U, k ∉ keys0 → s.names (padAddr p.pre k) = none) (fl : Nat)
    (_ : LockClean s ix.name fl) (_ : fl < 256 ^ 5) (scripts : List (PadScript V ρ))
    (_ : ∀ sc ∈ scripts, sc.Plays (ClaimKeyOK E U) (fun v => ∃ b, c.encode v = .ok b) fun _ => False) (sched : List Nat),
    ∃ events T, Claimed E c isNone p keys0 U scripts sched s events T ∧
      ((∀ q ∈ (interleave E sched (scripts.map (PadScript.run E c isNone p)) s).1, ∃ a, q = .ret a) →
        ∃ keys, (∀ k, T k = .free ↔ k ∉ keys) ∧
          (padKeys E p).run E (interleave E sched (scripts.map (PadScript.run E c isNone p)) s).2 =
            (.ok (some keys), (interleave E sched (scripts.map (PadScript.run E c isNone p)) s).2))

/-- C150, the part that holds: when no process makes a marker or lock block or uses the count block while another is about
to make its marker or lock block -/
theorem C150_claims_partial (E : Env) (c : Codec V) (hc : CodecOK c) (isNone : V → Bool) (p : Pad) (ix : Index) (fuel : Nat)
    (hp : p.index = .tag ix) (hm : p.mode = .sliding fuel) (hf : fuel + 256 ^ 5 < 256 ^ 8) (hok : NamesOK E ix.name)
    (hix : ix.name = indexName p.pre) (U : List Str) (hU : PlayOK E p.pre U) (s : Store) (w : s.WF) (keys0 : List Str)
    (h : IxRep E s ix keys0) (hk0 : keys0 ⊆ U) (hno : ∀ k ∈ U, k ∉ keys0 → s.names (padAddr p.pre k) = none) (fl : Nat)
    (hcl : LockClean s ix.name fl) (hfl : fl < 256 ^ 5) (scripts : List (PadScript V ρ))
    (hs : ∀ sc ∈ scripts, sc.Plays (ClaimKeyOK E U) (fun v => ∃ b, c.encode v = .ok b) fun _ => False) (sched : List Nat)
    (hq : CodeQuietRun E ix.name sched (scripts.map (PadScript.run E c isNone p)) s) :
    ∃ events T, Claimed E c isNone p keys0 U scripts sched s events T ∧
      ((∀ q ∈ (interleave E sched (scripts.map (PadScript.run E c isNone p)) s).1, ∃ a, q = .ret a) →
        ∃ keys, (∀ k, T k = .free ↔ k ∉ keys) ∧
          (padKeys E p).run E (interleave E sched (scripts.map (PadScript.run E c isNone p)) s).2 =
            (.ok (some keys), (interleave E sched (scripts.map (PadScript.run E c isNone p)) s).2)) := by
  obtain ⟨events, T, h1, h2⟩ := claims hp hm hc hok hU hix w h hcl hfl hk0 hno hf scripts hs sched hq
  refine ⟨events, T, h1, fun hr => ?_⟩
  obtain ⟨keys, h3, h4⟩ := h2 hr
  refine ⟨keys, h3, ?_⟩
  unfold padKeys
  rw [hp]
  simp only
  rw [run_bind, run_indexUpdate h4 hok]
  rfl

/-! ## one claim each -/

/-- the claim succeeded -/
def wonB : Except PyErr (PadOut V) → Bool
  | .ok _ => true
  | .error _ => false

/-- claims the key once, and says whether it has it -/
def claimOnce (k : Key) (v : V) : PadScript V Bool := .call (.set k v false) fun r => .ret (wonB r)

theorem plays_once {ok : Key → Prop} {good : V → Prop} {k : Key} {v : V} (hk : ok k) (hv : good v) :
    (claimOnce k v).Plays ok good fun _ => False := ⟨hk, hv, fun _ => trivial, fun _ => trivial⟩

theorem follows_once {k : Key} {v : V} {calls : List (PadCall V × Except PyErr (PadOut V))} {b : Bool}
    (h : (claimOnce k v).Follows calls b) : ∃ r, calls = [(.set k v false, r)] ∧ b = wonB r := by
  cases calls with
  | nil => exact h.elim
  | cons x t =>
    obtain ⟨o, r⟩ := x
    obtain ⟨h1, h2⟩ := h
    cases t with
    | nil => exact ⟨r, by rw [h1], Eq.symm h2⟩
    | cons => exact h2.elim

/-- when nobody gets a free key, nobody was refused it -/
theorem free_taken {T T' : Str → Holder} {events : List (Nat × Str × Grab)} (h : LegalClaims T events T') {k : Str}
    (hT : T k = .free) (hw : ∀ e ∈ events, e.2 = (k, .lost)) : events = [] := by
  cases events with
  | nil => rfl
  | cons e t =>
    obtain ⟨i, x⟩ := e
    have := hw _ (List.mem_cons_self ..)
    simp only at this
    subst this
    exact absurd hT h.1

/-- C150, for one key that all processes claim once: at most one gets it. When all have returned and there is one, exactly
one has got it, and the key has the value that one set. -/
theorem C150_one_winner_partial (E : Env) (c : Codec V) (hc : CodecOK c) (isNone : V → Bool) (p : Pad) (ix : Index)
    (fuel : Nat) (hp : p.index = .tag ix) (hm : p.mode = .sliding fuel) (hf : fuel + 256 ^ 5 < 256 ^ 8)
    (hok : NamesOK E ix.name) (hix : ix.name = indexName p.pre) (U : List Str) (hU : PlayOK E p.pre U) (s : Store) (w : s.WF)
    (keys0 : List Str) (h : IxRep E s ix keys0) (hk0 : keys0 ⊆ U)
    (hno : ∀ k ∈ U, k ∉ keys0 → s.names (padAddr p.pre k) = none) (fl : Nat) (hcl : LockClean s ix.name fl)
    (hfl : fl < 256 ^ 5) (k : Key) (hk : ClaimKeyOK E U k) (hfree : k.text ∉ keys0) (vs : List V)
    (hv : ∀ v ∈ vs, (∃ b, c.encode v = .ok b) ∧ isNone v = false) (sched : List Nat)
    (hq : CodeQuietRun E ix.name sched ((vs.map (claimOnce k)).map (PadScript.run E c isNone p)) s) :
    (∀ i j : Nat, (interleave E sched ((vs.map (claimOnce k)).map (PadScript.run E c isNone p)) s).1[i]? = some (.ret true) →
      (interleave E sched ((vs.map (claimOnce k)).map (PadScript.run E c isNone p)) s).1[j]? = some (.ret true) → i = j) ∧
    (vs ≠ [] → (∀ q ∈ (interleave E sched ((vs.map (claimOnce k)).map (PadScript.run E c isNone p)) s).1, ∃ a, q = .ret a) →
      ∃ (i : Nat) (v : V), vs[i]? = some v ∧
        (interleave E sched ((vs.map (claimOnce k)).map (PadScript.run E c isNone p)) s).1[i]? = some (.ret true) ∧
        (padGet c isNone p k).run E (interleave E sched ((vs.map (claimOnce k)).map (PadScript.run E c isNone p)) s).2 =
          (.ok v, (interleave E sched ((vs.map (claimOnce k)).map (PadScript.run E c isNone p)) s).2)) := by
  obtain ⟨events, T, hcd, -⟩ := C150_claims_partial (ρ := Bool) E c hc isNone p ix fuel hp hm hf hok hix U hU s w keys0 h hk0 hno fl
    hcl hfl (vs.map (claimOnce k)) (by
      intro sc hsc
      obtain ⟨v, hv', rfl⟩ := List.mem_map.1 hsc
      exact plays_once hk (hv v hv').1) sched hq
  have hlen := interleave_length (E := E) sched ((vs.map (claimOnce k)).map (PadScript.run E c isNone p)) s
  simp only [List.length_map] at hlen
  generalize hrun : interleave E sched ((vs.map (claimOnce k)).map (PadScript.run E c isNone p)) s = out at *
  have at_i : ∀ (i : Nat) b, out.1[i]? = some (.ret b) → ∃ v, vs[i]? = some v := by
    intro i b hi
    have : i < vs.length := by rw [← hlen]; exact (List.getElem?_eq_some_iff.1 hi).1
    exact ⟨_, List.getElem?_eq_getElem this⟩
  -- how one of them ends
  have one : ∀ (i : Nat) b v, out.1[i]? = some (.ret b) → vs[i]? = some v →
      (b = true ∧ T k.text = .by i ∧ ∃ e, c.encode v = .ok e ∧ out.2.content (padAddr p.pre k.text) = some e) ∨
      (b = false ∧ grabsOf i events = [(k.text, .lost)]) := by
    intro i b v hi hvi
    obtain ⟨calls, st, h1, h2, h3, h4, h5⟩ := hcd.own i (claimOnce k v) b (by simp [hvi]) (by rw [hrun]; exact hi)
    rw [hrun] at h5
    obtain ⟨r, rfl, rfl⟩ := follows_once h1
    obtain ⟨st1, h6, rfl⟩ := h2
    rcases h6 with ⟨rfl, _, rfl⟩ | ⟨rfl, rfl⟩
    · refine Or.inl ⟨rfl, (h4 _).1 (by simp [ownPut]), ?_⟩
      exact h5 k.text v (by simp [ownPut])
    · exact Or.inr ⟨rfl, h3.symm⟩
  constructor
  · intro i j hi hj
    obtain ⟨vi, hvi⟩ := at_i i _ hi
    obtain ⟨vj, hvj⟩ := at_i j _ hj
    rcases one i _ vi hi hvi with ⟨_, t1, _⟩ | ⟨e, _⟩
    · rcases one j _ vj hj hvj with ⟨_, t2, _⟩ | ⟨e, _⟩
      · rw [t1] at t2; injection t2
      · cases e
    · cases e
  · intro hne hret
    by_cases hex : ∃ i : Nat, out.1[i]? = some (.ret true)
    · obtain ⟨i, hi⟩ := hex
      obtain ⟨v, hvi⟩ := at_i i _ hi
      rcases one i _ v hi hvi with ⟨_, _, e, h1, h2⟩ | ⟨e, _⟩
      · refine ⟨i, v, hvi, hi, ?_⟩
        rw [run_padGet (hU.ok _ hk.mem), h2]
        simp only [readAs, (hc v e h1).2, (hv v (List.mem_of_getElem? hvi)).2, Bool.false_eq_true, if_false]
      · cases e
    · exfalso
      have all : ∀ i v, vs[i]? = some v → grabsOf i events = [(k.text, .lost)] := by
        intro i v hvi
        have hi : i < out.1.length := by rw [hlen]; exact (List.getElem?_eq_some_iff.1 hvi).1
        obtain ⟨b, hb⟩ := hret _ (List.getElem_mem hi)
        have hb' : out.1[i]? = some (.ret b) := by rw [List.getElem?_eq_getElem hi, hb]
        rcases one i b v hb' hvi with ⟨rfl, _⟩ | ⟨_, h2⟩
        · exact absurd ⟨i, hb'⟩ hex
        · exact h2
      have hev : events = [] := by
        refine free_taken (k := k.text) hcd.legal (by simp [atFirst, hfree]) fun e he => ?_
        have hlt := hcd.clients e he
        simp only [List.length_map] at hlt
        have h1 := all e.1 _ (List.getElem?_eq_getElem hlt)
        have h2 : e.2 ∈ grabsOf e.1 events := List.mem_map.2 ⟨e, List.mem_filter.2 ⟨he, by simp⟩, rfl⟩
        rw [h1] at h2
        simpa using h2
      cases vs with
      | nil => exact hne rfl
      | cons v t =>
        have := all 0 v rfl
        rw [hev] at this
        simp [grabsOf] at this

/-! ## a notepad just created -/

def freshStore : Store := Store.empty.created (indexName np) 8
def freshIx : Index := ⟨indexName np, 0⟩
def freshPad (m : LockMode) : Pad := ⟨np, .tag freshIx, m⟩

theorem fresh_none {x : Str} (h : x ≠ indexName np) : freshStore.names x = none := by
  show (if x = indexName np then some 0 else none) = none
  rw [if_neg h]

theorem fresh_rep : IxRep labEnv freshStore freshIx [] := by
  refine ⟨rfl, rfl, by decide, by simp, by simp, ?_, by simp, ?_⟩
  · exact fun i _ => content_none.2 (fresh_none (key_ne_mem _ _))
  · exact fun hh _ => content_none.2 (fresh_none (hash_ne_mem _ _))

theorem fresh_wf : freshStore.WF := wf_created wf_empty _ _

theorem fresh_clean : LockClean freshStore freshIx.name 0 := by
  have : ∀ sl : Slot, sl ≠ .mem → freshStore.content (sl.addr (indexName np)) = none := fun sl hsl =>
    content_none.2 (fresh_none fun e => hsl (addr_injective (e.trans (addr_mem _))))
  exact ⟨Or.inl ⟨this .count (by simp), rfl⟩, fun n => this (.marker n) (by simp), fun n => this (.lock n) (by simp)⟩

def freshU : List Str := [kA.text, kB.text]

theorem fresh_play : PlayOK labEnv np freshU := by
  have hk : ∀ k ∈ freshU, labKeys k := by
    intro k hk
    simp only [freshU, List.mem_cons, List.not_mem_nil, or_false] at hk
    rcases hk with rfl | rfl
    · exact (labKey_lab kA (by simp)).2
    · exact (labKey_lab kB (by simp)).2
  exact ⟨⟨fun a ha b hb => demoKeysOK.inj a ha b hb, by decide⟩, fun k h => (hk k h).1, fun k h => (hk k h).2,
    fun k h => (labKeysOK np).ok k (hk k h)⟩

theorem fresh_blocks : ∀ k ∈ freshU, k ∉ ([] : List Str) → freshStore.names (padAddr np k) = none := by
  intro k hk _
  refine fresh_none fun e => slot_ne_pad (pre := np) (fresh_play.free k hk) .mem ?_
  exact (addr_mem _).symm.trans e.symm

theorem claimKey_ok : ∀ k ∈ [kA, kB], ClaimKeyOK labEnv freshU k := by
  intro k hk
  simp only [List.mem_cons, List.not_mem_nil, or_false] at hk
  rcases hk with rfl | rfl
  · exact ⟨rfl, by simp [freshU]⟩
  · exact ⟨rfl, by simp [freshU]⟩

/-- claims "a"; having it, replaces its value, reads it and gives it up -/
def claimA : PadScript Nat (List (Option Nat)) :=
  .call (.set kA 5 false) fun r => match r with
    | .ok _ => .call (.set kA 7 true) fun _ => .call (.get kA) fun r1 => .call (.del kA) fun _ => .ret [some 5, valOf r1]
    | .error _ => .ret [none]

/-- claims "a" and, if it is refused, "b", and reads what it has -/
def claimB : PadScript Nat (List (Option Nat)) :=
  .call (.set kA 4 false) fun r => match r with
    | .ok _ => .call (.get kA) fun r1 => .ret [some 4, valOf r1]
    | .error _ => .call (.set kB 6 false) fun r => match r with
      | .ok _ => .call (.get kB) fun r1 => .ret [none, valOf r1]
      | .error _ => .ret [none, none]

def claimPs : List (Prog (List (Option Nat))) :=
  [claimA, claimB].map (PadScript.run labEnv ownCodec (fun _ => false) (freshPad (.sliding 60)))
def claimSched : List Nat := busySched labEnv (indexName np) 400 1 claimPs freshStore

theorem claim_ran : (quietRunB labEnv (indexName np) claimSched claimPs freshStore,
    (interleave labEnv claimSched claimPs freshStore).1.map outcomeL) =
    (true, [some [some 5, some 7], some [none, some 6]]) := by decide +kernel

/-- the processes take turns -/
theorem claim_turns : claimSched.take 20 = [0, 1, 0, 1, 0, 0, 1, 0, 1, 0, 1, 0, 1, 0, 1, 0, 1, 0, 1, 0] := by decide +kernel

theorem good_own {v : Nat} (h : v ≠ 0) : ∃ b, ownCodec.encode v = .ok b := ⟨_, if_neg h⟩

theorem claimPs_play : ∀ sc ∈ [claimA, claimB],
    sc.Plays (ClaimKeyOK labEnv freshU) (fun v => ∃ b, ownCodec.encode v = .ok b) fun _ => False := by
  have hA := claimKey_ok kA (by simp)
  have hB := claimKey_ok kB (by simp)
  intro sc hsc
  simp only [List.mem_cons, List.not_mem_nil, or_false] at hsc
  rcases hsc with rfl | rfl
  · exact ⟨hA, good_own (by omega), fun _ => ⟨hA, Or.inl rfl, good_own (by omega), fun _ _ => ⟨hA, Or.inl rfl, fun _ => trivial⟩⟩,
      fun _ => trivial⟩
  · exact ⟨hA, good_own (by omega), fun _ _ => trivial, fun _ => ⟨hB, good_own (by omega), fun _ _ => trivial, fun _ => trivial⟩⟩

example : ∃ events T, Claimed labEnv ownCodec (fun _ => false) (freshPad (.sliding 60)) [] freshU [claimA, claimB] claimSched
      freshStore events T ∧
    ((∀ q ∈ (interleave labEnv claimSched claimPs freshStore).1, ∃ a, q = .ret a) → ∃ keys, (∀ k, T k = .free ↔ k ∉ keys) ∧
      (padKeys labEnv (freshPad (.sliding 60))).run labEnv (interleave labEnv claimSched claimPs freshStore).2 =
        (.ok (some keys), (interleave labEnv claimSched claimPs freshStore).2)) := by
  have hr := claim_ran
  simp only [Prod.mk.injEq] at hr
  exact C150_claims_partial labEnv ownCodec ownCodecOK (fun _ => false) (freshPad (.sliding 60)) freshIx 60 rfl rfl (by decide)
    (labIndexOK np) rfl freshU fresh_play freshStore fresh_wf [] fresh_rep (by simp) fresh_blocks 0 fresh_clean (by decide)
    [claimA, claimB] claimPs_play claimSched (quietRun_of_B _ hr.1)

/-! ## two processes claim "a" -/

def twoClaims (m : LockMode) : List (Prog Bool) :=
  ([4, 5].map (claimOnce kA)).map (PadScript.run labEnv ownCodec (fun _ => false) (freshPad m))

def raceSched : List Nat := busySched labEnv (indexName np) 400 1 (twoClaims (.sliding 60)) freshStore

theorem race_ran : (quietRunB labEnv (indexName np) raceSched (twoClaims (.sliding 60)) freshStore,
    (interleave labEnv raceSched (twoClaims (.sliding 60)) freshStore).1.map outcomeL) = (true, [some true, some false]) := by
  decide +kernel

example : ∃ (i v : Nat), [4, 5][i]? = some v ∧
    (interleave labEnv raceSched (twoClaims (.sliding 60)) freshStore).1[i]? = some (.ret true) ∧
    (padGet ownCodec (fun _ => false) (freshPad (.sliding 60)) kA).run labEnv
        (interleave labEnv raceSched (twoClaims (.sliding 60)) freshStore).2 =
      (.ok v, (interleave labEnv raceSched (twoClaims (.sliding 60)) freshStore).2) := by
  have hr := race_ran
  simp only [Prod.mk.injEq] at hr
  refine (C150_one_winner_partial labEnv ownCodec ownCodecOK (fun _ => false) (freshPad (.sliding 60)) freshIx 60 rfl rfl
    (by decide) (labIndexOK np) rfl freshU fresh_play freshStore fresh_wf [] fresh_rep (by simp) fresh_blocks 0 fresh_clean
    (by decide) kA (claimKey_ok kA (by simp)) (by simp) [4, 5] ?_ raceSched (quietRun_of_B _ hr.1)).2 (by simp) ?_
  · intro v hv
    simp only [List.mem_cons, List.not_mem_nil, or_false] at hv
    exact ⟨good_own (by omega), rfl⟩
  · intro q hq
    have : outcomeL q ∈ [some true, some false] := by rw [← hr.2]; exact List.mem_map.2 ⟨q, hq, rfl⟩
    cases q with
    | ret a => exact ⟨a, rfl⟩
    | _ => simp [outcomeL] at this

/-- process 0 makes marker 1; process 1 goes through its doorway with slot 2, enters and finds no "a"; process 0 makes lock
block 1, enters, finds no "a" either; both list it, find that it has no value yet, and set one -/
def bothSched : List Nat := [0, 0, 0] ++ List.replicate 10 1 ++ List.replicate 13 0 ++ List.replicate 14 1 ++
  [0, 1, 0, 1, 0, 1, 0, 1] ++ List.replicate 40 0 ++ List.replicate 40 1

/-- both processes are told that they have the key -/
theorem C150_both_win : (interleave labEnv bothSched (twoClaims (.sliding 5)) freshStore).1.map outcomeL =
    [some true, some true] := by decide +kernel

/-- C150 is false of the code: two processes are both told that they have got the same key -/
theorem C150_full_false : ¬ C150_full := by
  intro hC
  have hA := claimKey_ok kA (by simp)
  obtain ⟨events, T, hcd, -⟩ := hC Nat Bool labEnv ownCodec ownCodecOK (fun _ => false) (freshPad (.sliding 5)) freshIx 5 rfl rfl
    (by decide) (labIndexOK np) rfl freshU fresh_play freshStore fresh_wf [] fresh_rep (by simp) fresh_blocks 0 fresh_clean
    (by decide) ([4, 5].map (claimOnce kA)) (by
      intro sc hsc
      simp only [List.map_cons, List.map_nil, List.mem_cons, List.not_mem_nil, or_false] at hsc
      rcases hsc with rfl | rfl
      · exact plays_once hA (good_own (by omega))
      · exact plays_once hA (good_own (by omega))) bothSched
  have key : ∀ (i v : Nat), ([4, 5] : List Nat)[i]? = some v →
      (interleave labEnv bothSched (twoClaims (.sliding 5)) freshStore).1[i]? = some (.ret true) → T kA.text = .by i := by
    intro i v hv hi
    obtain ⟨calls, st, h1, h2, _, h4, _⟩ := hcd.own i (claimOnce kA v) true (by rw [List.getElem?_map, hv]; rfl) hi
    obtain ⟨r, rfl, hr⟩ := follows_once h1
    obtain ⟨st1, h6, rfl⟩ := h2
    rcases h6 with ⟨rfl, _, rfl⟩ | ⟨rfl, rfl⟩
    · exact (h4 _).1 (by simp [ownPut])
    · cases hr
  have hout := C150_both_win
  have at_i : ∀ i, i < 2 → (interleave labEnv bothSched (twoClaims (.sliding 5)) freshStore).1[i]? = some (.ret true) := by
    intro i hi
    have : ((interleave labEnv bothSched (twoClaims (.sliding 5)) freshStore).1.map outcomeL)[i]? = some (some true) := by
      rw [hout]
      rcases i with _ | _ | i
      · rfl
      · rfl
      · omega
    rw [List.getElem?_map] at this
    cases hp : (interleave labEnv bothSched (twoClaims (.sliding 5)) freshStore).1[i]? with
    | none => rw [hp] at this; simp at this
    | some q =>
      rw [hp] at this
      cases q with
      | ret a => simp only [Option.map_some, Option.some.injEq, outcomeL] at this; rw [this]
      | _ => simp [outcomeL] at this
  have h0 := key 0 4 rfl (at_i 0 (by omega))
  have h1 := key 1 5 rfl (at_i 1 (by omega))
  rw [h0] at h1
  cases h1

/-- the schedule of the counterexample disturbs a doorway -/
theorem bothSched_not_quiet : quietRunB labEnv (indexName np) bothSched (twoClaims (.sliding 5)) freshStore = false := by
  decide +kernel

/-- with `no_lockout=True`: process 1 sees no "a"; process 0 lists it and sees no value; process 1 sets one; process 0 replaces
it. Both are told that they have the key. -/
theorem C150_no_lockout : (interleave labEnv ([0, 1] ++ List.replicate 7 0 ++ List.replicate 40 1 ++ List.replicate 40 0)
    (twoClaims .fake) freshStore).1.map outcomeL = [some true, some true] := by decide +kernel

end Verif.Props
