import Verif.Lemmas.Counter
import Verif.Props.Claims
/-!
# C151: a key of a shared `Notepad` as a mutex

Processes claim a key with `set(key, value, exists_ok=False)`, and while they have it `get` and `set` the values of the keys
that it guards; they give it up with `del`. Their programs are interleaved operation by operation.
-/
namespace Verif.Props
open Verif Verif.Model Verif.Lemmas Verif.Spec

variable {V ρ : Type}

/-- C151, in full: however the processes are interleaved, their claims and their uses of the guarded keys are as if made one
after the other (`Sectioned`, Verif/Lemmas/SectRun.lean), and when all have returned the notepad lists the keys that are taken -/
def C151_full : Prop :=
  ∀ (V ρ : Type) (E : Env) (c : Codec V) (_ : CodecOK c) (isNone : V → Bool) (p : Pad) (ix : Index) (fuel : Nat)
    (_ : p.index = .tag ix) (_ : p.mode = .sliding fuel) (_ : fuel + 256 ^ 5 < 256 ^ 8) (_ : NamesOK E ix.name)
    (_ : ix.name = indexName p.pre) (U : List Str) (_ : PlayOK E p.pre U) (s : Store) (_ : s.WF) (keys0 : List Str)
    (_ : IxRep E s ix keys0) (_ : keys0 ⊆ U) (_ : ∀ k ∈ U, k ∉ keys0 → s.names (padAddr p.pre k) = none) (fl : Nat)
    (_ : LockClean s ix.name fl) (_ : fl < 256 ^ 5) (guard : Str → Option Str) (R : Str → Option V)
    (_ : ∀ k m, guard k = some m → k ∈ keys0)
    (_ : ∀ k m, guard k = some m → ∃ v b, R k = some v ∧ c.encode v = .ok b ∧ s.content (padAddr p.pre k) = some b)
    (scripts : List (PadScript V ρ))
    (_ : ∀ sc ∈ scripts, sc.PlaysBy guard (ClaimKeyOK E U) (fun v => ∃ b, c.encode v = .ok b) fun _ => False)
    (sched : List Nat),
    ∃ events T R', Sectioned E c isNone p keys0 U guard R scripts sched s events T R' ∧
      ((∀ q ∈ (interleave E sched (scripts.map (PadScript.run E c isNone p)) s).1, ∃ a, q = .ret a) →
        ∃ keys, (∀ k, T k = .free ↔ k ∉ keys) ∧
          (padKeys E p).run E (interleave E sched (scripts.map (PadScript.run E c isNone p)) s).2 =
            (.ok (some keys), (interleave E sched (scripts.map (PadScript.run E c isNone p)) s).2))

/-- C151, the part that holds: when no process makes a marker or lock block or uses the count block while another is about
to make its marker or lock block -/
theorem C151_sections_partial (E : Env) (c : Codec V) (hc : CodecOK c) (isNone : V → Bool) (p : Pad) (ix : Index) (fuel : Nat)
    (hp : p.index = .tag ix) (hm : p.mode = .sliding fuel) (hf : fuel + 256 ^ 5 < 256 ^ 8) (hok : NamesOK E ix.name)
    (hix : ix.name = indexName p.pre) (U : List Str) (hU : PlayOK E p.pre U) (s : Store) (w : s.WF) (keys0 : List Str)
    (h : IxRep E s ix keys0) (hk0 : keys0 ⊆ U) (hno : ∀ k ∈ U, k ∉ keys0 → s.names (padAddr p.pre k) = none) (fl : Nat)
    (hcl : LockClean s ix.name fl) (hfl : fl < 256 ^ 5) (guard : Str → Option Str) (R : Str → Option V)
    (hg : ∀ k m, guard k = some m → k ∈ keys0)
    (hR : ∀ k m, guard k = some m → ∃ v b, R k = some v ∧ c.encode v = .ok b ∧ s.content (padAddr p.pre k) = some b)
    (scripts : List (PadScript V ρ))
    (hs : ∀ sc ∈ scripts, sc.PlaysBy guard (ClaimKeyOK E U) (fun v => ∃ b, c.encode v = .ok b) fun _ => False)
    (sched : List Nat) (hq : CodeQuietRun E ix.name sched (scripts.map (PadScript.run E c isNone p)) s) :
    ∃ events T R', Sectioned E c isNone p keys0 U guard R scripts sched s events T R' ∧
      ((∀ q ∈ (interleave E sched (scripts.map (PadScript.run E c isNone p)) s).1, ∃ a, q = .ret a) →
        ∃ keys, (∀ k, T k = .free ↔ k ∉ keys) ∧
          (padKeys E p).run E (interleave E sched (scripts.map (PadScript.run E c isNone p)) s).2 =
            (.ok (some keys), (interleave E sched (scripts.map (PadScript.run E c isNone p)) s).2)) := by
  obtain ⟨events, T, R', h1, h2⟩ := sections hp hm hc hok hU hix w h hcl hfl hk0 hno hg hR hf scripts hs sched hq
  refine ⟨events, T, R', h1, fun hr => ?_⟩
  obtain ⟨keys, h3, h4⟩ := h2 hr
  refine ⟨keys, h3, ?_⟩
  unfold padKeys
  rw [hp]
  simp only
  rw [run_bind, run_indexUpdate h4 hok]
  rfl

/-! ## a counter -/

theorem sum_trues (rs : List Bool) :
    ((List.range rs.length).map fun i => if rs[i]? = some true then 1 else 0).sum = rs.count true := by
  induction rs with
  | nil => rfl
  | cons b t ih =>
    rw [List.length_cons, List.range_succ_eq_map, List.map_cons, List.sum_cons, List.map_map, List.count_cons, ← ih]
    cases b <;> simp [Function.comp_def, Nat.add_comm]

/-- the key that guards the counter -/
def lockOf (lock count : Key) : Str → Option Str := fun k => if k = count.text then some lock.text else none

/-- what `Sectioned` says about a counter -/
theorem counter_of_sectioned {E : Env} {c : Codec V} (hc : CodecOK c) {isNone : V → Bool} {p : Pad} {U : List Str}
    (hU : PlayOK E p.pre U) {s : Store} {keys0 : List Str} {lock count : Key} (hcn : ClaimKeyOK E U count)
    (hfree : lock.text ∉ keys0) (hne : count.text ≠ lock.text) {v0 : V} (hn0 : isNone v0 = false) {next : V → V}
    (hnext : ∀ v, isNone (next v) = false) {tries : List (V × Nat)} {sched : List Nat}
    {events : List (Nat × Str × Sect V)} {T : Str → Holder} {R' : Str → Option V}
    (hsec : Sectioned E c isNone p keys0 U (lockOf lock count) (fun k => if k = count.text then some v0 else none)
      (tries.map fun j => bump lock count j.1 next j.2) sched s events T R') {rs : List Bool}
    (hret : (interleave E sched ((tries.map fun j => bump lock count j.1 next j.2).map (PadScript.run E c isNone p)) s).1 =
      rs.map .ret) :
    (padGet c isNone p count).run E
        (interleave E sched ((tries.map fun j => bump lock count j.1 next j.2).map (PadScript.run E c isNone p)) s).2 =
      (.ok (next^[rs.count true] v0),
        (interleave E sched ((tries.map fun j => bump lock count j.1 next j.2).map (PadScript.run E c isNone p)) s).2) := by
  have hg : lockOf lock count count.text = some lock.text := if_pos rfl
  have hlen := interleave_length (E := E) sched
    ((tries.map fun j => bump lock count j.1 next j.2).map (PadScript.run E c isNone p)) s
  have hown := hsec.own
  have hclients := hsec.clients
  have hleft := hsec.left
  simp only [List.length_map] at hlen hclients
  generalize interleave E sched ((tries.map fun j => bump lock count j.1 next j.2).map (PadScript.run E c isNone p)) s = out at *
  rw [hret, List.length_map] at hlen
  -- each of them
  have each : ∀ i, i < rs.length →
      Bumps lock.text count.text next isNone (decide (rs[i]? = some true)) (sectsOf i events) := by
    intro i hi
    obtain ⟨calls, st, h1, h2, -⟩ := hown i (bump lock count (tries[i]'(by omega)).1 next (tries[i]'(by omega)).2) rs[i]
      (by rw [List.getElem?_map, List.getElem?_eq_getElem (by omega)]; rfl)
      (by rw [hret, List.getElem?_map, List.getElem?_eq_getElem hi]; rfl)
    have := bump_bumps (nil := isNone) hg hne _ h1 h2
    have e : decide (rs[i]? = some true) = rs[i] := by
      rw [List.getElem?_eq_getElem hi]; cases rs[i] <;> simp
    rw [e]; exact this
  have all : ∀ i, BumpIdle lock.text count.text next isNone (decide (rs[i]? = some true)) (sectsOf i events) := by
    intro i
    by_cases hi : i < rs.length
    · exact Or.inl (each i hi)
    · refine Or.inr ?_
      unfold sectsOf
      rw [List.map_eq_nil_iff, List.filter_eq_nil_iff]
      intro e he
      have := hclients e he
      simp only [beq_iff_eq]
      omega
  obtain ⟨k1, k2, k3⟩ := counted (nil := isNone) hg hnext (fun i => decide (rs[i]? = some true)) hsec.legal
    (Or.inl ⟨by simp [atFirst, hfree], ⟨v0, if_pos rfl, hn0⟩, all⟩)
  have hputs : (events.countP fun e => isPut e.2.2) = rs.count true := by
    rw [countP_sects isPut rs.length events fun e he => by rw [hlen]; exact hclients e he, ← sum_trues]
    congr 1
    refine List.map_congr_left fun i hi => ?_
    rw [bumps_puts (each i (List.mem_range.1 hi)) ?_]
    · simp
    · intro e he sees hs
      obtain ⟨e', he', rfl⟩ := List.mem_map.1 he
      exact k3 e' (List.mem_filter.1 he').1 sees hs
  rw [hputs, if_pos rfl] at k1
  obtain ⟨v, b, e1, e2, e3⟩ := hleft count.text lock.text hg (by rw [k2]; intro i; simp)
  rw [k1] at e1
  injection e1 with e1
  have hnv : isNone v = false := by
    rw [← e1]
    cases rs.count true with
    | zero => exact hn0
    | succ n => rw [Function.iterate_succ_apply']; exact hnext _
  rw [run_padGet (hU.ok _ hcn.mem), e3]
  simp only [readAs, (hc v b e2).2, hnv, Bool.false_eq_true, if_false, e1]

/-- C151, for a counter: processes claim `lock` (each trying some number of times) and, having it, read `count`, set the next
value and give `lock` up. When all have returned, `count` has been increased once for each that says it has increased it. -/
theorem C151_counter_partial (E : Env) (c : Codec V) (hc : CodecOK c) (isNone : V → Bool) (p : Pad) (ix : Index) (fuel : Nat)
    (hp : p.index = .tag ix) (hm : p.mode = .sliding fuel) (hf : fuel + 256 ^ 5 < 256 ^ 8) (hok : NamesOK E ix.name)
    (hix : ix.name = indexName p.pre) (U : List Str) (hU : PlayOK E p.pre U) (s : Store) (w : s.WF) (keys0 : List Str)
    (h : IxRep E s ix keys0) (hk0 : keys0 ⊆ U) (hno : ∀ k ∈ U, k ∉ keys0 → s.names (padAddr p.pre k) = none) (fl : Nat)
    (hcl : LockClean s ix.name fl) (hfl : fl < 256 ^ 5) (lock count : Key) (hl : ClaimKeyOK E U lock)
    (hcn : ClaimKeyOK E U count) (hfree : lock.text ∉ keys0) (hcount : count.text ∈ keys0) (v0 : V) (b0 : Bytes)
    (hv0 : c.encode v0 = .ok b0) (hn0 : isNone v0 = false) (hs0 : s.content (padAddr p.pre count.text) = some b0)
    (next : V → V) (hnext : ∀ v, (∃ b, c.encode (next v) = .ok b) ∧ isNone (next v) = false) (tries : List (V × Nat))
    (ht : ∀ j ∈ tries, ∃ b, c.encode j.1 = .ok b) (sched : List Nat)
    (hq : CodeQuietRun E ix.name sched
      ((tries.map fun j => bump lock count j.1 next j.2).map (PadScript.run E c isNone p)) s) (rs : List Bool)
    (hret : (interleave E sched ((tries.map fun j => bump lock count j.1 next j.2).map (PadScript.run E c isNone p)) s).1 =
      rs.map .ret) :
    (padGet c isNone p count).run E
        (interleave E sched ((tries.map fun j => bump lock count j.1 next j.2).map (PadScript.run E c isNone p)) s).2 =
      (.ok (next^[rs.count true] v0),
        (interleave E sched ((tries.map fun j => bump lock count j.1 next j.2).map (PadScript.run E c isNone p)) s).2) := by
  have hne : count.text ≠ lock.text := fun e => hfree (e ▸ hcount)
  have hg : lockOf lock count count.text = some lock.text := if_pos rfl
  have hg' : ∀ k m, lockOf lock count k = some m → k = count.text := by
    intro k m hk
    unfold lockOf at hk
    by_contra hn
    rw [if_neg hn] at hk
    cases hk
  obtain ⟨events, T, R', hsec, -⟩ := C151_sections_partial (ρ := Bool) E c hc isNone p ix fuel hp hm hf hok hix U hU s w keys0
    h hk0 hno fl hcl hfl (lockOf lock count) (fun k => if k = count.text then some v0 else none)
    (fun k m hk => by rw [hg' k m hk]; exact hcount)
    (fun k m hk => by rw [hg' k m hk]; exact ⟨v0, b0, if_pos rfl, hv0, hs0⟩)
    (tries.map fun j => bump lock count j.1 next j.2) (by
      intro sc hsc
      obtain ⟨j, hj, rfl⟩ := List.mem_map.1 hsc
      exact bump_plays (good := fun v => ∃ b, c.encode v = .ok b) hl hcn (ht j hj) (fun v => (hnext v).1) hg j.2) sched hq
  exact counter_of_sectioned hc hU hcn hfree hne hn0 (fun v => (hnext v).2) hsec hret

/-! ## a notepad just created, in which "b" has been set to 1 -/

def bumpStore : Store := ((padSet labEnv ownCodec (freshPad .fake) kB 1 true).run labEnv freshStore).2

theorem fresh_pad : PadRep labEnv ownCodec (fun _ => false) np labKeys freshStore freshIx (fun _ => none) [] 0 := by
  refine ⟨rfl, fresh_rep, fresh_clean, by simp, by simp, fun k hk _ => content_none.2 (fresh_none fun e => ?_), by simp⟩
  exact slot_ne_pad (pre := np) hk .mem ((addr_mem _).symm.trans e.symm)

theorem bump_rep : ∃ fl, fl < 256 ^ 5 ∧ bumpStore.WF ∧ PadRep labEnv ownCodec (fun _ => false) np labKeys bumpStore freshIx
    (upd (fun _ => none) kB.text (some 1)) [kB.text] fl := by
  obtain ⟨s', keys, fl, h1, h2, h3, h4, _⟩ := run_padSet (labKeysOK np) (labIndexOK np) fresh_wf fresh_pad (by decide)
    (p := freshPad .fake) rfl rfl trivial (key := kB) rfl (labKey_lab kB (by simp)).2 (v := 1) (b := [1]) ⟨rfl, by simp, rfl, rfl⟩ true
  have e : s' = bumpStore := by unfold bumpStore; rw [h1]
  subst e
  have hk : keys = [kB.text] := by
    refine List.perm_singleton.1 ((List.perm_ext_iff_of_nodup h3.rep.nodup (by simp)).2 fun k => ?_)
    rw [h3.live]
    by_cases hk : k = kB.text
    · simp [hk, upd]
    · simp [hk, upd]
  subst hk
  refine ⟨fl, ?_, h2, by simpa using h3⟩
  have : fl ≤ 2 := by simp only [List.length_singleton, List.length_nil] at h4; omega
  exact lt_of_le_of_lt this (by decide)

theorem bump_content : bumpStore.content (padAddr np kB.text) = some [1] := by decide +kernel

theorem bump_blocks : ∀ k ∈ freshU, k ∉ [kB.text] → bumpStore.names (padAddr np k) = none := by
  obtain ⟨fl, _, _, h⟩ := bump_rep
  intro k hk hn
  exact content_none.1 (h.noval k (fresh_play.free k hk) (by simp only [List.mem_singleton] at hn; simp [upd, hn]))

/-! ## two processes increase "b" while they have "a" -/

def bumpTries : List (Nat × Nat) := [(3, 1), (4, 10)]
def bumpPs (m : LockMode) : List (Prog Bool) :=
  (bumpTries.map fun j => bump kA kB j.1 (· + 1) j.2).map (PadScript.run labEnv ownCodec (fun _ => false) (freshPad m))
def bumpSched : List Nat := busySched labEnv (indexName np) 600 1 (bumpPs (.sliding 60)) bumpStore


theorem bump_ran : (quietRunB labEnv (indexName np) bumpSched (bumpPs (.sliding 60)) bumpStore,
    (interleave labEnv bumpSched (bumpPs (.sliding 60)) bumpStore).1.map outcomeL) = (true, [some true, some true]) := by
  decide +kernel

/-- the processes take turns -/
theorem bump_turns : bumpSched.take 20 = [0, 1, 0, 1, 0, 0, 1, 0, 1, 0, 1, 0, 1, 0, 1, 0, 1, 0, 1, 0] := by decide +kernel

theorem rets_of_outcomes {ρ : Type} {ps : List (Prog ρ)} {rs : List ρ} (h : ps.map outcomeL = rs.map some) :
    ps = rs.map .ret := by
  induction ps generalizing rs with
  | nil => cases rs with
    | nil => rfl
    | cons => simp at h
  | cons q t ih => cases rs with
    | nil => simp at h
    | cons r rs =>
      simp only [List.map_cons, List.cons.injEq] at h
      rw [List.map_cons, ih h.2]
      cases q with
      | ret a => simp only [outcomeL, Option.some.injEq] at h; rw [h.1]
      | _ => simp [outcomeL] at h

theorem good_next (v : Nat) : (∃ b, ownCodec.encode (v + 1) = .ok b) ∧ (fun _ => false : Nat → Bool) (v + 1) = false :=
  ⟨good_own (by omega), rfl⟩

theorem bumpTries_ok : ∀ j ∈ bumpTries, ∃ b, ownCodec.encode j.1 = .ok b := by
  intro j hj
  simp only [bumpTries, List.mem_cons, List.not_mem_nil, or_false] at hj
  rcases hj with rfl | rfl <;> exact good_own (by decide)

theorem bump_guarded : ∀ k m, lockOf kA kB k = some m → k = kB.text := by
  intro k m hk
  unfold lockOf at hk
  by_contra hn
  rw [if_neg hn] at hk
  cases hk

theorem bump_scripts : ∀ sc ∈ bumpTries.map fun j => bump kA kB j.1 (· + 1) j.2,
    sc.PlaysBy (lockOf kA kB) (ClaimKeyOK labEnv freshU) (fun v => ∃ b, ownCodec.encode v = .ok b) fun _ => False := by
  intro sc hsc
  obtain ⟨j, hj, rfl⟩ := List.mem_map.1 hsc
  exact bump_plays (good := fun v => ∃ b, ownCodec.encode v = .ok b) (claimKey_ok kA (by simp)) (claimKey_ok kB (by simp))
    (bumpTries_ok j hj) (fun v => (good_next v).1) (if_pos rfl) j.2

example : ∃ events T R', Sectioned labEnv ownCodec (fun _ => false) (freshPad (.sliding 60)) [kB.text] freshU (lockOf kA kB)
      (fun k => if k = kB.text then some 1 else none) (bumpTries.map fun j => bump kA kB j.1 (· + 1) j.2) bumpSched bumpStore
      events T R' ∧
    ((∀ q ∈ (interleave labEnv bumpSched (bumpPs (.sliding 60)) bumpStore).1, ∃ a, q = .ret a) →
      ∃ keys, (∀ k, T k = .free ↔ k ∉ keys) ∧
        (padKeys labEnv (freshPad (.sliding 60))).run labEnv (interleave labEnv bumpSched (bumpPs (.sliding 60)) bumpStore).2 =
          (.ok (some keys), (interleave labEnv bumpSched (bumpPs (.sliding 60)) bumpStore).2)) := by
  have hr := bump_ran
  simp only [Prod.mk.injEq] at hr
  obtain ⟨fl, hfl, w, h⟩ := bump_rep
  exact C151_sections_partial labEnv ownCodec ownCodecOK (fun _ => false) (freshPad (.sliding 60)) freshIx 60 rfl rfl (by decide)
    (labIndexOK np) rfl freshU fresh_play bumpStore w [kB.text] h.rep (by simp [freshU]) bump_blocks fl h.lock hfl (lockOf kA kB)
    (fun k => if k = kB.text then some 1 else none) (fun k m hk => by simp [bump_guarded k m hk])
    (fun k m hk => by rw [bump_guarded k m hk]; exact ⟨1, [1], if_pos rfl, rfl, bump_content⟩)
    _ bump_scripts bumpSched (quietRun_of_B _ hr.1)

/-- both have increased it -/
example : (padGet ownCodec (fun _ => false) (freshPad (.sliding 60)) kB).run labEnv
      (interleave labEnv bumpSched (bumpPs (.sliding 60)) bumpStore).2 =
    (.ok 3, (interleave labEnv bumpSched (bumpPs (.sliding 60)) bumpStore).2) := by
  have hr := bump_ran
  simp only [Prod.mk.injEq] at hr
  obtain ⟨fl, hfl, w, h⟩ := bump_rep
  exact C151_counter_partial labEnv ownCodec ownCodecOK (fun _ => false) (freshPad (.sliding 60)) freshIx 60 rfl rfl (by decide)
    (labIndexOK np) rfl freshU fresh_play bumpStore w [kB.text] h.rep (by simp [freshU]) bump_blocks fl h.lock hfl kA kB
    (claimKey_ok kA (by simp)) (claimKey_ok kB (by simp)) (by decide) (by simp) 1 [1] rfl rfl bump_content (· + 1) good_next
    bumpTries bumpTries_ok bumpSched (quietRun_of_B _ hr.1) [true, true] (rets_of_outcomes hr.2)

/-- process 0 makes marker 1; process 1 goes through its doorway with slot 2 and enters; process 0 makes lock block 1 and
enters; both get "a", both read 1, both set 2 -/
def lossSched : List Nat := [0, 0, 0] ++ List.replicate 9 1 ++ List.replicate 12 0 ++ List.replicate 10 1 ++
  (List.replicate 60 [0, 1]).flatten

/-- both processes say that they have increased "b"; it has been increased once -/
theorem C151_update_lost :
    (interleave labEnv lossSched (bumpPs (.sliding 5)) bumpStore).1.map outcomeL = [some true, some true] ∧
    (interleave labEnv lossSched (bumpPs (.sliding 5)) bumpStore).2.content (padAddr np kB.text) = some [2, 2] := by
  decide +kernel

/-- the schedule disturbs a doorway -/
theorem lossSched_not_quiet : quietRunB labEnv (indexName np) lossSched (bumpPs (.sliding 5)) bumpStore = false := by
  decide +kernel

/-- C151 is false of the code: two processes both have the mutex, and what one of them sets is lost -/
theorem C151_full_false : ¬ C151_full := by
  intro hC
  obtain ⟨fl, hfl, w, h⟩ := bump_rep
  obtain ⟨events, T, R', hsec, -⟩ := hC Nat Bool labEnv ownCodec ownCodecOK (fun _ => false) (freshPad (.sliding 5)) freshIx 5
    rfl rfl (by decide) (labIndexOK np) rfl freshU fresh_play bumpStore w [kB.text] h.rep (by simp [freshU]) bump_blocks fl
    h.lock hfl (lockOf kA kB) (fun k => if k = kB.text then some 1 else none) (fun k m hk => by simp [bump_guarded k m hk])
    (fun k m hk => by rw [bump_guarded k m hk]; exact ⟨1, [1], if_pos rfl, rfl, bump_content⟩)
    _ bump_scripts lossSched
  obtain ⟨h1, h2⟩ := C151_update_lost
  have := counter_of_sectioned ownCodecOK fresh_play (claimKey_ok kB (by simp)) (by decide) (by decide) rfl
    (fun v => (good_next v).2) hsec (rs := [true, true]) (rets_of_outcomes h1)
  rw [run_padGet (fresh_play.ok _ (claimKey_ok kB (by simp)).mem)] at this
  have h2' : (interleave labEnv lossSched ((bumpTries.map fun j => bump kA kB j.1 (· + 1) j.2).map
    (PadScript.run labEnv ownCodec (fun _ => false) (freshPad (.sliding 5)))) bumpStore).2.content
      (padAddr (freshPad (.sliding 5)).pre kB.text) = some [2, 2] := h2
  rw [h2'] at this
  injection this with this _
  simp [readAs, ownCodec] at this

end Verif.Props
