import Verif.Lemmas.GridClientRun
import Verif.Props.Claims
import Verif.Props.Grid
/-!
# C152: processes that share a `GridPaper`

Processes are scripts (Verif/Model/GridClients.lean) that set, read and list arrays of one GridPaper; their programs are
interleaved operation by operation, and the schedule may stop any of them anywhere. Every key belongs to one process, or to
nobody; a process sets keys of its own only, and may read any.
-/
namespace Verif.Props
open Verif Verif.Model Verif.Lemmas Verif.Spec

variable {ρ : Type}

/-- the GridPaper as a process uses it, whose lock gives up after `fuel` rounds -/
def locked (g : Grid) (fuel : Nat) : Grid := { g with mode := .sliding fuel }

/-- what the calls of all processes amount to. Every process that returned got the answers of a dictionary of arrays that
it has for itself (`GpLegal`, Verif/Spec/GridClients.lean), as far as it read keys of its own or keys that are nobody's. When
all have returned, every key can be read by everybody, and has the array its owner left there; exactly these keys are listed,
each once. -/
def GridShared (E : Env) (c : Codec ArrMeta) (nbytes : Str → List Nat → Nat) (g : Grid) (U : List Str)
    (owner : Str → Option Nat) (m0 : Str → Option (Arr × Nat)) (scripts : List (GpScript ρ)) (out : List (Prog ρ) × Store) : Prop :=
  ∃ sts : Nat → Str → Option (Arr × Nat),
    (∀ (i : Nat) sc r, scripts[i]? = some sc → out.1[i]? = some (.ret r) →
      ∃ calls, sc.Follows calls r ∧ GpLegal arrSize (readable U owner i) m0 calls (sts i)) ∧
    ((∀ q ∈ out.1, ∃ a, q = .ret a) →
      (∀ key : Key, key.hashed E = E.utf8 key.text → key.text ∈ U → (gridGet E c nbytes g key).run E out.2 =
        (match (match owner key.text with | some i => sts i key.text | none => m0 key.text) with
          | some (a, _) => .ok a
          | none => .err .keyError, out.2)) ∧
      ∃ keys, (indexUpdate E g.index).run E out.2 = (.ok keys, out.2) ∧ keys.Nodup ∧ keys ⊆ U ∧
        ∀ k ∈ U, k ∈ keys ↔ (match owner k with | some i => sts i k | none => m0 k) ≠ none)

/-- C152, in full: for a GridPaper in use that holds `m0`, however the processes are interleaved -/
def C152_full : Prop :=
  ∀ (ρ : Type) (E : Env) (c : Codec ArrMeta) (nbytes : Str → List Nat → Nat) (U : List Str) (g : Grid) (fuel : Nat)
    (_ : fuel + 256 ^ 5 < 256 ^ 8) (_ : NamesOK E (indexName g.pre)) (_ : PlayOK E g.pre U) (noLock : Bool) (s : Store)
    (gs : List Grid) (m0 : Str → Option (Arr × Nat)) (_ : GridInUse E c nbytes g.pre (· ∈ U) noLock s gs m0) (_ : g ∈ gs)
    (owner : Str → Option Nat) (scripts : List (GpScript ρ)) (_ : ∀ k i, owner k = some i → i < scripts.length)
    (_ : ∀ (i : Nat) sc, scripts[i]? = some sc → sc.Uses (fun k => k.hashed E = E.utf8 k.text) fun k a =>
      k.hashed E = E.utf8 k.text ∧ k.text ∈ U ∧ owner k.text = some i ∧ ArrOK c nbytes g.pre k.text a)
    (sched : List Nat),
    GridShared E c nbytes g U owner m0 scripts
      (interleave E sched (scripts.map (GpScript.run E c nbytes (locked g fuel))) s)

theorem uses_mono {rd rd' : Key → Prop} {wr wr' : Key → Arr → Prop} (h1 : ∀ k, rd k → rd' k) (h2 : ∀ k a, wr k a → wr' k a)
    (sc : GpScript ρ) (h : sc.Uses rd wr) : sc.Uses rd' wr' := by
  induction sc with
  | ret r => trivial
  | raise e => trivial
  | call o k ih =>
    cases o with
    | get key => exact ⟨h1 _ h.1, fun r => ih r (h.2 r)⟩
    | set key a => exact ⟨h2 _ _ h.1, fun r => ih r (h.2 r)⟩
    | keys => exact fun r => ih r (h r)

theorem keysOK_of_play {E : Env} {pre : Str} {U : List Str} (h : PlayOK E pre U) : Lemmas.KeysOK E pre (· ∈ U) :=
  ⟨h.nonempty, h.free, h.ok, fun a b ha hb => h.univ.inj a ha b hb⟩

/-- C152, the part that holds: when no process makes a marker or lock block or uses the count block while another is about
to make its marker or lock block -/
theorem C152_shared_gridpaper_partial (E : Env) (c : Codec ArrMeta) (nbytes : Str → List Nat → Nat) (U : List Str) (g : Grid)
    (fuel : Nat) (hf : fuel + 256 ^ 5 < 256 ^ 8) (hok : NamesOK E (indexName g.pre)) (hU : PlayOK E g.pre U) (noLock : Bool)
    (s : Store) (gs : List Grid) (m0 : Str → Option (Arr × Nat)) (hin : GridInUse E c nbytes g.pre (· ∈ U) noLock s gs m0)
    (hg : g ∈ gs) (owner : Str → Option Nat) (scripts : List (GpScript ρ))
    (howner : ∀ k i, owner k = some i → i < scripts.length)
    (hs : ∀ (i : Nat) sc, scripts[i]? = some sc → sc.Uses (fun k => k.hashed E = E.utf8 k.text) fun k a =>
      k.hashed E = E.utf8 k.text ∧ k.text ∈ U ∧ owner k.text = some i ∧ ArrOK c nbytes g.pre k.text a)
    (sched : List Nat)
    (hq : CodeQuietRun E (indexName g.pre) sched (scripts.map (GpScript.run E c nbytes (locked g fuel))) s) :
    GridShared E c nbytes g U owner m0 scripts
      (interleave E sched (scripts.map (GpScript.run E c nbytes (locked g fuel))) s) := by
  have hK := keysOK_of_play hU
  obtain ⟨w, ix, keys0, f0, fl, hrep, hfl, hcl⟩ := hin.rep hK hok
  obtain ⟨-, rfl, -, -⟩ := hcl g hg
  have hname := hrep.name
  obtain ⟨sts, h1, h2⟩ := gridClients (g := locked g fuel) (c := c) (nbytes := nbytes) (owner := owner) (m0 := m0) rfl
    (by show NamesOK E g.index.name; rw [hname]; exact hok) hU w hrep (by omega) hf scripts howner
    (fun i sc hi => uses_mono (fun _ h => h) (fun k a h => ⟨h.1, h.2.1, h.2.2.1, h.2.2.2⟩) sc (hs i sc hi)) sched
    (by show CodeQuietRun E g.index.name _ _ _; rw [hname]; exact hq)
  refine ⟨sts, h1, fun hret => ?_⟩
  obtain ⟨keys, f, fl', _, hr⟩ := h2 hret
  have hm : ∀ k ∈ U, gMerge U owner m0 sts k = (match owner k with | some i => sts i k | none => m0 k) := fun k hk => if_pos hk
  refine ⟨fun key hk hkU => ?_, keys, ?_, hr.rep.rep.nodup, hr.used, fun k hk => ?_⟩
  · rw [run_gridGet hK hok hr (g := g) rfl hk hkU, hm _ hkU]
    rfl
  · exact run_indexUpdate hr.rep.rep (by show NamesOK E g.index.name; rw [hname]; exact hok)
  · rw [hr.live k, hm k hk]

/-! ## two processes, two keys -/

def arrOf : Except PyErr GpOut → Option Bytes
  | .ok (.val a) => some a.data
  | _ => none

/-- sets an array, and reads it -/
def putThenGet (k : Key) (a : Arr) : GpScript (Option Bytes) := .call (.set k a) fun _ => .call (.get k) fun r => .ret (arrOf r)

theorem follows_putGet {k : Key} {a : Arr} {calls : List (GpCall × Except PyErr GpOut)} {b : Option Bytes}
    (h : (putThenGet k a).Follows calls b) : ∃ r1 r2, calls = [(.set k a, r1), (.get k, r2)] ∧ b = arrOf r2 := by
  cases calls with
  | nil => exact h.elim
  | cons x t =>
    obtain ⟨o, r1⟩ := x
    obtain ⟨h1, h2⟩ := h
    cases t with
    | nil => exact h2.elim
    | cons y t =>
      obtain ⟨o', r2⟩ := y
      obtain ⟨h3, h4⟩ := h2
      cases t with
      | nil => exact ⟨r1, r2, by rw [h1, h3], Eq.symm h4⟩
      | cons => exact h4.elim

/-- a GridPaper just created -/
def gpGrid : Grid := ⟨np, freshIx, .fake⟩

def gridPs (fuel : Nat) : List (Prog (Option Bytes)) :=
  [putThenGet kA sq, putThenGet kB row3].map (GpScript.run labEnv metaCodec u1Bytes (locked gpGrid fuel))

/-- "a" is set by process 0, "b" by process 1 -/
def ownAB (k : Str) : Option Nat := if k = kA.text then some 0 else if k = kB.text then some 1 else none

theorem gp_inUse : GridInUse labEnv metaCodec u1Bytes np (· ∈ freshU) true freshStore [gpGrid] fun _ => none := by
  refine ⟨[.create .fake], Store.empty, ?_, by decide, wf_empty, fun _ _ => rfl, ?_, ?_, rfl⟩
  · intro o ho
    simp only [List.mem_cons, List.not_mem_nil, or_false] at ho
    subst ho
    exact ⟨trivial, fun _ => rfl⟩
  · rfl
  · rfl

theorem ownAB_lt : ∀ k i, ownAB k = some i → i < [putThenGet kA sq, putThenGet kB row3].length := by
  intro k i h
  unfold ownAB at h
  split at h
  · injection h with h; subst h; decide
  · split at h
    · injection h with h; subst h; decide
    · cases h

theorem putThenGet_uses : ∀ (i : Nat) sc, [putThenGet kA sq, putThenGet kB row3][i]? = some sc →
    sc.Uses (fun k => k.hashed labEnv = labEnv.utf8 k.text) fun k a =>
      k.hashed labEnv = labEnv.utf8 k.text ∧ k.text ∈ freshU ∧ ownAB k.text = some i ∧ ArrOK metaCodec u1Bytes np k.text a := by
  intro i sc hi
  rcases i with _ | _ | i
  · injection hi with hi; subst hi
    exact ⟨⟨rfl, by simp [freshU], rfl, labArr _ _ _ (by simp [sq]) (by simp [sq]) rfl⟩, fun _ => ⟨rfl, fun _ => trivial⟩⟩
  · injection hi with hi; subst hi
    exact ⟨⟨rfl, by simp [freshU], rfl, labArr _ _ _ (by simp [row3]) (by simp [row3]) rfl⟩, fun _ => ⟨rfl, fun _ => trivial⟩⟩
  · cases hi

def gridSched : List Nat := busySched labEnv (indexName np) 400 1 (gridPs 60) freshStore

theorem grid_ran : (quietRunB labEnv (indexName np) gridSched (gridPs 60) freshStore,
    (interleave labEnv gridSched (gridPs 60) freshStore).1.map outcomeL) =
    (true, [some (some [1, 2, 3, 4]), some (some [7, 8, 9])]) := by decide +kernel

/-- the processes take turns -/
theorem grid_turns : gridSched.take 20 = [0, 1, 0, 1, 0, 1, 0, 1, 0, 1, 0, 0, 1, 0, 1, 0, 1, 0, 1, 0] := by decide +kernel

example : GridShared labEnv metaCodec u1Bytes gpGrid freshU ownAB (fun _ => none) [putThenGet kA sq, putThenGet kB row3]
    (interleave labEnv gridSched (gridPs 60) freshStore) := by
  have hr := grid_ran
  simp only [Prod.mk.injEq] at hr
  exact C152_shared_gridpaper_partial labEnv metaCodec u1Bytes freshU gpGrid 60 (by decide) (labIndexOK np) fresh_play true
    freshStore [gpGrid] _ gp_inUse (by simp) ownAB [putThenGet kA sq, putThenGet kB row3] ownAB_lt putThenGet_uses gridSched
    (quietRun_of_B _ hr.1)

/-! ## the lock's doorway -/

/-- process 0 stores its array and makes marker 1; process 1 stores its own, goes through its doorway with slot 2 and enters;
process 0 makes lock block 1 and enters too; both list their key in place 0 -/
def crossSched : List Nat := List.replicate 6 0 ++ List.replicate 13 1 ++ List.replicate 9 0 ++ List.replicate 12 1 ++
  List.replicate 60 0 ++ List.replicate 60 1

/-- process 1 sets "b" to 7, 8, 9, reads "b", and gets the array that process 0 has set at "a" -/
theorem C152_other_array : (interleave labEnv crossSched (gridPs 5) freshStore).1.map outcomeL =
    [some (some [1, 2, 3, 4]), some (some [1, 2, 3, 4])] := by decide +kernel

/-- C152 is false of the code: a process finds another process's array under a key that only it has set -/
theorem C152_full_false : ¬ C152_full := by
  intro hC
  obtain ⟨sts, h1, -⟩ := hC (Option Bytes) labEnv metaCodec u1Bytes freshU gpGrid 5 (by decide) (labIndexOK np) fresh_play true
    freshStore [gpGrid] _ gp_inUse (by simp) ownAB [putThenGet kA sq, putThenGet kB row3] ownAB_lt putThenGet_uses crossSched
  have hout := C152_other_array
  have h : (interleave labEnv crossSched (gridPs 5) freshStore).1[1]? = some (.ret (some [1, 2, 3, 4])) := by
    have : ((interleave labEnv crossSched (gridPs 5) freshStore).1.map outcomeL)[1]? = some (some (some [1, 2, 3, 4])) := by
      rw [hout]; rfl
    rw [List.getElem?_map] at this
    cases hp : (interleave labEnv crossSched (gridPs 5) freshStore).1[1]? with
    | none => rw [hp] at this; simp at this
    | some q =>
      rw [hp] at this
      cases q with
      | ret a => simp only [Option.map_some, Option.some.injEq, outcomeL] at this; rw [this]
      | _ => simp [outcomeL] at this
  obtain ⟨calls, f, l⟩ := h1 1 (putThenGet kB row3) _ rfl h
  obtain ⟨r1, r2, rfl, hb⟩ := follows_putGet f
  obtain ⟨st1, ⟨_, s1⟩, st2, ⟨_, s2⟩, _⟩ := l
  have hst : st1 kB.text = some (row3, 3) := by rw [s1]; rfl
  have := s2 ⟨by simp [freshU], Or.inl rfl⟩
  rw [hst] at this
  rw [this] at hb
  exact absurd hb (by decide)

/-- the schedule of the counterexample disturbs a doorway -/
theorem crossSched_not_quiet : quietRunB labEnv (indexName np) crossSched (gridPs 5) freshStore = false := by
  decide +kernel

/-! ## keys of others -/

/-- the shape and the bytes of what was read -/
def arrIs : Except PyErr GpOut → Option (List Nat × Bytes)
  | .ok (.val a) => some (a.shape, a.data)
  | _ => none

/-- process 0 sets "a" to a 2 by 2 array and then to a row of three; process 1 reads "a" -/
def gridMixPs : List (Prog (Option (List Nat × Bytes))) :=
  [(.call (.set kA sq) fun _ => .call (.set kA row3) fun _ => .call (.get kA) fun r => .ret (arrIs r) :
      GpScript (Option (List Nat × Bytes))), .call (.get kA) fun r => .ret (arrIs r)].map
    (GpScript.run labEnv metaCodec u1Bytes (locked gpGrid 60))

/-- why C152 speaks of keys of one's own, and of nobody's: the bytes are stored before the shape (implements.py:871-881), and
the lock is for the index only. Process 1 reads after the bytes and before the shape, and gets a 2 by 2 array of 7, 8, 9 and
4, which nobody has stored; no doorway is disturbed. -/
theorem C152_foreign_read : let sched := List.replicate 24 0 ++ List.replicate 20 1 ++ List.replicate 60 0
    quietRunB labEnv (indexName np) sched gridMixPs freshStore = true ∧
    (interleave labEnv sched gridMixPs freshStore).1.map outcomeL = [some (some ([3], [7, 8, 9])), some (some ([2, 2], [7, 8, 9, 4]))] := by
  decide +kernel

end Verif.Props
