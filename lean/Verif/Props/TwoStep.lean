import Verif.Lemmas.TwoStep
import Verif.Props.Sections
/-!
# C156: creating a block is not one step

The programs of Verif/Model/Memutilz.lean and Verif/Model/Notepad.lean, run by `interleave2` (Verif/Model/TwoStep.lean), in
which a name is bound first and its block gets its size later.
-/
namespace Verif.Props
open Verif Verif.Model Verif.Lemmas Verif.Spec

/-- C156, in full: processes that use only blocks that they were given, or have created or opened, end as they can end when
creating and opening a block is one step -/
def C156_full : Prop :=
  ∀ (α : Type) (E : Env) (ps : List (Prog α)) (s : Store) (_ : s.WF) (K : Nat → Prop) (_ : ∀ h, K h → h < s.next)
    (_ : ∀ p ∈ ps, Handles K p) (sched : List Nat),
    ∃ sched' : List Nat, ∀ i : Nat, (∀ a : α, (interleave2 E sched (ps.map .run) s).1[i]? = some (.run (.ret a)) → (interleave E sched' ps s).1[i]? = some (.ret a)) ∧
      ∀ e : PyErr, (interleave2 E sched (ps.map .run) s).1[i]? = some (.run (.raise e)) → (interleave E sched' ps s).1[i]? = some (.raise e)

theorem map_overall_run {α : Type} (ps : List (Prog α)) : (ps.map Proc.run).map overall = ps := by
  rw [List.map_map]
  exact (List.map_congr_left fun p _ => rfl).trans (List.map_id _)

/-- C156, the part that holds: if no process that opens a block finds it empty (or goes on as if it had found it complete, as
`exists_block` does), the run is one in which every operation is done as a whole when it begins: every process is where it is
then, and the store is the same but for what is still being created -/
theorem C156_refines_partial {α : Type} (E : Env) (ps : List (Prog α)) (s : Store) (w : s.WF) (K : Nat → Prop)
    (hK : ∀ h, K h → h < s.next) (hp : ∀ p ∈ ps, Handles K p) (sched : List Nat) (hu : Unnoticed E sched (ps.map .run) s) :
    ∃ s', interleave E (begun E sched (ps.map .run) s) ps s = ((interleave2 E sched (ps.map .run) s).1.map overall, s') ∧
      SameButHalf (interleave2 E sched (ps.map .run) s).1 (interleave2 E sched (ps.map .run) s).2 s' := by
  obtain ⟨s0', e, H⟩ := two_interleave (E := E) (two_start w.lt hK hp) sched hu
  rw [map_overall_run] at e
  exact ⟨s0', e, H.same⟩

/-- when all processes are between two operations, the stores are the same -/
theorem same_of_between {α : Type} {ps : List (Proc α)} {s s' : Store} (h : SameButHalf ps s s') (hb : ∀ p ∈ ps, Between p) :
    s' = s := by
  have : s'.segs = s.segs := funext fun x => h.rest x fun i z k e => hb _ (List.mem_of_getElem? e)
  cases s; cases s'
  have h1 := h.names
  have h2 := h.next
  simp_all

/-- C156, for runs at whose end every process has ended: they are runs in which every operation is one step, with the same
ends and the same memory -/
theorem C156_ended_partial {α : Type} (E : Env) (ps : List (Prog α)) (s : Store) (w : s.WF) (K : Nat → Prop)
    (hK : ∀ h, K h → h < s.next) (hp : ∀ p ∈ ps, Handles K p) (sched : List Nat) (hu : Unnoticed E sched (ps.map .run) s)
    (ends : List (Prog α)) (he : (interleave2 E sched (ps.map .run) s).1 = ends.map .run) :
    interleave E (begun E sched (ps.map .run) s) ps s = (ends, (interleave2 E sched (ps.map .run) s).2) := by
  obtain ⟨s', e, hs⟩ := C156_refines_partial E ps s w K hK hp sched hu
  have hb : ∀ p ∈ (interleave2 E sched (ps.map .run) s).1, Between p := by
    rw [he]
    intro p hp
    obtain ⟨q, _, rfl⟩ := List.mem_map.1 hp
    trivial
  rw [e, same_of_between hs hb, he, map_overall_run]

/-! ## the full claim is false -/

/-- how a process has ended -/
def endOf {α : Type} : Proc α → Option (Except PyErr α)
  | .run (.ret a) => some (.ok a)
  | .run (.raise e) => some (.error e)
  | _ => none

/-- no outcome of an operation but the `ValueError` of an opening ends the program in a `ValueError` -/
def NoVE {α : Type} : Prog α → Prop
  | .ret _ => True
  | .raise e => e ≠ .valueError
  | .stuck => True
  | .op o k => ∀ (E : Env) (s : Store), NoVE (k (o.step E s).1)

theorem interleave_noVE {α : Type} (E : Env) (sched : List Nat) (ps : List (Prog α)) (s : Store) (h : ∀ p ∈ ps, NoVE p) :
    ∀ p ∈ (interleave E sched ps s).1, NoVE p := by
  induction sched generalizing ps s with
  | nil => exact h
  | cons i sched ih =>
    simp only [interleave]
    cases hi : ps[i]? with
    | none => exact ih _ _ h
    | some p =>
      cases p with
      | op o k =>
        simp only [Prog.step]
        refine ih _ _ fun q hq => ?_
        rcases List.mem_or_eq_of_mem_set hq with hq | rfl
        · exact h q hq
        · exact h _ (List.mem_of_getElem? hi) E s
      | _ => exact ih _ _ h

theorem attach_cases (E : Env) (n : Str) (s : Store) : ((Op.attach n).step E s).1 = .error .osError ∨
    ((Op.attach n).step E s).1 = .error .fileNotFound ∨ ∃ i : Nat, ((Op.attach n).step E s).1 = .ok i := by
  simp only [Op.step]
  split
  · exact .inl rfl
  · split
    · exact .inr (.inr ⟨_, rfl⟩)
    · exact .inr (.inl rfl)

theorem create_cases (E : Env) (n : Str) {z : Nat} (hz : z ≠ 0) (s : Store) : ((Op.create n z).step E s).1 = .error .osError ∨
    ((Op.create n z).step E s).1 = .error .fileExists ∨ ∃ i : Nat, ((Op.create n z).step E s).1 = .ok i := by
  simp only [Op.step, if_neg hz]
  split
  · exact .inl rfl
  · split
    · exact .inr (.inl rfl)
    · exact .inr (.inr ⟨_, rfl⟩)

theorem noVE_openBlock (a : Str) {z : Nat} (hz : z ≠ 0) : NoVE (openBlock a z) := by
  intro E s
  rcases create_cases E a hz s with h | h | ⟨i, h⟩ <;> rw [h]
  · intro h; cases h
  · intro E' s'
    rcases attach_cases E' a s' with h | h | ⟨i, h⟩ <;> rw [h]
    · intro h; cases h
    · intro h; cases h
    · trivial
  · trivial

theorem handles_openBlock (a : Str) (z : Nat) (K : Nat → Prop) : Handles K (openBlock a z) := by
  intro r
  cases r with
  | ok h => trivial
  | error e =>
    cases e with
    | fileExists => exact ⟨.inl trivial, fun r => by cases r <;> trivial⟩
    | _ => trivial

/-- C156 is false of the code: of two processes that open the same block at the same time, one may raise `ValueError`, which it
never does when creation is one step -/
theorem C156_full_false : ¬ C156_full := by
  intro h
  obtain ⟨sched', h⟩ := h Nat labEnv [openBlock "a".toList 5, openBlock "a".toList 5] Store.empty wf_empty (fun _ => False)
    (fun _ h => h.elim) (fun p hp => by
      simp only [List.mem_cons, List.not_mem_nil, or_false, or_self] at hp
      rw [hp]; exact handles_openBlock _ _ _) [0, 1, 1, 1]
  have h1 := (h 1).2 .valueError (by rfl)
  exact interleave_noVE labEnv sched' _ _ (fun p hp => by
      simp only [List.mem_cons, List.not_mem_nil, or_false, or_self] at hp
      rw [hp]; exact noVE_openBlock _ (by decide)) _ (List.mem_of_getElem? h1) rfl

/-- the same with a notepad: process 0 sets a new key; process 1, which looks it up with a default, gets neither the
value nor the `FileNotFoundError` of a missing key (C40), but a `ValueError` -/
theorem C156_notepad_get : ∃ sched, (interleave2 labEnv sched
      [.run ((padSet labEnv ownCodec (freshPad (.sliding 60)) kB 1 true).bind fun _ => .ret 0),
       .run (padGetD ownCodec (fun _ => false) (freshPad (.sliding 60)) kB 7)] freshStore).1.map endOf = [none, some (.error .valueError)] :=
  ⟨List.replicate 21 0 ++ [1, 1], by decide +kernel⟩

/-! ## a process that is killed between the two steps -/

/-- the process alone ends like this, and leaves the memory as it is -/
def EndsAlone {α : Type} (E : Env) (p : Prog α) (s : Store) (q : Prog α) : Prop :=
  ∃ n, ∀ m, n ≤ m → interleave2 E (List.replicate m 0) [.run p] s = ([.run q], s)

theorem alone_stop {α : Type} (E : Env) (q : Prog α) (s : Store) (hq : (Proc.run q).step E s = none) (m : Nat) :
    interleave2 E (List.replicate m 0) [.run q] s = ([.run q], s) := by
  induction m with
  | zero => rfl
  | succ m ih =>
    simp only [List.replicate_succ, interleave2, List.getElem?_cons_zero, hq]
    exact ih

/-- one step of the process, with no effect on the memory -/
theorem alone_step {α : Type} {E : Env} {P P' : Proc α} {s : Store} {q : Prog α} (hst : P.step E s = some (P', s)) {n : Nat}
    (h : ∀ m, n ≤ m → interleave2 E (List.replicate m 0) [P'] s = ([.run q], s)) :
    ∀ m, n + 1 ≤ m → interleave2 E (List.replicate m 0) [P] s = ([.run q], s) := by
  intro m hm
  obtain ⟨m, rfl⟩ : ∃ m', m = m' + 1 := ⟨m - 1, by omega⟩
  simp only [List.replicate_succ, interleave2, List.getElem?_cons_zero, hst, List.set_cons_zero]
  exact h m (by omega)

/-- C156: a process is killed after it has bound the name `a` and before the block has got its size. Then `a` is taken, and for
everybody else who acts alone, `exists_block(a)` is `True`; `open_block` with any options, `fetch_block_bytes` and
`delete_block` raise `ValueError`, and so does every `with SlidingLock(name)` whose count block it is; none of them changes
anything. -/
theorem C156_left_empty (E : Env) (a : Str) (ha : E.okName a = true) (s : Store) (hs : s.names a = none) (z : Nat) (hz : z ≠ 0)
    (s' : Store) (hs' : s' = (interleave2 E [0] [.run (create a z)] s).2) :
    (s'.names a).isSome = true ∧ EndsAlone E (existsBlock a) s' (.ret true) ∧
    (∀ z' c o, z' ≠ 0 → EndsAlone E (openBlock a z' c o) s' (.raise .valueError)) ∧
    EndsAlone E (fetchBlockBytes a) s' (.raise .valueError) ∧
    (∀ m, EndsAlone E (deleteBlock a m) s' (.raise .valueError)) ∧
    (∀ (name : Str) (fuel : Nat) (α : Type) (body : Prog α), a = countAddr name →
      EndsAlone E (withLock (.sliding fuel) name body) s' (.raise .valueError)) := by
  have e : s' = s.opened a := by
    rw [hs']
    simp [interleave2, create, Prog.prim, Proc.step, hz, ha, hs]
  subst e
  have hn : (s.opened a).names a = some s.next := by simp [Store.opened]
  have hg : (s.opened a).segs s.next = [] := by simp [Store.opened]
  have att : ∀ {α : Type} (k : Except PyErr Nat → Prog α), (Proc.run (.op (.attach a) k)).step E (s.opened a) =
      some (.mapping s.next k, s.opened a) := fun k => by simp [Proc.step, ha, hn]
  have cre : ∀ {α : Type} (z' : Nat) (k : Except PyErr Nat → Prog α), z' ≠ 0 → (Proc.run (.op (.create a z') k)).step E (s.opened a) =
      some (.run (k (.error .fileExists)), s.opened a) := fun z' k hz => by simp [Proc.step, ha, hn, hz]; rfl
  have mpp : ∀ {α : Type} (k : Except PyErr Nat → Prog α), (Proc.mapping s.next k).step E (s.opened a) =
      some (.run (k (.error .valueError)), s.opened a) := fun k => by simp [Proc.step, hg]
  refine ⟨by rw [hn]; rfl, ⟨2, alone_step (n := 1) (att _) (alone_step (n := 0) (mpp _) fun m _ => alone_stop E _ _ rfl m)⟩, ?_,
    ⟨2, alone_step (n := 1) (att _) (alone_step (n := 0) (mpp _) fun m _ => alone_stop E _ _ rfl m)⟩,
    fun m => ⟨2, alone_step (n := 1) (att _) (alone_step (n := 0) (mpp _) fun m _ => alone_stop E _ _ rfl m)⟩, ?_⟩
  · intro z' c o hz'
    cases c with
    | false => exact ⟨2, alone_step (n := 1) (att _) (alone_step (n := 0) (mpp _) fun m _ => alone_stop E _ _ rfl m)⟩
    | true =>
      cases o with
      | false => exact ⟨3, alone_step (n := 2) (cre z' _ hz') (alone_step (n := 1) (att _) (alone_step (n := 0) (mpp _) fun m _ => alone_stop E _ _ rfl m))⟩
      | true => exact ⟨3, alone_step (n := 2) (cre z' _ hz') (alone_step (n := 1) (att _) (alone_step (n := 0) (mpp _) fun m _ => alone_stop E _ _ rfl m))⟩
  · rintro name fuel α body rfl
    exact ⟨3, alone_step (n := 2) (cre 5 _ (by decide)) (alone_step (n := 1) (att _) (alone_step (n := 0) (mpp _) fun m _ => alone_stop E _ _ rfl m))⟩

/-- the count block of a lock named `l`, left empty -/
example : labEnv.okName (countAddr "l".toList) = true ∧ Store.empty.names (countAddr "l".toList) = none := ⟨by decide, rfl⟩

/-- a run in which the second process looks for the block while it has no size, and does not notice -/
example : Unnoticed labEnv [0, 1, 1, 0] [.run ((openBlock "a".toList 5).bind fun _ => .ret true), .run (existsBlock "a".toList)] Store.empty ∧
    (interleave2 labEnv [0, 1, 1, 0] [.run ((openBlock "a".toList 5).bind fun _ => .ret true), .run (existsBlock "a".toList)] Store.empty).1.map endOf =
      [some (.ok true), some (.ok true)] ∧
    (∀ p ∈ [(openBlock "a".toList 5).bind fun _ => .ret true, existsBlock "a".toList], Handles (fun _ => False) p) := by
  refine ⟨⟨fun _ _ h => (nomatch h), fun _ _ h => (nomatch h), fun h k e _ => ?_, fun _ _ h => (nomatch h), trivial⟩, by decide, ?_⟩
  · cases e; rfl
  · intro p hp
    simp only [List.mem_cons, List.not_mem_nil, or_false] at hp
    rcases hp with rfl | rfl
    · exact keeps_bind (handles_openBlock _ _ _) fun _ _ _ _ => trivial
    · exact ⟨.inl trivial, fun r => by
        cases r with
        | ok h => trivial
        | error e => cases e <;> trivial⟩

end Verif.Props
