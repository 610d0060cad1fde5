import Verif.Lemmas.CapEdits
import Verif.Props.Captures
import Verif.Props.CompIdle
/-! # C176: captures of a Composition that is edited -/
namespace Verif.Props
open Verif Verif.Model Verif.Spec Verif.Lemmas

variable {V X : Type}

/-- the edit adds nothing that touches the lists numbered from `m` to before `m + k`, and no new captures -/
def EditLeaves (m k : Nat) : CompEdit V X → Prop
  | .addStep s _ => StepKeeps m k s
  | .addSend _ sd => SendKeeps m k sd
  | .captures => False
  | _ => True

theorem capInv_captures [PyNone V] {c : Comp V X} {w : World V X} (wf : Dict.WF c.steps) (h : LeavesNewLists c w) :
    CapInv w.nextList (stepIndex c) (addCaptures c w).1 ∧
      (∀ i, i < (stepIndex c).length → ((addCaptures c w).2.lists (w.nextList + i)).length = 1) ∧
      (addCaptures c w).1.steps = c.steps := by
  have hlen : (stepIndex c).length = c.steps.length := List.length_map ..
  obtain ⟨h1, h2, h3, h4, h5, h6, h7, h8, h9⟩ := addCapturesLoop_spec (Dict.keys c.steps) wf c [] w
  change (addCaptures c w).1.steps = _ at h1
  change (addCaptures c w).1.tracker = _ at h2
  change (addCaptures c w).1.captures = _ at h5
  refine ⟨⟨fun i hi => ?_, fun n hn sd hsd => ?_, fun p hp => ?_, ?_, ?_⟩, fun i hi => ?_, h1⟩
  · refine ⟨sendsOf c (stepIndex c)[i], [], h6 i hi, fun sd hsd => ?_, fun sd hsd => (by cases hsd)⟩
    rw [hlen]
    exact h.sends _ sd hsd
  · rw [hlen]
    rw [show sendsOf (addCaptures c w).1 n = sendsOf c n from h7 n hn] at hsd
    exact h.sends n sd hsd
  · rw [hlen]
    rw [h1] at hp
    exact h.steps p.1 p.2 hp
  · rw [h2, hlen]; exact h.tracker
  · rw [h5]; rfl
  · have := h8 (w.nextList + i)
    change (addCaptures c w).2.lists _ = _ at this
    rw [this, if_pos ⟨Nat.le_add_right _ _, Nat.add_lt_add_left hi _⟩]
    rfl

theorem capInv_edit [PyNone V] {m : Nat} {names : List Name} (hn : names.Nodup) {c : Comp V X} {w : World V X}
    (h : CapInv m names c) (hd : (stepIndex c).Nodup) (hl : ∀ i, i < names.length → (w.lists (m + i)).length = 1)
    {e : CompEdit V X} (he : EditLeaves m names.length e) :
    CapInv m names (editComp (c, w) e).1 ∧
      ∀ i, i < names.length → ((editComp (c, w) e).2.lists (m + i)).length = 1 := by
  cases e with
  | addStep s name =>
    refine ⟨?_, hl⟩
    have hset : CapInv m names { c with steps := c.steps.set (name.getD (.int (c.steps.length + 1))) s } := by
      refine ⟨h.own, h.other, fun p hp => ?_, h.tracker, h.caps⟩
      rcases set_mem hp with rfl | hp
      · exact he
      · exact h.steps p hp
    exact hset.trackSend _ _
  | addSend n sd =>
    simp only [editComp]
    split
    · next c' hc => rw [addSend_eq hc]; exact ⟨h.send n he, hl⟩
    · exact ⟨h, hl⟩
  | addInsert n k v => exact ⟨⟨h.own, h.other, h.steps, h.tracker, h.caps⟩, hl⟩
  | reindex =>
    refine ⟨⟨h.own, h.other, fun p hp => ?_, h.tracker, h.caps⟩, hl⟩
    change p ∈ (reindex c).steps at hp
    rw [reindex_steps, List.mem_mapIdx] at hp
    obtain ⟨i, hi, rfl⟩ := hp
    obtain ⟨q, hq, e⟩ := List.mem_map.1 (List.getElem_mem hi)
    simp only
    rw [← e]
    exact h.steps q hq
  | track =>
    refine ⟨?_, hl⟩
    simp only [editComp, trackOn]
    split
    · exact h
    · refine CapInv.trackSends _ ⟨h.own, h.other, h.steps, fun t ht r w i _ _ => ?_, h.caps⟩
      cases ht
      rfl
  | captures => exact he.elim
  | run v =>
    refine ⟨h.same (execute_same c v w), fun i hi => ?_⟩
    change ((execute c v w).2.2.lists (m + i)).length = 1
    rw [execute_cap_lists h v w hi]
    exact (iterSteps_cap hn c.steps hd h.steps h v w hl).2.1 i hi

theorem capInv_edits [PyNone V] {m : Nat} {names : List Name} (hn : names.Nodup) (es : List (CompEdit V X)) {c : Comp V X}
    {w : World V X} (h : CapInv m names c) (hd : (stepIndex c).Nodup)
    (hl : ∀ i, i < names.length → (w.lists (m + i)).length = 1) (he : ∀ e ∈ es, EditLeaves m names.length e) :
    CapInv m names (editsComp es (c, w)).1 ∧
      ∀ i, i < names.length → ((editsComp es (c, w)).2.lists (m + i)).length = 1 := by
  induction es generalizing c w with
  | nil => exact ⟨h, hl⟩
  | cons e t ih =>
    obtain ⟨h1, h2⟩ := capInv_edit hn h hd hl (he e (.head _))
    exact ih h1 ((C171_index c [e] w).2 hd) h2 fun e' h' => he e' (.tail _ h')

theorem capInv_captured {m : Nat} {names : List Name} (hn : names.Nodup) {c : Comp V X} (h : CapInv m names c) (w : World V X)
    {i : Nat} (hi : i < names.length) : captured c w names[i] = some (w.lists (m + i)) := by
  rw [captured, h.caps]
  simp only [Option.bind_some]
  rw [Dict.get?_of_mem (v := m + i)]
  · rfl
  · simp only [Dict.WF, Dict.keys]
    rw [map_mapIdx]
    rw [show names.mapIdx (fun _ n => n) = names from mapIdx_self _]
    exact hn
  · rw [List.mem_mapIdx]
    exact ⟨i, hi, rfl⟩

/-- C176: captures are added, then the Composition is edited and run in any way, then run once more. If a step of the name
`n` was there when the captures were added and (the same or not) one is there now, the capture of `n` holds the output of
the one that is there now, if the run got past it; it is as before if the run ended before it. -/
theorem C176_by_name [PyNone V] (c : Comp V X) (w : World V X) (wf : Dict.WF c.steps) (hk : LeavesNewLists c w)
    (es : List (CompEdit V X)) (hes : ∀ e ∈ es, EditLeaves w.nextList (stepIndex c).length e) (v : V) (c1 : Comp V X)
    (w1 : World V X) (h1 : editsComp es (addCaptures c w) = (c1, w1)) (n : Name) (hn : n ∈ stepIndex c) (p : Nat) (s : Step V X)
    (hp : c1.steps[p]? = some (n, s)) :
    (∀ x, (itercall c1 v w1).1[p]? = some x → captured (execute c1 v w1).2.1 (execute c1 v w1).2.2 n = some [x]) ∧
    ((itercall c1 v w1).1.length < p → captured (execute c1 v w1).2.1 (execute c1 v w1).2.2 n = captured c1 w1 n) := by
  obtain ⟨a1, a2, a3⟩ := capInv_captures wf hk
  have hd0 : (stepIndex (addCaptures c w).1).Nodup := by rw [stepIndex, a3]; exact wf
  obtain ⟨b1, b2⟩ := capInv_edits (names := stepIndex c) wf es a1 hd0 a2 hes
  have hd := (C171_index (addCaptures c w).1 es (addCaptures c w).2).2 hd0
  rw [show ((addCaptures c w).1, (addCaptures c w).2) = addCaptures c w from rfl, h1] at b1 b2 hd
  obtain ⟨i, hi, rfl⟩ := List.getElem_of_mem hn
  have hs := b1.same (execute_same c1 v w1)
  rw [capInv_captured (names := stepIndex c) wf hs _ hi, capInv_captured (names := stepIndex c) wf b1 _ hi, execute_cap_lists b1 v w1 hi]
  obtain ⟨g1, g2⟩ := (iterSteps_cap (names := stepIndex c) wf c1.steps hd b1.steps b1 v w1 b2).2.2 i hi p s hp
  exact ⟨fun x hx => congrArg some (g1 x hx), fun hlt => congrArg some (g2 hlt)⟩

/-- C176: a capture whose name no step has any more, having been renamed by `reindex`, is left by further runs as it is;
and names that were not there when the captures were added have no capture -/
theorem C176_stale [PyNone V] (c : Comp V X) (w : World V X) (wf : Dict.WF c.steps) (hk : LeavesNewLists c w)
    (es : List (CompEdit V X)) (hes : ∀ e ∈ es, EditLeaves w.nextList (stepIndex c).length e) (v : V) (c1 : Comp V X)
    (w1 : World V X) (h1 : editsComp es (addCaptures c w) = (c1, w1)) (n : Name) :
    (n ∈ stepIndex c → n ∉ stepIndex c1 → captured (execute c1 v w1).2.1 (execute c1 v w1).2.2 n = captured c1 w1 n) ∧
    (n ∉ stepIndex c → captured c1 w1 n = none) := by
  obtain ⟨a1, a2, a3⟩ := capInv_captures wf hk
  have hd0 : (stepIndex (addCaptures c w).1).Nodup := by rw [stepIndex, a3]; exact wf
  obtain ⟨b1, b2⟩ := capInv_edits (names := stepIndex c) wf es a1 hd0 a2 hes
  have hd := (C171_index (addCaptures c w).1 es (addCaptures c w).2).2 hd0
  rw [show ((addCaptures c w).1, (addCaptures c w).2) = addCaptures c w from rfl, h1] at b1 b2 hd
  constructor
  · intro hn hn1
    obtain ⟨i, hi, rfl⟩ := List.getElem_of_mem hn
    have hs := b1.same (execute_same c1 v w1)
    rw [capInv_captured (names := stepIndex c) wf hs _ hi, capInv_captured (names := stepIndex c) wf b1 _ hi, execute_cap_lists b1 v w1 hi]
    exact congrArg some ((iterSteps_cap (names := stepIndex c) wf c1.steps hd b1.steps b1 v w1 b2).1 i hi hn1)
  · intro hn
    rw [captured, b1.caps]
    simp only [Option.bind_some]
    have : Dict.keys ((stepIndex c).mapIdx fun i n => (n, w.nextList + i)) = stepIndex c := by
      simp only [Dict.keys]
      rw [map_mapIdx]
      exact mapIdx_self _
    rw [Dict.get?_eq_none.2 (by rw [this]; exact hn)]
    rfl

/-- C176, in full: however the Composition is edited after captures were added, after a run that raises nothing each of
the captures holds the output of the step it was added for (no steps being added or replaced) -/
def CapturesFollowSteps (V X : Type) [PyNone V] : Prop :=
  ∀ (c : Comp V X) (w : World V X), Dict.WF c.steps → LeavesNewLists c w → ∀ es : List (CompEdit V X),
    (∀ e ∈ es, EditLeaves w.nextList (stepIndex c).length e) → (∀ s n, .addStep s n ∉ es) →
    ∀ (v : V) (c1 : Comp V X) (w1 : World V X), editsComp es (addCaptures c w) = (c1, w1) →
    (itercall c1 v w1).2.1 = none → ∀ (i : Nat) n s, c.steps[i]? = some (n, s) →
      ∃ x, (itercall c1 v w1).1[i]? = some x ∧ captured (execute c1 v w1).2.1 (execute c1 v w1).2.2 n = some [x]

/-- the captured steps are named, and `reindex` numbers them -/
theorem C176_full_false : ¬ CapturesFollowSteps Int Unit := by
  intro h
  obtain ⟨x, h1, h2⟩ := h halfComp w0 (by simp [Dict.WF, halfComp, firstName]) halfComp_leaves [.reindex]
    (fun e he => by rw [List.mem_singleton.1 he]; trivial)
    (fun s n hm => by cases List.mem_singleton.1 hm) 4 _ _ rfl rfl 1 (.int 4) halve rfl
  have h3 : (itercall (reindex (addCaptures halfComp w0).1) 4 (addCaptures halfComp w0).2).1[1]? = some 3 := rfl
  have h4 : captured (execute (reindex (addCaptures halfComp w0).1) 4 (addCaptures halfComp w0).2).2.1
    (execute (reindex (addCaptures halfComp w0).1) 4 (addCaptures halfComp w0).2).2.2 (.int 4) = some [-1] := rfl
  change (itercall (reindex (addCaptures halfComp w0).1) 4 (addCaptures halfComp w0).2).1[1]? = some x at h1
  change captured (execute (reindex (addCaptures halfComp w0).1) 4 (addCaptures halfComp w0).2).2.1
    (execute (reindex (addCaptures halfComp w0).1) 4 (addCaptures halfComp w0).2).2.2 (.int 4) = some [x] at h2
  rw [h3] at h1
  rw [h4] at h2
  cases h1
  exact absurd h2 (by decide)

/-- names are only added, at the end, if nothing is reindexed -/
theorem rowEdits_prefix (es : List (CompEdit V X)) (hr : .reindex ∉ es) (row : List Name) : row <+: rowEdits row es := by
  induction es generalizing row with
  | nil => exact List.prefix_refl row
  | cons e t ih =>
    have ha : ∀ n, row <+: rowAdd row n := fun n => by
      unfold rowAdd
      split
      · exact List.prefix_refl row
      · exact List.prefix_append ..
    have : row <+: rowEdit row e := by
      cases e with
      | addStep s n => cases n <;> exact ha _
      | reindex => exact absurd (.head _) hr
      | _ => exact List.prefix_refl row
    exact this.trans (ih (fun h => hr (.tail _ h)) _)

/-- C176, the part that holds: if nothing is reindexed, each step that was captured is still at its place, and after a run
that raises nothing its capture holds its output (that of the step that replaced it, if one did) -/
theorem C176_follow_partial [PyNone V] (c : Comp V X) (w : World V X) (wf : Dict.WF c.steps) (hk : LeavesNewLists c w)
    (es : List (CompEdit V X)) (hes : ∀ e ∈ es, EditLeaves w.nextList (stepIndex c).length e) (hr : .reindex ∉ es) (v : V)
    (c1 : Comp V X) (w1 : World V X) (h1 : editsComp es (addCaptures c w) = (c1, w1))
    (hrun : (itercall c1 v w1).2.1 = none) (i : Nat) (n : Name) (hi : (stepIndex c)[i]? = some n) :
    ∃ x, (itercall c1 v w1).1[i]? = some x ∧ captured (execute c1 v w1).2.1 (execute c1 v w1).2.2 n = some [x] := by
  obtain ⟨a1, a2, a3⟩ := capInv_captures wf hk
  have hix := (C171_index (addCaptures c w).1 es (addCaptures c w).2).1
  rw [show ((addCaptures c w).1, (addCaptures c w).2) = addCaptures c w from rfl, h1,
    show stepIndex (addCaptures c w).1 = stepIndex c from congrArg Dict.keys a3] at hix
  simp only at hix
  obtain ⟨t, ht⟩ := rowEdits_prefix es hr (stepIndex c)
  have hi1 : (stepIndex c1)[i]? = some n := by
    rw [hix, ← ht, List.getElem?_append_left (List.getElem?_eq_some_iff.1 hi).1]
    exact hi
  rw [stepIndex, Dict.keys, List.getElem?_map, Option.map_eq_some_iff] at hi1
  obtain ⟨⟨n', s⟩, hp, rfl⟩ := hi1
  have hlen : (itercall c1 v w1).1.length = c1.steps.length := by
    rcases hit : itercall c1 v w1 with ⟨outs, e, c2, w2⟩
    rw [hit] at hrun
    simp only at hrun
    subst hrun
    exact iterSteps_length (show iterSteps c1 v c1.steps w1 = _ from hit)
  have hlt : i < (itercall c1 v w1).1.length := by
    rw [hlen]
    exact (List.getElem?_eq_some_iff.1 hp).1
  refine ⟨_, List.getElem?_eq_getElem hlt, ?_⟩
  exact (C176_by_name c w wf hk es hes v c1 w1 h1 n' (List.mem_of_getElem? hi) i s hp).1 _ (List.getElem?_eq_getElem hlt)

/-- the middle step is replaced, one is added, and there is a run before: captures go on -/
def halfEdits : List (CompEdit Int Unit) := [.run 4, .addStep timesThree (some (.int 4)), .addStep addTwo (some (.int 7))]

theorem halfEdits_leave : ∀ e ∈ halfEdits, EditLeaves w0.nextList (stepIndex halfComp).length e := by
  intro e he
  cases he with
  | head => trivial
  | tail _ he => cases he with
    | head => exact ⟨fun a k w i _ _ => by simp only [timesThree, pureStep]; split <;> rfl, fun f h => by cases h⟩
    | tail _ he => cases he with
      | head => exact ⟨fun a k w i _ _ => by simp only [addTwo, pureStep]; split <;> rfl, fun f h => by cases h⟩
      | tail _ he => cases he

example : ∃ x, (itercall (editsComp halfEdits (addCaptures halfComp w0)).1 5 (editsComp halfEdits (addCaptures halfComp w0)).2).1[1]? =
    some x ∧ captured (execute (editsComp halfEdits (addCaptures halfComp w0)).1 5 (editsComp halfEdits (addCaptures halfComp w0)).2).2.1
      (execute (editsComp halfEdits (addCaptures halfComp w0)).1 5 (editsComp halfEdits (addCaptures halfComp w0)).2).2.2 (.int 4) =
        some [x] :=
  C176_follow_partial halfComp w0 (by simp [Dict.WF, halfComp, firstName]) halfComp_leaves halfEdits halfEdits_leave
    (by simp [halfEdits]) 5 (editsComp halfEdits (addCaptures halfComp w0)).1 (editsComp halfEdits (addCaptures halfComp w0)).2
    (Prod.eta _).symm (by decide +kernel) 1 (.int 4) (by decide +kernel)

/-- 5 → 7 → 21 (three times, where it had been halved) -/
example : captured (execute (editsComp halfEdits (addCaptures halfComp w0)).1 5 (editsComp halfEdits (addCaptures halfComp w0)).2).2.1
    (execute (editsComp halfEdits (addCaptures halfComp w0)).1 5 (editsComp halfEdits (addCaptures halfComp w0)).2).2.2 (.int 4) =
      some [21] := rfl

/-- two steps with each other's numbers: after `reindex`, each capture is of the other step -/
def crossed : Comp Int Unit := { steps := [(.int 1, addTwo), (.int 0, timesThree)] }

theorem crossed_leaves : LeavesNewLists crossed w0 where
  steps := by
    intro n s h
    simp only [crossed, List.mem_cons, Prod.mk.injEq, List.not_mem_nil, or_false] at h
    rcases h with ⟨_, rfl⟩ | ⟨_, rfl⟩ <;> refine ⟨fun a k w i _ _ => ?_, fun f h => ?_⟩ <;> first | cases h | skip
    · simp only [addTwo, pureStep]; split <;> rfl
    · simp only [timesThree, pureStep]; split <;> rfl
  sends := by intro n sd h; simp [sendsOf, crossed] at h
  tracker := by intro t h; cases h

/-- C176: the capture added for one step may come to hold the output of another: 3 → 5 → 15, and the capture of 0, added for
the second step, holds 5 -/
theorem C176_crossed : captured (execute (editsComp [.reindex] (addCaptures crossed w0)).1 3
      (editsComp [.reindex] (addCaptures crossed w0)).2).2.1
    (execute (editsComp [.reindex] (addCaptures crossed w0)).1 3 (editsComp [.reindex] (addCaptures crossed w0)).2).2.2 (.int 0) =
      some [5] ∧ (itercall (addCaptures crossed w0).1 3 (addCaptures crossed w0).2).1 = [5, 15] := by
  refine ⟨(C176_by_name crossed w0 (by simp [Dict.WF, crossed]) crossed_leaves [.reindex]
    (fun e he => by rw [List.mem_singleton.1 he]; trivial) 3 _ _ rfl (.int 0) (.tail _ (.head _)) 0 addTwo rfl).1 5 rfl, rfl⟩

example : captured (execute (editsComp [.reindex] (addCaptures halfComp w0)).1 4
      (editsComp [.reindex] (addCaptures halfComp w0)).2).2.1
    (execute (editsComp [.reindex] (addCaptures halfComp w0)).1 4 (editsComp [.reindex] (addCaptures halfComp w0)).2).2.2 (.int 4) =
      captured (editsComp [.reindex] (addCaptures halfComp w0)).1 (editsComp [.reindex] (addCaptures halfComp w0)).2 (.int 4) :=
  (C176_stale halfComp w0 (by simp [Dict.WF, halfComp, firstName]) halfComp_leaves [.reindex]
    (fun e he => by rw [List.mem_singleton.1 he]; trivial) 4 _ _ rfl (.int 4)).1 (.tail _ (.head _)) (by decide)

end Verif.Props
