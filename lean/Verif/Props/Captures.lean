import Verif.Props.Composition
import Verif.Lemmas.CompCaptures
/-! # C30: captures -/
namespace Verif.Props
open Verif Verif.Model Verif.Spec Verif.Lemmas

variable {V X : Type}

/-- `c.captures[name]` -/
def captured (c : Comp V X) (w : World V X) (name : Name) : Option (List V) :=
  (c.captures.bind fun d => d.get? name).map w.lists

/-- `execute` on each of the signals in turn -/
def executeAll [PyNone V] : List V → Comp V X → World V X → Comp V X × World V X
  | [], c, w => (c, w)
  | v :: t, c, w => executeAll t (execute c v w).2.1 (execute c v w).2.2

/-- nothing the Composition calls or sends to touches lists that do not exist yet -/
structure LeavesNewLists (c : Comp V X) (w : World V X) : Prop where
  steps : ∀ n s, (n, s) ∈ c.steps → StepKeeps w.nextList c.steps.length s
  sends : ∀ n, ∀ sd ∈ sendsOf c n, SendKeeps w.nextList c.steps.length sd
  tracker : ∀ t, c.tracker = some t → ∀ r, Keeps w.nextList c.steps.length (t r)

/-- the state between runs -/
private structure Captured [PyNone V] (c : Comp V X) (w : World V X) (m : Nat) : Prop where
  sends : ∀ i (hi : i < c.steps.length), ∃ sds, sendsOf c (c.steps[i]).1 = sds ++ [captureSend (m + i)] ∧
    (∀ sd ∈ sds, SendKeeps m c.steps.length sd) ∧ StepKeeps m c.steps.length (c.steps[i]).2
  caps : c.captures = some ((Dict.keys c.steps).mapIdx fun i n => (n, m + i))
  tracker : ∀ t, c.tracker = some t → ∀ r, Keeps m c.steps.length (t r)
  lists : ∀ i, i < c.steps.length → (w.lists (m + i)).length = 1

private theorem addCaptures_captured [PyNone V] {c : Comp V X} {w : World V X} (wf : Dict.WF c.steps) (h : LeavesNewLists c w) :
    Captured (addCaptures c w).1 (addCaptures c w).2 w.nextList ∧ (addCaptures c w).1.steps = c.steps := by
  obtain ⟨h1, h2, h3, h4, h5, h6, h7, h8, h9⟩ := addCapturesLoop_spec (Dict.keys c.steps) wf c [] w
  change (addCaptures c w).1.steps = _ at h1
  change (addCaptures c w).1.tracker = _ at h2
  change (addCaptures c w).1.captures = _ at h5
  refine ⟨⟨?_, ?_, ?_, ?_⟩, h1⟩
  · rw [h1]
    intro i hi
    have h' := h6 i (by simpa [Dict.keys] using hi)
    refine ⟨sendsOf c (c.steps[i]).1, ?_, fun sd hsd => ?_, ?_⟩
    · simpa [Dict.keys, addCaptures] using h'
    · exact h.sends _ sd hsd
    · exact h.steps _ _ (List.getElem_mem hi)
  · rw [h1, h5]; simp
  · rw [h1, h2]; exact h.tracker
  · rw [h1]
    intro i hi
    have := h8 (w.nextList + i)
    change (addCaptures c w).2.lists _ = _ at this
    rw [this, if_pos ⟨Nat.le_add_right _ _, by simp [Dict.keys]; omega⟩]
    rfl

private theorem execute_lists [PyNone V] {c : Comp V X} {w : World V X} {m : Nat} (h : Captured c w m) (v : V) {i : Nat}
    (h1 : m ≤ i) (h2 : i < m + c.steps.length) : (execute c v w).2.2.lists i = (itercall c v w).2.2.2.lists i := by
  rw [execute]
  rcases itercall c v w with ⟨outs, e, c', w'⟩
  cases e with
  | none => rfl
  | some e =>
    simp only
    by_cases he : (fromGenerator e).isException = true
    · rw [if_pos he]
      cases ht : c.tracker with
      | none => rfl
      | some t =>
        rcases c.steps[outs.length]? with _ | ⟨n, s⟩
        · rfl
        · have hk := h.tracker t ht { target := s.ident, failure := some (fromGenerator e) } w' i h1 h2
          simp only
          rcases hd : t { target := s.ident, failure := some (fromGenerator e) } w' with ⟨r, w3⟩
          rw [hd] at hk
          cases r <;> exact hk
    · rw [if_neg he]

private theorem execute_captured [PyNone V] {c : Comp V X} {w : World V X} {m : Nat} (h : Captured c w m) (v : V) :
    Captured (execute c v w).2.1 (execute c v w).2.2 m ∧ (execute c v w).2.1.steps = c.steps ∧
    ∀ i, i < c.steps.length → (execute c v w).2.2.lists (m + i) =
      match (itercall c v w).1[i]? with | some x => [x] | none => w.lists (m + i) := by
  have hs := execute_same c v w
  have hit := (iterSteps_captures (m := m) (k := c.steps.length) c.steps 0 (c := c) v w (by simpa using h.sends) (by omega)
    (by simpa using h.lists)).1
  have hl : ∀ i, i < c.steps.length → (execute c v w).2.2.lists (m + i) =
      match (itercall c v w).1[i]? with | some x => [x] | none => w.lists (m + i) := by
    intro i hi
    rw [execute_lists h v (Nat.le_add_right _ _) (by omega)]
    have := hit i hi
    simp only [Nat.add_zero] at this
    exact this
  refine ⟨⟨?_, ?_, ?_, ?_⟩, hs.steps, hl⟩
  · simp only [sendsOf, hs.steps, hs.sends]
    exact h.sends
  · rw [hs.captures, hs.steps]; exact h.caps
  · rw [hs.tracker, hs.steps]; exact h.tracker
  · rw [hs.steps]
    intro i hi
    rw [hl i hi]
    cases (itercall c v w).1[i]? with
    | none => exact h.lists i hi
    | some x => rfl

private theorem executeAll_captured [PyNone V] {m : Nat} (vs : List V) {c : Comp V X} {w : World V X} (h : Captured c w m) :
    Captured (executeAll vs c w).1 (executeAll vs c w).2 m ∧ (executeAll vs c w).1.steps = c.steps := by
  induction vs generalizing c w with
  | nil => exact ⟨h, rfl⟩
  | cons v t ih =>
    obtain ⟨h1, h2, _⟩ := execute_captured h v
    obtain ⟨h3, h4⟩ := ih h1
    exact ⟨h3, h4.trans h2⟩

private theorem captured_eq [PyNone V] {c : Comp V X} {w : World V X} {m : Nat} (h : Captured c w m) (wf : Dict.WF c.steps) (w' : World V X)
    {i : Nat} (hi : i < c.steps.length) : captured c w' (c.steps[i]).1 = some (w'.lists (m + i)) := by
  rw [captured, h.caps]
  simp only [Option.bind_some]
  rw [Dict.get?_of_mem (v := m + i)]
  · rfl
  · simp only [Dict.WF, Dict.keys]
    rw [map_mapIdx]
    have : (List.map Prod.fst c.steps).mapIdx (fun _ n => n) = List.map Prod.fst c.steps := mapIdx_self _
    rw [this]
    exact wf
  · rw [List.mem_mapIdx]
    exact ⟨i, by simpa [Dict.keys] using hi, by simp [Dict.keys]⟩

/-- C30: captures are added once, then the Composition is executed any number of times. After each execution, the capture
of the step at each place `i` holds exactly the output of that step in this run, if the run got past it; otherwise it is
what it was before the run. -/
theorem C30_captures [PyNone V] (c : Comp V X) (w : World V X) (wf : Dict.WF c.steps) (hk : LeavesNewLists c w)
    (before : List V) (v : V) (c1 : Comp V X) (w1 : World V X)
    (h1 : executeAll before (addCaptures c w).1 (addCaptures c w).2 = (c1, w1)) (i : Nat) (hi : i < c.steps.length) :
    captured (execute c1 v w1).2.1 (execute c1 v w1).2.2 (c.steps[i]).1 =
      match (itercall c1 v w1).1[i]? with
      | some output => some [output]
      | none => captured c1 w1 (c.steps[i]).1 := by
  obtain ⟨ha, hs⟩ := addCaptures_captured wf hk
  obtain ⟨hb, hs2⟩ := executeAll_captured before ha
  rw [h1] at hb hs2
  simp only at hb hs2
  have hst : c1.steps = c.steps := hs2.trans hs
  obtain ⟨hc, hs3, hl⟩ := execute_captured hb v
  have e1 := captured_eq hc (by rw [hs3, hst]; exact wf) (execute c1 v w1).2.2 (i := i) (by rw [hs3, hst]; exact hi)
  have e2 := captured_eq hb (by rw [hst]; exact wf) w1 (i := i) (by rw [hst]; exact hi)
  simp only [hs3, hst] at e1
  simp only [hst] at e2
  rw [e1, e2, hl i (by rw [hst]; exact hi)]
  cases (itercall c1 v w1).1[i]? <;> rfl

/-- C30: in a run that raises nothing, every capture holds its step's output -/
theorem C30_success [PyNone V] (c : Comp V X) (w : World V X) (wf : Dict.WF c.steps) (hk : LeavesNewLists c w)
    (before : List V) (v : V) (c1 c2 : Comp V X) (w1 w2 : World V X) (outs : List V)
    (h1 : executeAll before (addCaptures c w).1 (addCaptures c w).2 = (c1, w1))
    (h2 : itercall c1 v w1 = (outs, none, c2, w2)) (i : Nat) (hi : i < c.steps.length) :
    ∃ x, outs[i]? = some x ∧
      captured (execute c1 v w1).2.1 (execute c1 v w1).2.2 (c.steps[i]).1 = some [x] := by
  have h := C30_captures c w wf hk before v c1 w1 h1 i hi
  have hlen := iterSteps_length (show iterSteps c1 v c1.steps w1 = (outs, none, c2, w2) from h2)
  obtain ⟨ha, hs⟩ := addCaptures_captured wf hk
  obtain ⟨hb, hs2⟩ := executeAll_captured before ha
  rw [h1] at hs2
  have hi' : i < outs.length := by
    rw [hlen, show c1.steps = c.steps from hs2.trans hs]; exact hi
  refine ⟨outs[i], List.getElem?_eq_getElem hi', ?_⟩
  rw [h, h2]
  simp only [List.getElem?_eq_getElem hi']

/-- a pipeline that halves, failing on odd numbers, between two others -/
def halve : Step Int Unit where
  ident := 7
  call := fun args _ w => match args with
    | [x] => if x % 2 = 0 then (.ok (x / 2), w) else (.error .valueError, w)
    | _ => (.error .typeError, w)

def halfComp : Comp Int Unit := { steps := [(firstName, addTwo), (.int 4, halve), (.none, timesThree)], tracker := some logTracker }

theorem halfComp_leaves : LeavesNewLists halfComp w0 where
  steps := by
    intro n s h
    simp only [halfComp, List.mem_cons, Prod.mk.injEq, List.not_mem_nil, or_false] at h
    rcases h with ⟨_, rfl⟩ | ⟨_, rfl⟩ | ⟨_, rfl⟩ <;> refine ⟨fun a k w i _ _ => ?_, fun f h => ?_⟩ <;> first | cases h | skip
    · simp only [addTwo, pureStep]; split <;> rfl
    · simp only [halve]
      split
      · split <;> rfl
      · rfl
    · simp only [timesThree, pureStep]; split <;> rfl
  sends := by intro n sd h; simp [sendsOf, halfComp] at h
  tracker := by
    intro t h r w i _ _
    cases h
    rfl

/-- first with 4, giving 6, 3, 9; then with 5, which fails at the second step -/
example : ∃ c1 w1, executeAll [4] (addCaptures halfComp w0).1 (addCaptures halfComp w0).2 = (c1, w1) ∧
    captured c1 w1 (.int 4) = some [3] ∧
    captured (execute c1 5 w1).2.1 (execute c1 5 w1).2.2 firstName = some [7] ∧
    captured (execute c1 5 w1).2.1 (execute c1 5 w1).2.2 (.int 4) = some [3] := by
  refine ⟨_, _, rfl, rfl, ?_, ?_⟩
  · exact C30_captures halfComp w0 (by simp [Dict.WF, halfComp, firstName]) halfComp_leaves [4] 5 _ _ rfl 0 (by decide)
  · exact C30_captures halfComp w0 (by simp [Dict.WF, halfComp, firstName]) halfComp_leaves [4] 5 _ _ rfl 1 (by decide)

end Verif.Props
