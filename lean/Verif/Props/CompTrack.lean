import Verif.Lemmas.CompTrack
/-!
# C147: what a tracked Composition notes after it has been edited
-/
namespace Verif.Props
open Verif Verif.Model Verif.Spec Verif.Lemmas
variable {V X : Type}

/-- a Composition, made with or without a tracker and then edited -/
def edited [PyNone V] (steps : SeqOrMap Name (Step V X)) (sends : Dict Name (List (Send V X))) (inserts : Dict Name (Dict Name V))
    (on optional : Bool) (es : List (CompEdit V X)) (w : World V X) : Comp V X :=
  (editsComp es (compInit steps sends inserts (if on then some logTracker else none) optional, w)).1

/-- the filing of it -/
def editedFiling [PyNone V] (steps : SeqOrMap Name (Step V X)) (on : Bool) (es : List (CompEdit V X)) : Filing :=
  (Filing.start ((compInit steps [] [] none false).steps.map fun p => (p.1, p.2.ident)) on).edits es

theorem edited_asFiled [PyNone V] (steps : SeqOrMap Name (Step V X)) (sends : Dict Name (List (Send V X)))
    (inserts : Dict Name (Dict Name V)) (on optional : Bool) (es : List (CompEdit V X)) (w : World V X)
    (hq : ∀ p ∈ (compInit steps [] [] none false).steps, QuietStep p.2)
    (hs : ∀ p ∈ sends, ∀ sd ∈ p.2, QuietSend sd) (he : ∀ e ∈ es, QuietEdit e) :
    AsFiled (edited steps sends inserts on optional es w) (editedFiling steps on es) := by
  have h0 : ∀ (sd : Dict Name (List (Send V X))) ins t o, (compInit steps sd ins t o).steps = (compInit steps [] [] none false).steps := by
    intro sd ins t o
    simp only [compInit, addTrackSends_steps]
  have := AsFiled.start steps sends inserts on optional (by rw [h0]; exact hq) hs
  rw [h0] at this
  exact this.edits es w he

/-- C147: after any edits, a run adds, for each step it completes and in order, one record for each function filed under the
name of the step (naming that function, and the step); a run that fails may add some, from the first on, of those filed
under the name of the step it failed at -/
theorem C147_log [PyNone V] (steps : SeqOrMap Name (Step V X)) (sends : Dict Name (List (Send V X)))
    (inserts : Dict Name (Dict Name V)) (on optional : Bool) (es : List (CompEdit V X)) (w0 : World V X)
    (hq : ∀ p ∈ (compInit steps [] [] none false).steps, QuietStep p.2)
    (hs : ∀ p ∈ sends, ∀ sd ∈ p.2, QuietSend sd) (he : ∀ e ∈ es, QuietEdit e)
    (v : V) (w : World V X) (outs : List V) (e : Option PyErr) (c' : Comp V X) (w' : World V X)
    (hr : itercall (edited steps sends inserts on optional es w0) v w = (outs, e, c', w')) :
    ∃ part, (e = none → part = []) ∧
      (∀ p, (editedFiling steps on es).steps[outs.length]? = some p → part <+: (editedFiling steps on es).records p.1) ∧
      w'.log = w.log ++ ((editedFiling steps on es).steps.take outs.length).flatMap (fun p => (editedFiling steps on es).records p.1)
        ++ part := by
  have h := edited_asFiled steps sends inserts on optional es w0 hq hs he
  obtain ⟨part, k1, k2, k3⟩ := iterSteps_recs _ _ h.quiet h.sends v w
  rw [show iterSteps _ v _ w = _ from hr] at k1 k2 k3
  refine ⟨part, k1, fun p hp => ?_, ?_⟩
  · rw [← h.steps, List.getElem?_map, Option.map_eq_some_iff] at hp
    obtain ⟨q, hq, rfl⟩ := hp
    exact k2 q hq
  · rw [k3]
    generalize editedFiling steps on es = F at h ⊢
    conv => rhs; rw [← h.steps, ← List.map_take, List.flatMap_map]

/-- C147: `execute` adds to that, if the Composition has a tracker and the run fails with an `Exception`, one record of the
function of the step it failed at (the one now at that place), with the exception -/
theorem C147_failure [PyNone V] (steps : SeqOrMap Name (Step V X)) (sends : Dict Name (List (Send V X)))
    (inserts : Dict Name (Dict Name V)) (on optional : Bool) (es : List (CompEdit V X)) (w0 : World V X)
    (hq : ∀ p ∈ (compInit steps [] [] none false).steps, QuietStep p.2)
    (hs : ∀ p ∈ sends, ∀ sd ∈ p.2, QuietSend sd) (he : ∀ e ∈ es, QuietEdit e)
    (v : V) (w : World V X) (outs : List V) (e : Option PyErr) (c' : Comp V X) (w' : World V X)
    (hr : itercall (edited steps sends inserts on optional es w0) v w = (outs, e, c', w')) :
    (e = none → outs.length = (editedFiling steps on es).steps.length ∧
      (execute (edited steps sends inserts on optional es w0) v w).2.2.log = w'.log) ∧
    (∀ x, e = some x → ∃ n i, (editedFiling steps on es).steps[outs.length]? = some (n, i) ∧
      (execute (edited steps sends inserts on optional es w0) v w).2.2.log =
        w'.log ++ if (editedFiling steps on es).on ∧ (fromGenerator x).isException then
          [{ target := i, failure := some (fromGenerator x) }] else []) := by
  have h := edited_asFiled steps sends inserts on optional es w0 hq hs he
  constructor
  · rintro rfl
    constructor
    · have : ∀ (l : Dict Name (Step V X)) (c : Comp V X) (v : V) (w : World V X), (iterSteps c v l w).2.1 = none →
          (iterSteps c v l w).1.length = l.length := by
        intro l
        induction l with
        | nil => intros; rfl
        | cons p t ih =>
          intro c v w
          obtain ⟨n, s⟩ := p
          rw [iterSteps]
          rcases doStep c n s v w with ⟨x, c1, w1⟩
          cases x with
          | error e => intro h; exact (nomatch h)
          | ok y =>
            intro h
            simpa using ih c1 y w1 h
      have := this _ (edited steps sends inserts on optional es w0) v w (by
        rw [show iterSteps _ v _ w = _ from hr])
      rw [show iterSteps _ v _ w = _ from hr] at this
      rw [← h.steps, List.length_map]
      exact this
    · rw [execute, hr]
  · rintro x rfl
    obtain ⟨n, s, _, _, h1, _, _⟩ := C31_stops_at_failing_step _ v w outs x c' w' hr
    refine ⟨n, s.ident, by rw [← h.steps, List.getElem?_map, h1]; rfl, ?_⟩
    have ho := h.on
    rw [execute, hr]
    simp only [h1, ho]
    by_cases hx : (fromGenerator x).isException = true
    · simp only [hx, if_true, and_true]
      cases (editedFiling steps on es).on with
      | true => simp only [if_true]; rfl
      | false => simp
    · simp [hx]

/-- the full claim: a run that completes adds exactly one record for each step, in order -/
def OneRecordEach (V X : Type) [PyNone V] : Prop :=
  ∀ (steps : SeqOrMap Name (Step V X)) (sends : Dict Name (List (Send V X))) (inserts : Dict Name (Dict Name V)) (optional : Bool)
    (es : List (CompEdit V X)) (w0 : World V X), (∀ p ∈ (compInit steps [] [] none false).steps, QuietStep p.2) →
    (∀ p ∈ sends, ∀ sd ∈ p.2, QuietSend sd) → (∀ e ∈ es, QuietEdit e) →
    ∀ (v : V) (w : World V X) (outs : List V) (c' : Comp V X) (w' : World V X),
    itercall (edited steps sends inserts true optional es w0) v w = (outs, none, c', w') →
    w'.log = w.log ++ (edited steps sends inserts true optional es w0).steps.map fun p => { target := p.2.ident, step := some p.1 }

/-- C147, in part: if steps were added only under names that were not taken, and the steps were not reindexed, then a run
adds exactly one record for each step it completes, in order, with its name and its function, if `track` was called or a
tracker given (and none otherwise); a run that fails adds at most one for the step it failed at -/
theorem C147_one_each_partial [PyNone V] (steps : SeqOrMap Name (Step V X)) (sends : Dict Name (List (Send V X)))
    (inserts : Dict Name (Dict Name V)) (on optional : Bool) (es : List (CompEdit V X)) (w0 : World V X)
    (hwf : (compInit steps [] [] none false).steps.WF)
    (hq : ∀ p ∈ (compInit steps [] [] none false).steps, QuietStep p.2)
    (hs : ∀ p ∈ sends, ∀ sd ∈ p.2, QuietSend sd) (he : ∀ e ∈ es, QuietEdit e)
    (hc : (Filing.start ((compInit steps [] [] none false).steps.map fun p => (p.1, p.2.ident)) on).AllCareful es)
    (v : V) (w : World V X) (outs : List V) (e : Option PyErr) (c' : Comp V X) (w' : World V X)
    (hr : itercall (edited steps sends inserts on optional es w0) v w = (outs, e, c', w')) :
    ∃ part, (e = none → part = []) ∧
      (∀ n s, (edited steps sends inserts on optional es w0).steps[outs.length]? = some (n, s) →
        part = [] ∨ part = [{ target := s.ident, step := some n }]) ∧
      (on = true ∨ .track ∈ es →
        w'.log = w.log ++ (((edited steps sends inserts on optional es w0).steps.take outs.length).map fun p =>
          { target := p.2.ident, step := some p.1 }) ++ part) ∧
      (¬ (on = true ∨ .track ∈ es) → w'.log = w.log) := by
  have h := edited_asFiled steps sends inserts on optional es w0 hq hs he
  obtain ⟨part, k1, k2, k3⟩ := C147_log steps sends inserts on optional es w0 hq hs he v w outs e c' w' hr
  have hone : OneEach (editedFiling steps on es) := OneEach.edits es (OneEach.start _ (by
    simpa [Dict.WF, Dict.keys, Function.comp_def] using hwf) on) hc
  have hon : ((editedFiling steps on es).on = true) ↔ (on = true ∨ .track ∈ es) := by
    have h0 : (Filing.start ((compInit steps [] [] none false).steps.map fun p => (p.1, p.2.ident)) on).on = on := (fileAll_steps _ _).2
    unfold editedFiling
    generalize Filing.start ((compInit steps [] [] none false).steps.map fun p => (p.1, p.2.ident)) on = G at h0
    subst h0
    clear hr h hone k1 k2 k3 he hc
    induction es generalizing G with
    | nil => simp [Filing.edits]
    | cons a t ih =>
      have := ih (G.edit a)
      simp only [Filing.edits, List.foldl_cons] at this ⊢
      refine this.trans ?_
      cases a <;> simp [Filing.edit, (file_steps _ _ _).2]
      by_cases hg : G.on = true
      · simp [hg]
      · simp [hg, (fileAll_steps _ _).2]
  have hst := h.steps
  have hrec : ∀ p ∈ (edited steps sends inserts on optional es w0).steps, (editedFiling steps on es).records p.1 =
      if (editedFiling steps on es).on then [{ target := p.2.ident, step := some p.1 }] else [] := by
    intro p hp
    rw [Filing.records, hone.2 p.1]
    have : (p.1, p.2.ident) ∈ (editedFiling steps on es).steps := by
      rw [← hst]; exact List.mem_map.mpr ⟨p, hp, rfl⟩
    rw [Dict.get?_of_mem hone.1 this]
    split <;> rfl
  have hpart : ∀ n s, (edited steps sends inserts on optional es w0).steps[outs.length]? = some (n, s) →
      part <+: if (editedFiling steps on es).on then [{ target := s.ident, step := some n }] else [] := by
    intro n s hp
    have h1 := k2 (n, s.ident) (by rw [← hst, List.getElem?_map, hp]; rfl)
    rwa [hrec (n, s) (List.mem_of_getElem? hp)] at h1
  have hlog : ∀ l : Dict Name (Step V X), (∀ p ∈ l, p ∈ (edited steps sends inserts on optional es w0).steps) →
      l.flatMap (fun p => (editedFiling steps on es).records p.1) = if (editedFiling steps on es).on then
        l.map fun p => { target := p.2.ident, step := some p.1 } else [] := by
    intro l
    induction l with
    | nil => intro _; simp
    | cons p t ih =>
      intro hl
      rw [List.flatMap_cons, hrec p (hl p List.mem_cons_self), ih fun q hq => hl q (List.mem_cons_of_mem _ hq)]
      split <;> simp
  have hlog' : ((editedFiling steps on es).steps.take outs.length).flatMap (fun p => (editedFiling steps on es).records p.1) =
      if (editedFiling steps on es).on then ((edited steps sends inserts on optional es w0).steps.take outs.length).map fun p =>
        { target := p.2.ident, step := some p.1 } else [] := by
    rw [← hlog _ fun p hp => List.mem_of_mem_take hp]
    generalize editedFiling steps on es = F at hst ⊢
    conv => lhs; rw [← hst, ← List.map_take, List.flatMap_map]
  rw [hlog'] at k3
  refine ⟨part, k1, fun n s hp => ?_, fun ho => ?_, fun ho => ?_⟩
  · have h1 := hpart n s hp
    split at h1
    · rcases part with _ | ⟨a, t⟩
      · exact .inl rfl
      · right
        obtain ⟨u, hu⟩ := h1
        simp only [List.cons_append, List.cons.injEq, List.append_eq_nil_iff] at hu
        rw [hu.1, hu.2.1]
    · exact .inl (List.prefix_nil.mp h1)
  · rw [k3, if_pos (hon.mpr ho)]
  · have hno : ¬ (editedFiling steps on es).on = true := fun hh => ho (hon.mp hh)
    rw [if_neg hno] at k3
    have : part = [] := by
      cases e with
      | none => exact k1 rfl
      | some x =>
        obtain ⟨n, s, _, _, h1, _, _⟩ := C31_stops_at_failing_step _ v w outs x c' w' hr
        have := hpart n s h1
        rw [if_neg hno] at this
        exact List.prefix_nil.mp this
    rw [k3, this]
    simp

theorem quiet_pure (i : Nat) (f : Int → Except PyErr Int) : QuietStep (pureStep (X := Unit) i f) := by
  refine ⟨fun args kw w => ?_, fun g hg => by simp [pureStep] at hg⟩
  simp only [pureStep]
  split <;> rfl

/-- C147, the other part: a step replaced with `add_step` is noted twice in each run, first with the function it replaced -/
theorem C147_replaced : ∃ c : Comp Int Unit, c = edited (.iterable [addTwo]) [] [] true false [.addStep timesThree (some (.int 0))] w0 ∧
    c.steps = [(.int 0, timesThree)] ∧ (execute c 1 w0).1 = .ok 3 ∧
    (execute c 1 w0).2.2.log = [{ target := 1, step := some (.int 0) }, { target := 2, step := some (.int 0) }] :=
  ⟨_, rfl, rfl, rfl, rfl⟩

/-- C147, the other part: after `reindex` a step is noted under the name and with the function filed there before, or not at
all -/
theorem C147_reindexed : ∃ c : Comp Int Unit,
    c = edited (.mapping [(.int 1, addTwo), (.int 2, timesThree)]) [] [] true false [.reindex] w0 ∧
    c.steps = [(.int 0, addTwo), (.int 1, timesThree)] ∧ (execute c 1 w0).1 = .ok 9 ∧
    (execute c 1 w0).2.2.log = [{ target := 1, step := some (.int 1) }] :=
  ⟨_, rfl, rfl, rfl, rfl⟩

/-- C147: so the full claim fails -/
theorem C147_one_each_full_fails : ¬ OneRecordEach Int Unit := by
  intro h
  have := h (.iterable [addTwo]) [] [] false [.addStep timesThree (some (.int 0))] w0
    (by intro p hp; cases hp with | head => exact quiet_pure _ _ | tail _ h => exact (nomatch h))
    (fun p hp => (nomatch hp)) (by intro e he; simp at he; subst he; exact quiet_pure _ _) 1 w0 [3] _ _ rfl
  have := congrArg List.length this
  exact absurd this (by decide)

/-- a Composition made without a tracker, given one, given another step, captured, and run -/
def trackEdits : List (CompEdit Int Unit) :=
  [.track, .addStep oops none, .captures, .addSend (.int 0) ⟨none, some (.stepInt 1), .str "k".toList⟩, .run 4]

example : ∃ part, ((none : Option PyErr) = none → part = []) ∧
    (∀ p, (editedFiling (.iterable [addTwo]) false [.track, .addStep timesThree none]).steps[2]? = some p →
      part <+: (editedFiling (.iterable [addTwo]) false [.track, .addStep timesThree none]).records p.1) ∧
    ([{ target := 1, step := some (.int 0) }, { target := 2, step := some (.int 2) }] : List TrackRec) = [] ++
      ((editedFiling (.iterable [addTwo]) false [.track, .addStep timesThree none]).steps.take 2).flatMap
        (fun p => (editedFiling (.iterable [addTwo]) false [.track, .addStep timesThree none]).records p.1) ++ part :=
  C147_log (.iterable [addTwo]) [] [] false false [.track, .addStep timesThree none] w0
    (by intro p hp; cases hp with | head => exact quiet_pure _ _ | tail _ h => exact (nomatch h))
    (fun p hp => (nomatch hp)) (by intro e he; simp at he; rcases he with rfl | rfl; trivial; exact quiet_pure _ _) 1 w0 [3, 9] none _ _ rfl

/-- the run among the edits is noted, and so is the one after them -/
example : (execute (edited (.iterable [addTwo]) [] [] false true trackEdits w0) 1
      (editsComp trackEdits (compInit (.iterable [addTwo]) [] [] none true, w0)).2).2.2.log =
    [{ target := 1, step := some (.int 0) }, { target := 3, failure := some .zeroDivision },
      { target := 1, step := some (.int 0) }, { target := 3, failure := some .zeroDivision }] := rfl

example : (Filing.start [(.int 0, 1)] false).AllCareful trackEdits := by
  simp [Filing.AllCareful, trackEdits, Filing.Careful, Filing.start, Filing.fileAll, Filing.file, Filing.edit, Filing.nameFor, Dict.keys]

example : ∃ w', (itercall (edited (.iterable [addTwo]) [] [] true false [.addStep timesThree none] w0) 1 w0).2.2.2 = w' ∧
    w'.log = ((edited (.iterable [addTwo]) [] [] true false [.addStep timesThree none] w0).steps.take 2).map fun p =>
      { target := p.2.ident, step := some p.1 } := by
  obtain ⟨part, h1, _, h2, _⟩ := C147_one_each_partial (.iterable [addTwo]) [] [] true false [.addStep timesThree none] w0
    (by simp [Dict.WF, compInit_steps])
    (by intro p hp; cases hp with | head => exact quiet_pure _ _ | tail _ h => exact (nomatch h))
    (fun p hp => (nomatch hp)) (by intro e he; simp at he; subst he; exact quiet_pure _ _)
    ⟨by simp only [Filing.Careful]; decide, trivial⟩ 1 w0 [3, 9] none _ _ rfl
  have := h2 (.inl rfl)
  rw [h1 rfl, List.append_nil] at this
  exact ⟨_, rfl, this⟩

end Verif.Props
