import Verif.Lemmas.CompIdle
import Verif.Lemmas.CompTrack
import Verif.Model.CompViews
import Verif.Props.Composition
import Verif.Props.Structures
/-!
# C169-C171: sends and inserts for names that are not steps; the views of a Composition
-/
namespace Verif.Props
open Verif Verif.Model Verif.Spec Verif.Lemmas
variable {V X : Type}

/-! ## C169 -/

/-- C169: sends from, and inserts at, names that no step has, then or later, do nothing: without them, all the runs give the
same, and the world ends the same. `P` are the names that steps may have. -/
theorem C169_idle [PyNone V] (P : Name → Bool) (c : Comp V X) (hc : ∀ n ∈ stepIndex c, P n = true) (es : List (CompEdit V X))
    (he : ∀ e ∈ es, NamesWithin P e) (w : World V X) :
    outcomes es (c, w) = outcomes (es.filter fun e => !isIdle P e) (c, w) :=
  outcomes_idle es he (.refl P c) hc w

/-- C169: if all edits are sends and inserts for names that are not steps, runs give what they give without them -/
theorem C169_runs [PyNone V] (c : Comp V X) (es : List (CompEdit V X))
    (he : ∀ e ∈ es, isIdle (fun n => decide (n ∈ stepIndex c)) e = true) (signals : List V) (w : World V X) :
    outcomes (es ++ signals.map .run) (c, w) = outcomes (signals.map .run) (c, w) := by
  rw [C169_idle (fun n => decide (n ∈ stepIndex c)) c (fun n hn => by simpa using hn)]
  · rw [List.filter_append, List.filter_eq_nil_iff.2 (fun e h => by simp [he e h]), List.nil_append, List.filter_eq_self.2]
    intro e h
    obtain ⟨v, _, rfl⟩ := List.mem_map.1 h
    rfl
  · intro e h
    rcases List.mem_append.1 h with h | h
    · have := he e h
      cases e <;> first | trivial | cases this
    · obtain ⟨v, _, rfl⟩ := List.mem_map.1 h
      trivial

def lateName : Name := .str "late".toList

/-- sends from and inserts at a step that is not there: a pipe that raises, an argument too many -/
def idleEdits : List (CompEdit Int Unit) :=
  [.addSend lateName { pipe := some fun _ w => (.error .valueError, w), target := none, pointer := .none },
   .addInsert lateName (.int 0) 5]

def onlyAdd : Comp Int Unit := { steps := [(firstName, addTwo)] }

example : outcomes (idleEdits ++ [1, 2].map .run) (onlyAdd, w0) = outcomes ([1, 2].map .run) (onlyAdd, w0) :=
  C169_runs onlyAdd idleEdits (fun e h => by
    rcases h with _ | ⟨_, _ | ⟨_, h⟩⟩
    · decide +kernel
    · decide +kernel
    · cases h) [1, 2] w0

/-- they do something once there is such a step -/
example : (outcomes (idleEdits ++ [.run 1]) (onlyAdd, w0)).1 = [.ok 3] ∧
    (outcomes (idleEdits ++ [.addStep digitStep (some lateName), .run 1]) (onlyAdd, w0)).1 = [.error .valueError] := by
  constructor <;> rfl

/-! ## C170 -/

/-- the full claim: it does not matter whether the sends and inserts of a step are added before it or after it -/
def WiringBeforeOrAfter (V X : Type) [PyNone V] : Prop :=
  ∀ (c : Comp V X) (es : List (CompEdit V X)), (∀ e ∈ es, IsWiring e) → ∀ (s : Step V X) (name : Option Name)
    (rest : List (CompEdit V X)) (w : World V X),
    outcomes (es ++ .addStep s name :: rest) (c, w) = outcomes (.addStep s name :: es ++ rest) (c, w)

theorem outcomes_wiring [PyNone V] (e : CompEdit V X) (h : IsWiring e) (t : List (CompEdit V X)) (cw : Comp V X × World V X) :
    outcomes (e :: t) cw = outcomes t (editComp cw e) := by
  cases e <;> first | rfl | cases h

theorem wiring_swap [PyNone V] (c : Comp V X) (e : CompEdit V X) (h : IsWiring e) (ht : c.tracker = none ∨ IsInsert e)
    (s : Step V X) (name : Option Name) (w : World V X) :
    editComp (editComp (c, w) e) (.addStep s name) = editComp (editComp (c, w) (.addStep s name)) e ∧
    (editComp (c, w) e).1.tracker = c.tracker := by
  cases e with
  | addInsert n k v =>
    refine ⟨?_, rfl⟩
    simp only [editComp, addStep, addTrackSend, addInsert]
    rcases c.tracker with _ | t
    · rfl
    · simp only [addSend, Option.isNone_some, Bool.and_false, Bool.false_eq_true, if_false]
  | addSend n sd =>
    have ht : c.tracker = none := by rcases ht with h | h; exacts [h, h.elim]
    simp only [editComp, addSend]
    by_cases hx : (sd.target.isNone && sd.pipe.isNone) = true
    · simp only [if_pos hx, and_true]
    · simp only [if_neg hx, and_true, addStep, addTrackSend, ht]
  | _ => cases h

/-- C170, in part: it does not matter if the Composition has no tracker, or if they are all inserts -/
theorem C170_order_partial [PyNone V] (c : Comp V X) (es : List (CompEdit V X)) (hw : ∀ e ∈ es, IsWiring e)
    (ht : c.tracker = none ∨ ∀ e ∈ es, IsInsert e) (s : Step V X) (name : Option Name) (rest : List (CompEdit V X))
    (w : World V X) : outcomes (es ++ .addStep s name :: rest) (c, w) = outcomes (.addStep s name :: es ++ rest) (c, w) := by
  induction es generalizing c w with
  | nil => rfl
  | cons e t ih =>
    have h1 := wiring_swap c e (hw e (.head _)) (ht.imp id fun h => h e (.head _)) s name w
    have h2 : (editComp (c, w) e).2 = w := by
      have := hw e (.head _)
      cases e with
      | addSend n sd => simp only [editComp]; split <;> rfl
      | addInsert n k v => rfl
      | _ => cases this
    rw [List.cons_append, outcomes_wiring e (hw e (.head _))]
    have h3 := ih (editComp (c, w) e).1 (fun e h => hw e (.tail _ h))
      (ht.imp (fun h => h1.2.trans h) fun h e he => h e (.tail _ he)) w
    have h4 : ((editComp (c, w) e).1, w) = editComp (c, w) e := Prod.ext rfl h2.symm
    rw [h4] at h3
    rw [h3]
    show outcomes (t ++ rest) (editComp (editComp (c, w) e) (.addStep s name)) =
      outcomes (e :: (t ++ rest)) (editComp (c, w) (.addStep s name))
    rw [outcomes_wiring e (hw e (.head _)), h1.1]

example : outcomes (idleEdits ++ .addStep digitStep (some lateName) :: [.run 1]) (onlyAdd, w0) =
    outcomes (.addStep digitStep (some lateName) :: idleEdits ++ [.run 1]) (onlyAdd, w0) :=
  C170_order_partial onlyAdd idleEdits (fun e h => by
    rcases h with _ | ⟨_, _ | ⟨_, h⟩⟩
    · trivial
    · trivial
    · cases h) (Or.inl rfl) digitStep (some lateName) [.run 1] w0

/-- C170: the full claim is false: if the Composition has a tracker, a send that raises, added before the step, leaves no
record of the step having been done -/
theorem C170_full_false : ¬ WiringBeforeOrAfter Int Unit := by
  intro h
  have := h { onlyAdd with tracker := some logTracker } [idleEdits[0]] (fun e he => by
    rcases he with _ | ⟨_, he⟩
    · trivial
    · cases he) digitStep (some lateName) [.run 1] w0
  have := congrArg (fun r => r.2.log.length) this
  exact absurd this (by decide +kernel)

/-! ## C171 -/

theorem rowEdit_index [PyNone V] (c : Comp V X) (w : World V X) (e : CompEdit V X) :
    stepIndex (editComp (c, w) e).1 = rowEdit (stepIndex c) e := by
  have hadd : ∀ (n : Name) (s : Step V X), (c.steps.set n s).keys = rowAdd c.steps.keys n := fun n s => by
    rw [Dict.keys_set]; rfl
  have hr := AgreeOn.refl (fun _ => true) c
  cases e with
  | addStep s name =>
    simp only [editComp, addStep, stepIndex]
    rw [((AgreeOn.refl (fun _ => true) _).trackSend _ s).2]
    cases name with
    | none =>
      refine (hadd _ s).trans ?_
      simp only [rowEdit, Dict.keys, List.length_map, Option.getD_none]
    | some n => exact hadd n s
  | addSend n sd =>
    simp only [editComp, rowEdit]
    rcases hr.addSend n sd with ⟨x, h1, _⟩ | ⟨c', d', h1, _, _, h4⟩
    · rw [h1]
    · rw [h1]; exact congrArg Dict.keys h4
  | addInsert n k v => rfl
  | reindex =>
    have h := (C20_reindex c.steps).1
    have h2 : (stepIndex c).length = c.steps.length := by simp only [stepIndex, Dict.keys, List.length_map]
    simp only [rowEdit, h2, ← h]
    simp only [editComp, reindex, stepIndex, Dict.keys, List.map_map]
    rfl
  | track =>
    simp only [editComp, trackOn, rowEdit, stepIndex]
    rcases c.tracker with _ | t
    · exact congrArg Dict.keys ((AgreeOn.refl (fun _ => true) _).trackSends c.steps).2
    · rfl
  | captures => exact congrArg Dict.keys (hr.capturesLoop c.steps.keys [] w).2.2
  | run v => exact congrArg Dict.keys (execute_same c v w).steps

/-- C171: after any edits and runs, `index` lists the names of the steps in the order in which they were first added since the
last `reindex`; a name is not listed twice -/
theorem C171_index [PyNone V] (c : Comp V X) (es : List (CompEdit V X)) (w : World V X) :
    stepIndex (editsComp es (c, w)).1 = rowEdits (stepIndex c) es ∧
    ((stepIndex c).Nodup → (stepIndex (editsComp es (c, w)).1).Nodup) := by
  have h1 : stepIndex (editsComp es (c, w)).1 = rowEdits (stepIndex c) es := by
    induction es generalizing c w with
    | nil => rfl
    | cons e t ih =>
      have := ih (editComp (c, w) e).1 (editComp (c, w) e).2
      rw [rowEdit_index] at this
      exact this
  refine ⟨h1, ?_⟩
  rw [h1]
  have hadd : ∀ (row : List Name) n, row.Nodup → (rowAdd row n).Nodup := by
    intro row n h
    unfold rowAdd
    split
    · exact h
    · rename_i hn
      exact List.nodup_append.2 ⟨h, by simp, fun a ha b hb => by
        rw [List.mem_singleton.1 hb]; rintro rfl; exact hn ha⟩
  have hstep : ∀ (e : CompEdit V X) (row : List Name), row.Nodup → (rowEdit row e).Nodup := by
    intro e row h
    cases e with
    | addStep s name => cases name <;> exact hadd _ _ h
    | reindex =>
      refine List.Pairwise.map _ (fun a b hab => ?_) List.nodup_range
      intro he
      injection he with he
      exact hab (by exact_mod_cast he)
    | _ => exact h
  unfold rowEdits
  intro h
  clear h1
  generalize stepIndex c = row at h
  induction es generalizing row with
  | nil => exact h
  | cons e t ih => exact ih _ (hstep e row h)

example : stepIndex (editsComp [.addStep addTwo none, .run 3, .addStep timesThree (some lateName), .addStep addTwo (some firstName)]
    (onlyAdd, w0)).1 = [firstName, .int 2, lateName] :=
  (C171_index onlyAdd _ w0).1

/-- C171: a run that completes gives one output for each name in `index`, and leaves `index` as it is (that the steps
are called in this order is C26) -/
theorem C171_run_follows_index [PyNone V] (c : Comp V X) (v : V) (w : World V X) (outs : List V) (c' : Comp V X) (w' : World V X)
    (h : itercall c v w = (outs, none, c', w')) : outs.length = (stepIndex c).length ∧ stepIndex c' = stepIndex c := by
  constructor
  · rw [iterSteps_length h, stepIndex, Dict.keys, List.length_map]
  · have := (iterSteps_same c v c.steps w).steps
    rw [show iterSteps c v c.steps w = _ from h] at this
    exact congrArg Dict.keys this

example : (itercall { onlyAdd with steps := onlyAdd.steps ++ [(lateName, timesThree)] } 1 w0).1.length = 2 := by
  rfl

/-- the full claim: `function_names` gives one name for each step, in order -/
def NamesEachStep (V X : Type) : Prop :=
  ∀ (named : Step V X → Option Str) (c : Comp V X), ∃ l, functionNames named c = .ok l ∧
    l.map some = c.steps.values.map named

/-- C171, in part: it does so if every step has a `__name__` -/
theorem C171_function_names_partial (named : Step V X → Option Str) (c : Comp V X)
    (h : ∀ s ∈ c.steps.values, named s ≠ none) :
    ∃ l, functionNames named c = .ok l ∧ l.map some = c.steps.values.map named ∧ l.length = (stepIndex c).length := by
  have key : ∀ ss : List (Step V X), (∀ s ∈ ss, named s ≠ none) → ∃ l, nameAttrs named ss = .ok l ∧ l.map some = ss.map named := by
    intro ss hs
    induction ss with
    | nil => exact ⟨[], rfl, rfl⟩
    | cons s t ih =>
      obtain ⟨l, h1, h2⟩ := ih fun s hs' => hs s (.tail _ hs')
      obtain ⟨n, hn⟩ := Option.ne_none_iff_exists'.1 (hs s (.head _))
      exact ⟨n :: l, by simp only [nameAttrs, nameAttr, hn, h1], by simp [hn, h2]⟩
  obtain ⟨l, h1, h2⟩ := key _ h
  refine ⟨l, h1, h2, ?_⟩
  have := congrArg List.length h2
  simpa [stepIndex, Dict.keys, Dict.values] using this

/-- C171: with a step that has none, `function_names` raises `AttributeError` -/
theorem C171_function_names_raises (named : Step V X → Option Str) (c : Comp V X) (h : ∃ s ∈ c.steps.values, named s = none) :
    functionNames named c = .error .attributeError := by
  have key : ∀ ss : List (Step V X), (∃ s ∈ ss, named s = none) → nameAttrs named ss = .error .attributeError := by
    intro ss hs
    induction ss with
    | nil => obtain ⟨s, hs, _⟩ := hs; cases hs
    | cons s t ih =>
      cases hn : named s with
      | none => simp only [nameAttrs, nameAttr, hn]
      | some n =>
        have : nameAttrs named t = .error .attributeError := ih (by
          obtain ⟨s', hs', hn'⟩ := hs
          rcases List.mem_cons.1 hs' with rfl | hs'
          · rw [hn] at hn'; cases hn'
          · exact ⟨s', hs', hn'⟩)
        simp only [nameAttrs, nameAttr, hn, this]
  exact key _ h

/-- functions have names, `partial` objects have not -/
def plainName (s : Step Int Unit) : Option Str := if s.func.isSome then none else some "f".toList

example : ∃ l, functionNames plainName onlyAdd = .ok l ∧ l.map some = onlyAdd.steps.values.map plainName ∧ l.length = 1 :=
  C171_function_names_partial plainName onlyAdd (fun s h => by
    rcases List.mem_singleton.1 h with rfl
    decide +kernel)

/-- a pipeline with a `partial` object in it -/
def withPartial : Comp Int Unit := { steps := [(firstName, addTwo), (lateName, partialStep 4 digits [] [])] }

example : functionNames plainName withPartial = .error .attributeError :=
  C171_function_names_raises plainName withPartial ⟨_, .tail _ (.head _), rfl⟩

/-- C171: the full claim is false: `partial` objects, which Compositions are made for, have no `__name__` -/
theorem C171_full_false : ¬ NamesEachStep Int Unit := by
  intro h
  obtain ⟨l, h1, _⟩ := h plainName withPartial
  rw [C171_function_names_raises plainName withPartial ⟨_, .tail _ (.head _), rfl⟩] at h1
  cases h1

/-- C171: `_check_for_step` gives the step of a name in `index`, and raises `KeyError` for any other -/
theorem C171_check (c : Comp V X) (n : Name) :
    (n ∈ stepIndex c → ∃ s, checkForStep c n = .ok s ∧ (n, s) ∈ c.steps) ∧ (n ∉ stepIndex c → checkForStep c n = .error .keyError) := by
  constructor
  · intro h
    obtain ⟨s, hs⟩ := Option.isSome_iff_exists.1 (Dict.get?_isSome.2 h)
    exact ⟨s, by simp only [checkForStep, hs], Dict.mem_of_get? hs⟩
  · intro h
    simp only [checkForStep, Dict.get?_eq_none.2 h]

example : (firstName ∈ stepIndex onlyAdd → ∃ s, checkForStep onlyAdd firstName = .ok s ∧ (firstName, s) ∈ onlyAdd.steps) ∧
    checkForStep onlyAdd lateName = .error .keyError :=
  ⟨(C171_check onlyAdd firstName).1, (C171_check onlyAdd lateName).2 (by decide +kernel)⟩

end Verif.Props
