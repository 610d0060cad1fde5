import Verif.Spec.CompSelf
import Verif.Props.CompIdle
/-!
# C172: steps that edit the Composition they are in
-/
namespace Verif.Props
open Verif Verif.Model Verif.Spec Verif.Lemmas
variable {V X : Type}

theorem editsComp_cons [PyNone V] (e : CompEdit V X) (es : List (CompEdit V X)) (cw : Comp V X × World V X) :
    editsComp (e :: es) cw = editsComp es (editComp cw e) := rfl

theorem rowAdd_mem {row : List Name} {n : Name} (h : n ∈ row) : rowAdd row n = row := if_pos h

theorem rowEdits_steady {row : List Name} (es : List (CompEdit V X)) (h : ∀ e ∈ es, SteadyEdit row e) : rowEdits row es = row := by
  induction es with
  | nil => rfl
  | cons e t ih =>
    have he := h e (.head _)
    have : rowEdit row e = row := by
      cases e with
      | addStep s name =>
        cases name with
        | none => exact he.elim
        | some n => exact rowAdd_mem he
      | reindex => exact he.elim
      | _ => rfl
    unfold rowEdits
    rw [List.foldl_cons, this]
    exact ih fun e h' => h e (.tail _ h')

theorem edits_keys [PyNone V] {names : List Name} (es : List (CompEdit V X)) (h : ∀ e ∈ es, SteadyEdit names e) (c : Comp V X)
    (hk : c.steps.keys = names) (w : World V X) : (editsComp es (c, w)).1.steps.keys = names := by
  have := (C171_index c es w).1
  rw [show stepIndex c = names from hk, rowEdits_steady es h] at this
  exact this

theorem lostBy_none [PyNone V] (es : List (CompEdit V X)) (h : ∀ e ∈ es, NotReindex e) (cw : Comp V X × World V X) :
    lostBy cw none es = none := by
  induction es generalizing cw with
  | nil => rfl
  | cons e t ih =>
    have := ih (fun e h' => h e (.tail _ h')) (editComp cw e)
    cases e with
    | reindex => exact (h .reindex (.head _)).elim
    | _ => exact this

theorem steady_notReindex {names : List Name} {e : CompEdit V X} (h : SteadyEdit names e) : NotReindex e := by
  cases e with
  | reindex => exact h.elim
  | _ => trivial

theorem selfDo_keys [PyNone V] {names : List Name} {plan : SelfPlan V X} (hp : ∀ s v, ∀ e ∈ plan s v, SteadyEdit names e)
    (c : Comp V X) (hk : c.steps.keys = names) (n : Name) (s : Step V X) (v : V) (w : World V X) :
    (selfDo plan c n s v w).2.1.steps.keys = names := by
  unfold selfDo
  rcases callStep c n s v w with ⟨r, w'⟩
  have h1 := edits_keys (plan s v) (hp s v) c hk w'
  cases r with
  | error e => exact h1
  | ok y =>
    simp only
    rcases he : editsComp (plan s v) (c, w') with ⟨c1, w1⟩
    rw [he] at h1
    have h2 := (performSendList_same c1 y ((c1.sends.get? n).getD []) w1).steps
    simp only [performSends]
    rcases hq : performSendList c1 y ((c1.sends.get? n).getD []) w1 with ⟨r, c2, w2⟩
    rw [hq] at h2
    have h3 : c2.steps.keys = names := (congrArg Dict.keys h2).trans h1
    cases r <;> exact h3

theorem length_of_keys {c : Comp V X} {names : List Name} (h : c.steps.keys = names) : c.steps.length = names.length := by
  rw [← h, Dict.keys, List.length_map]

/-- C172: a run without edits is a run of `execute` -/
theorem C172_plain [PyNone V] (c : Comp V X) (wf : c.steps.WF) (v : V) (w : World V X) :
    selfExecute (fun _ _ => []) c v w = execute c v w := by
  have hdo : ∀ (c : Comp V X) n s v w, selfDo (fun _ _ => []) c n s v w = doStep c n s v w := by
    intro c n s v w
    unfold selfDo doStep
    rcases callStep c n s v w with ⟨r, w'⟩
    cases r with
    | error e => rfl
    | ok y =>
      simp only [editsComp, List.foldl_nil]
      rcases performSends c n y w' with ⟨r, c2, w2⟩
      cases r <;> rfl
  have key : ∀ (l : Dict Name (Step V X)), (∀ p ∈ l, p ∈ c.steps) → ∀ (d : Comp V X), d.steps = c.steps → ∀ v w,
      selfIter (fun _ _ => []) c.steps.length none d v l.keys w = iterSteps d v l w := by
    intro l
    induction l with
    | nil =>
      intro _ d hd v w
      simp only [Dict.keys_nil, selfIter, iterSteps, hd, Option.getD_none, ne_eq, not_true_eq_false, if_false]
    | cons p t ih =>
      intro hl d hd v w
      obtain ⟨n, s⟩ := p
      have hn : d.steps.get? n = some s := by rw [hd]; exact Dict.get?_of_mem wf (hl _ (.head _))
      have hx : ¬ (Option.getD none (List.length d.steps) ≠ c.steps.length) := by simp [hd]
      rw [Dict.keys_cons, selfIter, if_neg hx, hn, iterSteps]
      simp only [hdo, lostBy]
      have hs := (doStep_same d n s v w).steps
      rcases hq : doStep d n s v w with ⟨r, d1, w1⟩
      rw [hq] at hs
      cases r with
      | error e => rfl
      | ok y =>
        simp only
        rw [ih (fun p hp => hl p (.tail _ hp)) d1 (hs.trans hd) y w1]
  rw [selfExecute, execute, itercall, key c.steps (fun _ h => h) c rfl v w]
  have hs := iterSteps_same c v c.steps w
  rcases hq : iterSteps c v c.steps w with ⟨outs, e, c', w'⟩
  rw [hq] at hs
  cases e with
  | none => rfl
  | some e =>
    have h1 : c'.tracker = c.tracker := hs.tracker
    have h2 : c'.steps = c.steps := hs.steps
    have h3 : c'.optional = c.optional := hs.optional
    simp only [h1, h2, h3]
    rcases c.tracker with _ | t
    · rfl
    · rcases c.steps[outs.length]? with _ | ⟨n, s⟩
      · rfl
      · rfl

example : selfExecute (fun _ _ => []) withPartial 3 w0 = execute withPartial 3 w0 :=
  C172_plain withPartial (by unfold Dict.WF; decide +kernel) 3 w0

/-- C172: if steps only replace steps, and add sends, inserts, captures and a tracker, each step is called as it is when it is
reached, with the sends and inserts it has by then: after the steps `pre` the run goes on with the step that then has the name
`n` -/
theorem C172_next_is_as_now [PyNone V] (plan : SelfPlan V X) (names : List Name) (hp : ∀ s v, ∀ e ∈ plan s v, SteadyEdit names e)
    (pre : List Name) (n : Name) (t : List Name) (hn : n ∈ names) (c : Comp V X) (hk : c.steps.keys = names) (v : V) (w : World V X)
    (outs : List V) (c' : Comp V X) (w' : World V X) (h : selfIter plan names.length none c v pre w = (outs, none, c', w')) :
    ∃ s, c'.steps.get? n = some s ∧
      selfIter plan names.length none c v (pre ++ n :: t) w =
        match selfDo plan c' n s (outs.getLast?.getD v) w' with
        | (.error e, c'', w'') => (outs, some e, c'', w'')
        | (.ok y, c'', w'') => (outs ++ y :: (selfIter plan names.length none c'' y t w'').1,
            (selfIter plan names.length none c'' y t w'').2) := by
  induction pre generalizing c v w outs with
  | nil =>
    have hx : ¬ (Option.getD none (List.length c.steps) ≠ names.length) := by simp [length_of_keys hk]
    rw [selfIter, if_neg hx] at h
    simp only [Prod.mk.injEq, true_and] at h
    obtain ⟨rfl, rfl, rfl⟩ := h
    obtain ⟨s, hs⟩ := Option.isSome_iff_exists.1 (Dict.get?_isSome.2 (by rw [hk]; exact hn : n ∈ c.steps.keys))
    refine ⟨s, hs, ?_⟩
    rw [List.nil_append, selfIter, if_neg hx, hs]
    simp only [lostBy_none _ (fun e he => steady_notReindex (hp s v e he)), List.getLast?_nil, Option.getD_none]
    rcases selfDo plan c n s v w with ⟨r, c1, w1⟩
    cases r <;> simp
  | cons m pre ih =>
    have hx : ¬ (Option.getD none (List.length c.steps) ≠ names.length) := by simp [length_of_keys hk]
    rw [selfIter, if_neg hx] at h
    rw [List.cons_append, selfIter, if_neg hx]
    cases hm : c.steps.get? m with
    | none => rw [hm] at h; cases h
    | some s =>
      have hl : lostBy (c, (callStep c m s v w).2) none (plan s v) = none :=
        lostBy_none _ (fun e he => steady_notReindex (hp s v e he)) _
      simp only [hm, hl] at h
      simp only [hl]
      have hkd := selfDo_keys hp c hk m s v w
      rcases hq : selfDo plan c m s v w with ⟨r, c1, w1⟩
      rw [hq] at h hkd
      cases r with
      | error e => cases h
      | ok y =>
        simp only at h hkd ⊢
        rcases hi : selfIter plan names.length none c1 y pre w1 with ⟨outs1, e1, c2, w2⟩
        rw [hi] at h
        injection h with h1 h2
        injection h2 with h2 h3
        injection h3 with h3 h4
        subst h1 h2 h3 h4
        obtain ⟨s', hs', hrun⟩ := ih c1 hkd y w1 outs1 hi
        refine ⟨s', hs', ?_⟩
        rw [hrun]
        have hlast : (y :: outs1).getLast?.getD v = outs1.getLast?.getD y := by
          rw [List.getLast?_cons]; rfl
        rw [hlast]
        rcases selfDo plan c2 n s' (outs1.getLast?.getD y) w2 with ⟨r, c3, w3⟩
        cases r <;> rfl

/-- the full claim: if no step raises, steps may add and replace steps (that do not raise either), add inserts and reindex while the
Composition runs, and the run completes -/
def StepsMayEdit (V X : Type) [PyNone V] : Prop :=
  ∀ (plan : SelfPlan V X), (∀ s v, ∀ e ∈ plan s v, GentleEdit e) → ∀ (c : Comp V X), c.steps.WF → c.sends = [] → c.tracker = none →
    (∀ p ∈ c.steps, TotalStep p.2) → ∀ (v : V) (w : World V X), ∃ y, (selfExecute plan c v w).1 = .ok y

/-- what holds of a Composition while its steps make gentle edits -/
structure Gentle (c : Comp V X) : Prop where
  sends : c.sends = []
  tracker : c.tracker = none
  steps : ∀ p ∈ c.steps, TotalStep p.2

theorem Gentle.edits [PyNone V] (es : List (CompEdit V X)) (he : ∀ e ∈ es, GentleEdit e) {names : List Name}
    (hs : ∀ e ∈ es, SteadyEdit names e) {c : Comp V X} (h : Gentle c) (w : World V X) : Gentle (editsComp es (c, w)).1 := by
  induction es generalizing c w with
  | nil => exact h
  | cons e t ih =>
    rw [editsComp_cons]
    have : Gentle (editComp (c, w) e).1 := by
      have hg := he e (.head _)
      have hst := hs e (.head _)
      cases e with
      | addStep s name =>
        simp only [editComp, addStep, addTrackSend, h.tracker]
        refine ⟨h.sends, rfl, fun p hp => ?_⟩
        rcases mem_steps_set hp with hp | rfl
        · exact h.steps p hp
        · exact hg
      | addInsert n k v => exact ⟨h.sends, h.tracker, h.steps⟩
      | reindex => exact hst.elim
      | _ => exact hg.elim
    exact ih (fun e h' => he e (.tail _ h')) (fun e h' => hs e (.tail _ h')) this _

/-- C172, in part: the run completes, with one output for each step, if the steps that are added replace steps, and there is no
reindexing -/
theorem C172_completes_partial [PyNone V] (plan : SelfPlan V X) (c : Comp V X)
    (hp : ∀ s v, ∀ e ∈ plan s v, GentleEdit e ∧ SteadyEdit c.steps.keys e) (hs : c.sends = []) (ht : c.tracker = none)
    (htot : ∀ p ∈ c.steps, TotalStep p.2) (v : V) (w : World V X) :
    ∃ outs c' w', selfIter plan c.steps.length none c v c.steps.keys w = (outs, none, c', w') ∧ outs.length = c.steps.length ∧
      c'.steps.keys = c.steps.keys ∧ selfExecute plan c v w = (.ok (outs.getLast?.getD PyNone.none), c', w') := by
  have key : ∀ (l : List Name), (∀ n ∈ l, n ∈ c.steps.keys) → ∀ (d : Comp V X), d.steps.keys = c.steps.keys → Gentle d → ∀ v w,
      ∃ outs c' w', selfIter plan c.steps.length none d v l w = (outs, none, c', w') ∧ outs.length = l.length ∧
        c'.steps.keys = c.steps.keys := by
    intro l
    induction l with
    | nil =>
      intro _ d hk hd v w
      have hlen : d.steps.length = c.steps.length := (length_of_keys hk).trans (length_of_keys rfl).symm
      refine ⟨[], d, w, ?_, rfl, hk⟩
      rw [selfIter, if_neg (by simp [hlen])]
    | cons n t ih =>
      intro hl d hk hd v w
      have hlen : d.steps.length = c.steps.length := (length_of_keys hk).trans (length_of_keys rfl).symm
      obtain ⟨s, hn⟩ := Option.isSome_iff_exists.1 (Dict.get?_isSome.2 (by rw [hk]; exact hl n (.head _) : n ∈ d.steps.keys))
      obtain ⟨hf, hcall⟩ : TotalStep s := hd.steps (n, s) (Dict.mem_of_get? hn)
      have hl0 : lostBy (d, (callStep d n s v w).2) none (plan s v) = none :=
        lostBy_none _ (fun e he => steady_notReindex (hp s v e he).2) _
      rw [selfIter, if_neg (by simp [hlen]), hn]
      simp only [hl0]
      have hc : ∃ y w', callStep d n s v w = (.ok y, w') := by
        simp only [callStep, hf, callWith]
        split
        · obtain ⟨y, hy⟩ := hcall [v] (strArgs ((d.inserts.get? n).getD [])) w
          exact ⟨y, _, Prod.ext hy rfl⟩
        · obtain ⟨y, hy⟩ := hcall (flowSignal v (intArgs ((d.inserts.get? n).getD []))) (strArgs ((d.inserts.get? n).getD [])) w
          exact ⟨y, _, Prod.ext hy rfl⟩
      obtain ⟨y, w1, hc⟩ := hc
      have hg := hd.edits (plan s v) (fun e he => (hp s v e he).1) (fun e he => (hp s v e he).2) w1
      have hk1 := edits_keys (plan s v) (fun e he => (hp s v e he).2) d hk w1
      have hdo : selfDo plan d n s v w = (.ok y, editsComp (plan s v) (d, w1)) := by
        simp only [selfDo, hc]
        rcases hq : editsComp (plan s v) (d, w1) with ⟨c1, w2⟩
        rw [hq] at hg
        have : performSends c1 n y w2 = (.ok (), c1, w2) := by
          have hs1 : c1.sends = [] := hg.sends
          simp only [performSends, hs1, Dict.get?_nil, Option.getD_none, performSendList]
        simp only [this]
      rw [hdo]
      rcases hq : editsComp (plan s v) (d, w1) with ⟨c1, w2⟩
      rw [hq] at hg hk1
      obtain ⟨outs, c', w', h1, h2, h3⟩ := ih (fun m hm => hl m (.tail _ hm)) c1 hk1 hg y w2
      exact ⟨y :: outs, c', w', by simp only [h1], by simp [h2], h3⟩
  obtain ⟨outs, c', w', h1, h2, h3⟩ := key c.steps.keys (fun _ h => h) c rfl ⟨hs, ht, htot⟩ v w
  refine ⟨outs, c', w', h1, ?_, h3, ?_⟩
  · rw [h2, Dict.keys, List.length_map]
  · rw [selfExecute, h1]

/-- C172: a run in which a step was added under a new name does not complete, whatever step it was (unless the steps were
reindexed) -/
theorem C172_grown [PyNone V] (plan : SelfPlan V X) (hp : ∀ s v, ∀ e ∈ plan s v, NotReindex e) (c : Comp V X) (v : V) (w : World V X)
    (outs : List V) (e : Option PyErr) (c' : Comp V X) (w' : World V X)
    (h : selfIter plan c.steps.length none c v c.steps.keys w = (outs, e, c', w')) (hg : c'.steps.length ≠ c.steps.length) :
    e ≠ none := by
  have key : ∀ (size : Nat) (l : List Name) (d : Comp V X) (v : V) (w : World V X) (outs : List V) (c' : Comp V X) (w' : World V X),
      selfIter plan size none d v l w = (outs, none, c', w') → c'.steps.length = size := by
    intro size l
    induction l with
    | nil =>
      intro d v w outs c' w' h
      rw [selfIter] at h
      split at h
      · cases h
      · rename_i hx
        cases h
        simpa using hx
    | cons n t ih =>
      intro d v w outs c' w' h
      rw [selfIter] at h
      split at h
      · cases h
      · cases hn : d.steps.get? n with
        | none => rw [hn] at h; cases h
        | some s =>
          simp only [hn, lostBy_none _ (hp s v)] at h
          rcases hq : selfDo plan d n s v w with ⟨r, d1, w1⟩
          rw [hq] at h
          cases r with
          | error e => cases h
          | ok y =>
            simp only at h
            rcases hi : selfIter plan size none d1 y t w1 with ⟨outs1, e1, c2, w2⟩
            rw [hi] at h
            injection h with h1 h2
            injection h2 with h2 h3
            injection h3 with h3 h4
            subst h2 h3
            exact ih d1 y w1 outs1 c2 w2 hi
  rintro rfl
  exact hg (key _ _ _ _ _ _ _ _ h)

/-- a function of any arguments -/
def anyStep (ident : Nat) (k : Int) : Step Int Unit := { ident, call := fun args _ w => (.ok (args.foldl (· + ·) k), w) }

theorem anyStep_total (ident : Nat) (k : Int) : TotalStep (anyStep ident k) := ⟨rfl, fun _ _ _ => ⟨_, rfl⟩⟩

/-- two steps; the first replaces the second -/
def editPair : Comp Int Unit := { steps := [(firstName, anyStep 1 1), (lateName, anyStep 2 10)] }
def replacePlan : SelfPlan Int Unit := fun s _ => if s.ident = 1 then [.addStep (anyStep 3 100) (some lateName), .addInsert lateName (.int 0) 1000] else []

theorem replacePlan_ok : ∀ s v, ∀ e ∈ replacePlan s v, GentleEdit e ∧ SteadyEdit editPair.steps.keys e := by
  intro s v e he
  unfold replacePlan at he
  split at he
  · rcases he with _ | ⟨_, _ | ⟨_, he⟩⟩
    · exact ⟨anyStep_total _ _, .tail _ (.head _)⟩
    · exact ⟨trivial, trivial⟩
    · cases he
  · cases he

example : ∃ outs c' w', selfIter replacePlan 2 none editPair 5 editPair.steps.keys w0 = (outs, none, c', w') ∧ outs.length = 2 ∧
    c'.steps.keys = editPair.steps.keys ∧ selfExecute replacePlan editPair 5 w0 = (.ok (outs.getLast?.getD PyNone.none), c', w') :=
  C172_completes_partial replacePlan editPair replacePlan_ok rfl rfl (fun p hp => by
    rcases hp with _ | ⟨_, _ | ⟨_, hp⟩⟩
    · exact anyStep_total _ _
    · exact anyStep_total _ _
    · cases hp) 5 w0

/-- the new step is called in the same run, with the insert -/
example : (selfExecute replacePlan editPair 5 w0).1 = .ok 1106 := rfl

example : ∃ s, (selfIter replacePlan 2 none editPair 5 [firstName] w0).2.2.1.steps.get? lateName = some s := by
  obtain ⟨s, h, _⟩ := C172_next_is_as_now replacePlan editPair.steps.keys (fun s v e he => (replacePlan_ok s v e he).2) [firstName]
    lateName [] (.tail _ (.head _)) editPair rfl 5 w0 [6] _ _ rfl
  exact ⟨s, h⟩

/-- the last step adds another -/
def growPlan : SelfPlan Int Unit := fun s _ => if s.ident = 2 then [.addStep (anyStep 3 100) none] else []

theorem growPlan_ok : ∀ s v, ∀ e ∈ growPlan s v, GentleEdit e ∧ NotReindex e := by
  intro s v e he
  unfold growPlan at he
  split at he
  · rcases he with _ | ⟨_, he⟩
    · exact ⟨anyStep_total _ _, trivial⟩
    · cases he
  · cases he

example : (selfIter growPlan 2 none editPair 5 editPair.steps.keys w0).2.1 ≠ none :=
  C172_grown growPlan (fun s v e he => (growPlan_ok s v e he).2) editPair 5 w0 _ _ _ _ rfl (by decide +kernel)

/-- C172: the full claim is false: if the last step adds a step, the run raises `RuntimeError` -/
theorem C172_full_false : ¬ StepsMayEdit Int Unit := by
  intro h
  obtain ⟨y, hy⟩ := h growPlan (fun s v e he => (growPlan_ok s v e he).1) editPair (by unfold Dict.WF; decide +kernel) rfl rfl (fun p hp => by
    rcases hp with _ | ⟨_, _ | ⟨_, hp⟩⟩
    · exact anyStep_total _ _
    · exact anyStep_total _ _
    · cases hp) 5 w0
  have : (selfExecute growPlan editPair 5 w0).1 = .error .runtimeError := rfl
  rw [this] at hy
  cases hy

/-- C172: a tracker then notes the failure of the step that was added, though that was not called -/
theorem C172_blames_uncalled :
    (selfExecute growPlan { editPair with tracker := some logTracker } 5 w0).1 = .error .runtimeError ∧
    (selfExecute growPlan { editPair with tracker := some logTracker } 5 w0).2.2.log.getLast? =
      some { target := 3, failure := some .runtimeError } :=
  ⟨rfl, rfl⟩

/-- once the mapping has been replaced, nothing changes its size -/
theorem lostBy_some [PyNone V] (es : List (CompEdit V X)) (cw : Comp V X × World V X) (k : Nat) : lostBy cw (some k) es = some k := by
  induction es generalizing cw with
  | nil => rfl
  | cons e t ih => cases e <;> exact ih _

/-- its size is that which it has when it is replaced first -/
theorem lostBy_reindex [PyNone V] (pre rest : List (CompEdit V X)) (hpre : ∀ e ∈ pre, NotReindex e) (cw : Comp V X × World V X) :
    lostBy cw none (pre ++ .reindex :: rest) = some (editsComp pre cw).1.steps.length := by
  induction pre generalizing cw with
  | nil => exact lostBy_some rest _ _
  | cons e t ih =>
    have ih' := ih (fun e' h => hpre e' (.tail _ h)) (editComp cw e)
    cases e with
    | reindex => exact (hpre _ (.head _)).elim
    | _ => exact ih'

/-- C172: a step that reindexes. The run then goes on through the names that were there at its beginning. If the step added
none before it reindexed, the run completes if it is the last step, whatever was added after; otherwise it raises `KeyError`
if the next name is not among the new ones. If the step did add some before, the run raises `RuntimeError`. -/
theorem C172_reindexed [PyNone V] (plan : SelfPlan V X) (c : Comp V X) (n : Name) (s : Step V X) (hs : c.steps.get? n = some s)
    (v : V) (w : World V X) (y : V) (c' : Comp V X) (w' : World V X) (hdo : selfDo plan c n s v w = (.ok y, c', w'))
    (pre rest : List (CompEdit V X)) (hplan : plan s v = pre ++ .reindex :: rest) (hpre : ∀ e ∈ pre, NotReindex e) :
    ((editsComp pre (c, (callStep c n s v w).2)).1.steps.length = c.steps.length →
      selfIter plan c.steps.length none c v [n] w = ([y], none, c', w') ∧
      ∀ m t, c'.steps.get? m = none → selfIter plan c.steps.length none c v (n :: m :: t) w = ([y], some .keyError, c', w')) ∧
    ((editsComp pre (c, (callStep c n s v w).2)).1.steps.length ≠ c.steps.length →
      ∀ t, selfIter plan c.steps.length none c v (n :: t) w = ([y], some .runtimeError, c', w')) := by
  have h0 : ¬ (Option.getD none (List.length c.steps) ≠ c.steps.length) := by simp
  have hlost := lostBy_reindex pre rest hpre (c, (callStep c n s v w).2)
  have hstep : ∀ t, selfIter plan c.steps.length none c v (n :: t) w =
      (y :: (selfIter plan c.steps.length (some (editsComp pre (c, (callStep c n s v w).2)).1.steps.length) c' y t w').1,
        (selfIter plan c.steps.length (some (editsComp pre (c, (callStep c n s v w).2)).1.steps.length) c' y t w').2) := by
    intro t
    rw [selfIter, if_neg h0, hs]
    simp only [hdo]
    rw [hplan, hlost]
  constructor
  · intro hk
    constructor
    · rw [hstep, hk, selfIter, if_neg (by simp)]
    · intro m t hm
      rw [hstep, hk, selfIter, if_neg (by simp), hm]
  · intro hk t
    rw [hstep]
    cases t with
    | nil => rw [selfIter, if_pos (by simpa using hk)]
    | cons m t => rw [selfIter, if_pos (by simpa using hk)]

/-- the last step reindexes, then adds a step: the run completes -/
def renumberPlan : SelfPlan Int Unit := fun s _ => if s.ident = 2 then [.reindex, .addStep (anyStep 3 100) none] else []

example : (selfExecute renumberPlan editPair 5 w0).1 = .ok 16 := rfl

example : ∀ c' w', selfDo renumberPlan editPair lateName (anyStep 2 10) 6 w0 = (.ok 16, c', w') →
    selfIter renumberPlan 2 none editPair 6 [lateName] w0 = ([16], none, c', w') := fun c' w' h =>
  ((C172_reindexed renumberPlan editPair lateName (anyStep 2 10) (by rfl) 6 w0 16 c' w' h [] [.addStep (anyStep 3 100) none] rfl
    (fun e h => by cases h)).1 rfl).1

/-- C172: the first step reindexes, and the second is not found -/
theorem C172_reindexed_lost :
    (selfExecute (fun s _ => if s.ident = 1 then [.reindex] else []) editPair 5 w0).1 = .error .keyError := rfl

/-- C172: a failure is noted by the tracker that the Composition has by then, also if a step turned tracking on, and swallowed if the
Composition is optional -/
theorem C172_noted [PyNone V] (plan : SelfPlan V X) (c : Comp V X) (v : V) (w : World V X) (outs : List V) (e : PyErr) (c' : Comp V X)
    (w' : World V X) (h : selfIter plan c.steps.length none c v c.steps.keys w = (outs, some e, c', w'))
    (he : (fromGenerator e).isException = true) (ht : c'.tracker = some logTracker) (n : Name) (s : Step V X)
    (hs : c'.steps[outs.length]? = some (n, s)) :
    selfExecute plan c v w = (if c'.optional then .ok PyNone.none else .error (fromGenerator e), c',
      { w' with log := w'.log ++ [{ target := s.ident, failure := some (fromGenerator e) }] }) := by
  simp only [selfExecute, h]
  rw [if_pos he, ht, hs]
  rfl

/-- the first step turns tracking on, the second raises -/
def trackPlan : SelfPlan Int Unit := fun s _ => if s.ident = 1 then [.track] else []
def trackPair : Comp Int Unit := { steps := [(firstName, anyStep 1 1), (lateName, oops)] }

example : (selfExecute trackPlan trackPair 5 w0).2.2.log.getLast? = some { target := 3, failure := some .zeroDivision } := by
  rw [C172_noted trackPlan trackPair 5 w0 [6] .zeroDivision _ _ rfl rfl rfl lateName oops rfl]
  rfl

end Verif.Props
