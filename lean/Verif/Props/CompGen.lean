import Verif.Lemmas.CompGen
/-!
# C148-C149: iterating over a Composition that is edited, and several iterations at once
-/
namespace Verif.Props
open Verif Verif.Model Verif.Spec Verif.Lemmas
variable {V X : Type}

theorem genResume_out {size : Nat} {lost : Option Nat} {rest : List Name} {state : V} {c : Comp V X} {w : World V X}
    (h : lost.getD c.steps.length = size) :
    (rest = [] → (genResume size lost rest state c w).1 = .stops) ∧
    ∀ n t, rest = n :: t → StepNow c w n state (genResume size lost rest state c w).1 := by
  refine ⟨?_, ?_⟩
  · rintro rfl
    simp [genResume, h]
  · rintro n t rfl
    simp only [genResume, h, ne_eq, not_true_eq_false, if_false]
    cases hs : c.steps.get? n with
    | none => exact .gone hs
    | some s =>
      simp only
      rcases hd : doStep c n s state w with ⟨x, c1, w1⟩
      cases x with
      | ok y => exact .good hs (by rw [hd])
      | error e => exact .bad hs (by rw [hd])

/-- C148: the first `next` runs the first step, as it is then, or there is none -/
theorem C148_first [PyNone V] (S : GenState V X) (i : Nat) (v : V) (hg : S.gens[i]? = some (.fresh v)) :
    ∃ o, (genStep S (.next i)).1 = some o ∧ (S.comp.steps.keys[0]? = none → o = .stops) ∧
      ∀ n, S.comp.steps.keys[0]? = some n → StepNow S.comp S.world n v o := by
  simp only [genStep, hg, genNext]
  have := genResume_out (lost := none) (rest := S.comp.steps.keys) (state := v) (c := S.comp) (w := S.world) rfl
  refine ⟨_, rfl, fun h => this.1 (by cases hk : S.comp.steps.keys with | nil => rfl | cons a t => rw [hk] at h; simp at h), fun n h => ?_⟩
  cases hk : S.comp.steps.keys with
  | nil => rw [hk] at h; simp at h
  | cons a t =>
    rw [hk] at h
    simp only [List.getElem?_cons_zero, Option.some.injEq] at h
    subst h
    have := this.2 a t hk
    rwa [hk] at this

/-- C148: what comes after `next` has been called and has given outputs `ys`, whatever else was done to the Composition since
the first one. If a step was added under a new name (before the steps were reindexed), `RuntimeError`. Otherwise the step is
run that has now the name that was the next at the first `next`, with the inserts and sends it has now, on the last
output; `KeyError` if there is none of this name now; and if there was no further name then, the iteration ends. -/
theorem C148_next [PyNone V] (S : GenState V X) (i : Nat) (v : V) (hg : S.gens[i]? = some (.fresh v)) (mid : List (GenOp V X))
    (ys : List V) (T : GenState V X) (hT : T = (genRun (.next i :: mid) S).2)
    (hy : outputsOf i (.next i :: mid) (genRun (.next i :: mid) S).1 = ys.map .yields) :
    ∃ o, (genStep T (.next i)).1 = some o ∧
      (Grows mid (genStep S (.next i)).2 → o = .raises .runtimeError) ∧
      (¬ Grows mid (genStep S (.next i)).2 → (S.comp.steps.keys[ys.length]? = none → o = .stops) ∧
        ∀ n, S.comp.steps.keys[ys.length]? = some n → StepNow T.comp T.world n (ys.getLast?.getD v) o) := by
  subst hT
  rw [genRun] at hy ⊢
  simp only at hy ⊢
  have hlt : i < S.gens.length := (List.getElem?_eq_some_iff.mp hg).1
  have hst : (genStep S (.next i)).2.comp.steps = S.comp.steps := genStep_steps S _ (by simp) (by simp)
  have h0 : ∃ y t ys', ys = y :: ys' ∧ S.comp.steps.keys.drop 1 = t ∧
      (genStep S (.next i)).2.gens[i]? = some (.running S.comp.steps.length none t y) ∧
      outputsOf i mid (genRun mid (genStep S (.next i)).2).1 = ys'.map .yields := by
    simp only [genStep, hg, genNext] at hy ⊢
    rcases hx : genResume S.comp.steps.length none S.comp.steps.keys v S.comp S.world with ⟨o, g', c', w'⟩
    rw [hx] at hy
    simp only [outputsOf, if_true, Option.toList_some, List.singleton_append] at hy
    cases ys with
    | nil => simp at hy
    | cons y ys =>
      simp only [List.map_cons, List.cons.injEq] at hy
      obtain ⟨rfl, hy⟩ := hy
      have : g' = .running S.comp.steps.length none (S.comp.steps.keys.drop 1) y := by
        simp only [genResume] at hx
        split at hx
        · cases hx
        · split at hx
          · cases hx
          · split at hx
            · cases hx
            · split at hx
              · cases hx; simp [*]
              · cases hx
      subst this
      exact ⟨y, _, ys, rfl, rfl, by simp [hlt], hy⟩
  obtain ⟨y, t, ys', rfl, ht, hg', hy'⟩ := h0
  clear hy
  generalize (genStep S (.next i)).2 = S1 at hst hg' hy' ⊢
  obtain ⟨lost', k1, k2⟩ := running_after i mid _ _ none t y hg' ys' hy'
  have hgr := sizeAt_grows mid S1
  rw [hst] at hgr
  simp only [Option.getD_none] at k2
  simp only [genStep, k1, genNext]
  refine ⟨_, rfl, fun hG => ?_, fun hG => ?_⟩
  · have : sizeAt mid S1 ≠ S.comp.steps.length := fun e => (hgr.2.mp e) hG
    simp only [genResume]
    rw [if_pos (by rw [k2]; exact this)]
  · have := hgr.2.mpr hG
    rw [← k2] at this
    have hout := genResume_out (rest := t.drop ys'.length) (state := ys'.getLast?.getD y) (w := (genRun mid S1).2.world) this
    subst ht
    have hdrop : (S.comp.steps.keys.drop 1).drop ys'.length = S.comp.steps.keys.drop (ys'.length + 1) := by
      rw [List.drop_drop, Nat.add_comm]
    rw [hdrop] at hout ⊢
    simp only [List.length_cons]
    refine ⟨fun hn => hout.1 ?_, fun n hn => ?_⟩
    · rw [List.getElem?_eq_none_iff] at hn
      exact List.drop_eq_nil_of_le hn
    · have hl : (y :: ys').getLast?.getD v = ys'.getLast?.getD y := by
        cases ys' with
        | nil => rfl
        | cons a b => simp [List.getLast?_cons]
      rw [hl]
      obtain ⟨hlt, he⟩ := List.getElem?_eq_some_iff.mp hn
      have := hout.2 n (S.comp.steps.keys.drop (ys'.length + 1 + 1)) (by rw [List.drop_eq_getElem_cons hlt, he])
      exact this

/-- C148: once an iteration has ended or raised, it only ends -/
theorem C148_over [PyNone V] (S : GenState V X) (i : Nat) (o : GenOut V) (ho : (genStep S (.next i)).1 = some o)
    (hy : ∀ y, o ≠ .yields y) (ops : List (GenOp V X)) :
    ∀ o' ∈ outputsOf i ops (genRun ops (genStep S (.next i)).2).1, o' = .stops := by
  refine over_stays i ops _ ?_
  simp only [genStep] at ho ⊢
  cases hg : S.gens[i]? with
  | none => rw [hg] at ho; simp at ho
  | some g =>
    have hlt : i < S.gens.length := (List.getElem?_eq_some_iff.mp hg).1
    rw [hg] at ho
    simp only [Option.some.injEq] at ho
    have : (genNext g S.comp S.world).2.1 = .over := by
      have h : ∀ size lost rest state, (∀ y, (genResume size lost rest state S.comp S.world).1 ≠ .yields y) →
          (genResume size lost rest state S.comp S.world).2.1 = .over := by
        intro size lost rest state hne
        simp only [genResume] at hne ⊢
        split
        · rfl
        · rename_i h1
          rw [if_neg h1] at hne
          split
          · rfl
          · split
            · rfl
            · rename_i n _ _ s hs
              simp only [hs] at hne
              rcases hd : doStep S.comp n s state S.world with ⟨x, c1, w1⟩
              rw [hd] at hne
              cases x with
              | ok y => exact absurd rfl (hne y)
              | error e => rfl
      cases g with
      | fresh v => exact h _ _ _ _ (by intro y; have := hy y; rwa [← ho] at this)
      | running a b c d => exact h _ _ _ _ (by intro y; have := hy y; rwa [← ho] at this)
      | over => rfl
    simp only [List.getElem?_set_self hlt, this]

/-- the full claim: whatever is done between outputs, the steps there were at the beginning are run, one for each `next`, as
they are when they are reached -/
def IterAsItIs (V X : Type) [PyNone V] : Prop :=
  ∀ (S : GenState V X) (i : Nat) (v : V), S.gens[i]? = some (.fresh v) → ∀ (mid : List (GenOp V X)) (ys : List V) (T : GenState V X),
    T = (genRun (.next i :: mid) S).2 → outputsOf i (.next i :: mid) (genRun (.next i :: mid) S).1 = ys.map .yields →
    ∃ o, (genStep T (.next i)).1 = some o ∧ (S.comp.steps.keys[ys.length]? = none → o = .stops) ∧
      ∀ n, S.comp.steps.keys[ys.length]? = some n → (T.comp.steps.get? n).isSome ∧ StepNow T.comp T.world n (ys.getLast?.getD v) o

theorem keys_kept [PyNone V] (ops : List (GenOp V X)) (S : GenState V X) (hG : ¬ Grows ops S) (hr : .edit .reindex ∉ ops) :
    (genRun ops S).2.comp.steps.keys = S.comp.steps.keys := by
  induction ops generalizing S with
  | nil => rfl
  | cons op t ih =>
    simp only [List.mem_cons, not_or] at hr
    have hop : op ≠ .edit .reindex := fun e => hr.1 e.symm
    rw [genRun]
    simp only
    by_cases h1 : ∃ s n, op = .edit (.addStep s n)
    · obtain ⟨s, n, rfl⟩ := h1
      simp only [Grows, not_or, not_not] at hG
      rw [ih _ hG.2 hr.2, genStep_addStep, Dict.set_of_mem _ _ hG.1]
    · have h1' : ∀ s n, op ≠ .edit (.addStep s n) := fun s n e => h1 ⟨s, n, e⟩
      rw [grows_cons hop h1'] at hG
      rw [ih _ hG hr.2, genStep_steps S op h1' hop]

/-- C148, in part: it holds if no step is added under a new name and the steps are not reindexed; steps may be replaced,
sends and inserts added, a tracker and captures too, the Composition may be run, and others may iterate over it -/
theorem C148_as_it_is_partial [PyNone V] (S : GenState V X) (i : Nat) (v : V) (hg : S.gens[i]? = some (.fresh v))
    (mid : List (GenOp V X)) (ys : List V) (T : GenState V X) (hT : T = (genRun (.next i :: mid) S).2)
    (hy : outputsOf i (.next i :: mid) (genRun (.next i :: mid) S).1 = ys.map .yields)
    (hG : ¬ Grows mid (genStep S (.next i)).2) (hr : .edit .reindex ∉ mid) :
    ∃ o, (genStep T (.next i)).1 = some o ∧ (S.comp.steps.keys[ys.length]? = none → o = .stops) ∧
      ∀ n, S.comp.steps.keys[ys.length]? = some n → (T.comp.steps.get? n).isSome ∧ StepNow T.comp T.world n (ys.getLast?.getD v) o := by
  obtain ⟨o, h1, _, h2⟩ := C148_next S i v hg mid ys T hT hy
  refine ⟨o, h1, (h2 hG).1, fun n hn => ⟨?_, (h2 hG).2 n hn⟩⟩
  rw [Dict.get?_isSome, hT, genRun]
  simp only
  rw [keys_kept mid _ hG hr, genStep_steps S _ (by simp) (by simp)]
  exact List.mem_of_getElem? hn

/-- C148, the other part: a step is added after the last output; the iteration does not end but raises -/
theorem C148_added_witness :
    (genRun [.next 0, .edit (.addStep timesThree none), .next 0] ⟨compInit (.iterable [addTwo]) [] [] none false, w0, [.fresh 1]⟩).1 =
      [some (.yields 3), none, some (.raises .runtimeError)] := rfl

/-- C148, the other part: after `reindex`, `KeyError` -/
theorem C148_reindexed_witness :
    (genRun [.next 0, .edit .reindex, .next 0]
        ⟨compInit (.mapping [(.int 1, addTwo), (.int 2, timesThree)]) [] [] none false, w0, [.fresh 1]⟩).1 =
      [some (.yields 3), none, some (.raises .keyError)] := rfl

/-- C148, the other part: after `reindex`, a step that has been run is run again and another is left out -/
theorem C148_again_witness :
    (genRun [.next 0, .edit .reindex, .next 0, .next 0]
        ⟨compInit (.mapping [(.int 1, addTwo), (.int 0, timesThree)]) [] [] none false, w0, [.fresh 1]⟩).1 =
      [some (.yields 3), none, some (.yields 5), some .stops] := rfl

/-- C148: so the full claim fails -/
theorem C148_full_fails : ¬ IterAsItIs Int Unit := by
  intro h
  obtain ⟨o, h1, h2, _⟩ := h ⟨compInit (.iterable [addTwo]) [] [] none false, w0, [.fresh 1]⟩ 0 1 rfl
    [.edit (.addStep timesThree none)] [3] _ rfl rfl
  have h3 := h2 rfl
  subst h3
  have : (some (.raises .runtimeError) : Option (GenOut Int)) = some .stops := h1
  simp at this

/-- a step is replaced, a tracker and an insert are added, and the Composition is run, between two outputs -/
example : ∃ T : GenState Int Unit, ∃ o, (genStep T (.next 0)).1 = some o ∧ StepNow T.comp T.world (.int 2) 9 o := by
  obtain ⟨o, h1, _, h2⟩ := C148_as_it_is_partial ⟨compInit (.iterable [addTwo, addTwo, oops]) [] [] none false, w0, [.fresh 1]⟩ 0 1 rfl
    [.edit (.addStep timesThree (some (.int 1))), .edit .track, .edit (.addInsert (.int 2) (.int 0) 5), .edit (.run 7), .next 0] [3, 9] _ rfl rfl
    (by simp only [Grows, or_false, not_not, Option.getD_some]; decide) (by simp)
  exact ⟨_, o, h1, (h2 (.int 2) rfl).2⟩

example : (genRun [.next 0, .edit (.addStep timesThree (some (.int 1))), .edit (.run 7), .next 0, .next 0, .next 0]
      ⟨compInit (.iterable [addTwo, addTwo, oops]) [] [] none false, w0, [.fresh 1]⟩).1 =
    [some (.yields 3), none, none, some (.yields 9), some (.raises .zeroDivision), some .stops] := rfl

/-! ## C149 -/

theorem performSendList_meek {l : List (Send V X)} (h : ∀ sd ∈ l, MeekSend sd) (c : Comp V X) (v : V) (w : World V X) :
    ∃ w', performSendList c v l w = (.ok (), c, w') := by
  induction l generalizing w with
  | nil => exact ⟨w, rfl⟩
  | cons a t ih =>
    obtain ⟨w1, h1⟩ := h a List.mem_cons_self c v w
    obtain ⟨w2, h2⟩ := ih (fun sd hs => h sd (List.mem_cons_of_mem _ hs)) w1
    exact ⟨w2, by rw [performSendList, h1]; exact h2⟩

theorem callStep_pure {c : Comp V X} {n : Name} {s : Step V X} (hs : PureStep s) (v : V) (w w' : World V X) :
    (callStep c n s v w).1 = (callStep c n s v w').1 := by
  simp only [callStep]
  cases hf : s.func with
  | none => simp only [callWith]; split <;> exact hs.1 _ _ _ _
  | some f => simp only [callPartialStep, callWith]; split <;> exact hs.2 f hf _ _ _ _

/-- every step is pure and no send matters -/
structure Calm (c : Comp V X) : Prop where
  steps : ∀ p ∈ c.steps, PureStep p.2
  sends : ∀ n, ∀ sd ∈ sendsOf c n, MeekSend sd

theorem doStep_calm {c : Comp V X} (hc : Calm c) {n : Name} {s : Step V X} (hs : PureStep s) (v : V) (w w' : World V X) :
    (doStep c n s v w).1 = (doStep c n s v w').1 ∧ (doStep c n s v w).2.1 = c := by
  have hp := callStep_pure (c := c) (n := n) hs v w w'
  simp only [doStep]
  rcases h1 : callStep c n s v w with ⟨x, w1⟩
  rcases h2 : callStep c n s v w' with ⟨x', w2⟩
  rw [h1, h2] at hp
  simp only at hp
  subst hp
  cases x with
  | error e => exact ⟨rfl, rfl⟩
  | ok y =>
    obtain ⟨w3, h3⟩ := performSendList_meek (hc.sends n) c y w1
    obtain ⟨w4, h4⟩ := performSendList_meek (hc.sends n) c y w2
    unfold sendsOf at h3 h4
    simp only [performSends, h3, h4]
    exact ⟨trivial, trivial⟩

theorem iterSteps_calm {c : Comp V X} (hc : Calm c) (l : Dict Name (Step V X)) (hl : ∀ p ∈ l, PureStep p.2) (v : V) (w w' : World V X) :
    (iterSteps c v l w).1 = (iterSteps c v l w').1 ∧ (iterSteps c v l w).2.1 = (iterSteps c v l w').2.1 ∧ (iterSteps c v l w).2.2.1 = c := by
  induction l generalizing v w w' with
  | nil => exact ⟨rfl, rfl, rfl⟩
  | cons p t ih =>
    obtain ⟨n, s⟩ := p
    have h := doStep_calm hc (n := n) (hl _ List.mem_cons_self) v w w'
    have h' := doStep_calm hc (n := n) (hl _ List.mem_cons_self) v w' w
    simp only [iterSteps]
    rcases h1 : doStep c n s v w with ⟨x, c1, w1⟩
    rcases h2 : doStep c n s v w' with ⟨x', c2, w2⟩
    rw [h1, h2] at h
    rw [h1, h2] at h'
    simp only at h h'
    obtain ⟨rfl, rfl⟩ := h
    obtain ⟨_, rfl⟩ := h'
    cases x with
    | error e => exact ⟨rfl, rfl, rfl⟩
    | ok y =>
      have := ih (fun p hp => hl p (List.mem_cons_of_mem _ hp)) y w1 w2
      exact ⟨by simp only; rw [this.1], this.2.1, this.2.2⟩

theorem genNext_calm {c : Comp V X} (hc : Calm c) (g : CompGen V) (w : World V X) : (genNext g c w).2.2.1 = c := by
  have h : ∀ size lost rest state, (genResume size lost rest state c w).2.2.1 = c := by
    intro size lost rest state
    simp only [genResume]
    split
    · rfl
    · split
      · rfl
      · rename_i n t
        split
        · rfl
        · rename_i s hs
          have := (doStep_calm hc (n := n) (hc.steps (n, s) (Dict.mem_of_get? hs)) state w w).2
          rcases hd : doStep c n s state w with ⟨x, c1, w1⟩
          rw [hd] at this
          cases x <;> exact this
  cases g with
  | fresh v => exact h _ _ _ _
  | running a b d e => exact h _ _ _ _
  | over => rfl

theorem genStep_calm [PyNone V] {S : GenState V X} (hc : Calm S.comp) {op : GenOp V X} (ho : OnlyRuns op) :
    (genStep S op).2.comp = S.comp := by
  cases op with
  | start v => rfl
  | next i =>
    simp only [genStep]
    split
    · rfl
    · rename_i g _
      exact genNext_calm hc g S.world
  | edit e =>
    cases e with
    | run v =>
      simp only [genStep, editComp]
      rw [execute_comp]
      exact (iterSteps_calm hc S.comp.steps hc.steps v S.world S.world).2.2
    | _ => exact ho.elim

/-- what is still to come of a generator: that of the remaining steps -/
theorem alone_running [PyNone V] (i : Nat) (ops : List (GenOp V X)) (hops : ∀ op ∈ ops, OnlyRuns op) (S : GenState V X)
    (hc : Calm S.comp) (hwf : S.comp.steps.WF) (l : Dict Name (Step V X)) (hl : ∀ p ∈ l, p ∈ S.comp.steps) (state : V) (g : CompGen V)
    (hg : S.gens[i]? = some g)
    (hgl : g = .running S.comp.steps.length none (Dict.keys l) state ∨ (g = .fresh state ∧ l = S.comp.steps)) (w : World V X) (j : Nat) (o : GenOut V)
    (hj : (outputsOf i ops (genRun ops S).1)[j]? = some o) :
    o = alone ((iterSteps S.comp state l w).1, (iterSteps S.comp state l w).2.1) j := by
  induction ops generalizing S l state g j with
  | nil => simp [outputsOf, genRun] at hj
  | cons op t ih =>
    have hop := hops op List.mem_cons_self
    have hcomp := genStep_calm hc hop
    rw [genRun] at hj
    simp only at hj
    have hops' : ∀ op ∈ t, OnlyRuns op := fun op h => hops op (List.mem_cons_of_mem _ h)
    by_cases hn : op = .next i
    · subst hn
      have hlt : i < S.gens.length := (List.getElem?_eq_some_iff.mp hg).1
      have hgn : genNext g S.comp S.world = genResume S.comp.steps.length none (Dict.keys l) state S.comp S.world := by
        rcases hgl with rfl | ⟨rfl, rfl⟩ <;> rfl
      simp only [genStep, hg, hgn] at hj hcomp
      cases l with
      | nil =>
        simp only [genResume, Option.getD_none, ne_eq, not_true_eq_false, if_false, Dict.keys_nil, outputsOf, if_true, Option.toList_some, List.singleton_append] at hj
        cases j with
        | zero => simp at hj; rw [← hj]; rfl
        | succ j =>
          simp only [List.getElem?_cons_succ] at hj
          have := over_stays i t ⟨S.comp, S.world, S.gens.set i .over⟩ (by simp [hlt]) o (List.mem_of_getElem? hj)
          rw [this]; simp [alone, iterSteps]
      | cons p l =>
        obtain ⟨n, s⟩ := p
        have hs : S.comp.steps.get? n = some s := Dict.get?_of_mem hwf (hl _ List.mem_cons_self)
        have hps := hc.steps _ (hl _ List.mem_cons_self)
        have hd := doStep_calm hc (n := n) hps state S.world w
        have hd' := doStep_calm hc (n := n) hps state w w
        simp only [genResume, Option.getD_none, ne_eq, not_true_eq_false, if_false, Dict.keys_cons, hs] at hj hcomp
        rcases h1 : doStep S.comp n s state S.world with ⟨x, c1, w1⟩
        rcases h2 : doStep S.comp n s state w with ⟨x', c2, w2⟩
        rw [h1, h2] at hd
        rw [h2] at hd'
        rw [h1] at hj hcomp
        simp only at hd hd'
        obtain ⟨rfl, rfl⟩ := hd
        obtain ⟨_, rfl⟩ := hd'
        simp only [iterSteps, h2]
        cases x with
        | error e =>
          simp only [outputsOf, if_true, Option.toList_some, List.singleton_append] at hj
          cases j with
          | zero => simp at hj; rw [← hj]; rfl
          | succ j =>
            simp only [List.getElem?_cons_succ] at hj
            have := over_stays i t ⟨S.comp, w1, S.gens.set i .over⟩ (by simp [hlt]) o (List.mem_of_getElem? hj)
            rw [this]; simp [alone]
        | ok y =>
          simp only [outputsOf, if_true, Option.toList_some, List.singleton_append] at hj
          cases j with
          | zero => simp at hj; rw [← hj]; rfl
          | succ j =>
            simp only [List.getElem?_cons_succ] at hj
            have := ih hops' ⟨S.comp, w1, S.gens.set i (.running S.comp.steps.length none (Dict.keys l) y)⟩ hc hwf l
              (fun p hp => hl p (List.mem_cons_of_mem _ hp)) y _ (by simp [hlt]) (.inl rfl) j hj
            rw [this]
            have hw := iterSteps_calm hc l (fun p hp => hc.steps p (hl p (List.mem_cons_of_mem _ hp))) y w w2
            rw [hw.1, hw.2.1]
            simp [alone]
    · rw [outputsOf_other i hn] at hj
      have hr : op ≠ .edit .reindex := by rintro rfl; exact hop
      have := ih hops' (genStep S op).2 (by rw [hcomp]; exact hc) (by rw [hcomp]; exact hwf) l (by rw [hcomp]; exact hl) state g
        (genStep_gen S op i hn hr hg) (by rw [hcomp]; exact hgl) j hj
      rw [hcomp] at this
      exact this

/-- C149, in part: several iterations over one Composition and runs of it, in any order, do not disturb each other, if the
results of the steps do not depend on the rest of the world and no send goes to a step (or fails): each gives the outputs
that it would give alone -/
theorem C149_alone_partial [PyNone V] (S : GenState V X) (hwf : S.comp.steps.WF) (hs : ∀ p ∈ S.comp.steps, PureStep p.2)
    (hsd : ∀ p ∈ S.comp.sends, ∀ sd ∈ p.2, MeekSend sd) (i : Nat) (v : V) (hg : S.gens[i]? = some (.fresh v))
    (ops : List (GenOp V X)) (hops : ∀ op ∈ ops, OnlyRuns op) (w : World V X) (outs : List V) (e : Option PyErr) (c' : Comp V X) (w' : World V X)
    (hr : itercall S.comp v w = (outs, e, c', w')) (j : Nat) (o : GenOut V)
    (hj : (outputsOf i ops (genRun ops S).1)[j]? = some o) : o = alone (outs, e) j := by
  have hc : Calm S.comp := ⟨hs, fun n sd h => by
    obtain ⟨p, h1, h2⟩ := mem_sendsOf h
    exact hsd p h1 sd h2⟩
  have := alone_running i ops hops S hc hwf S.comp.steps (fun _ h => h) v _ hg (.inr ⟨rfl, rfl⟩) w j o hj
  rw [this, show iterSteps S.comp v S.comp.steps w = (outs, e, c', w') from hr]

/-- the full claim: that it is so of all Compositions of such steps -/
def IterationsApart (V X : Type) [PyNone V] : Prop :=
  ∀ (S : GenState V X), S.comp.steps.WF → (∀ p ∈ S.comp.steps, PureStep p.2) → ∀ (i : Nat) (v : V), S.gens[i]? = some (.fresh v) →
    ∀ (ops : List (GenOp V X)), (∀ op ∈ ops, OnlyRuns op) → ∀ (w : World V X) (outs : List V) (e : Option PyErr) (c' : Comp V X) (w' : World V X),
    itercall S.comp v w = (outs, e, c', w') → ∀ (j : Nat) (o : GenOut V),
    (outputsOf i ops (genRun ops S).1)[j]? = some o → o = alone (outs, e) j

/-- C149, the other part: what one iteration sends to a step goes into the other -/
theorem C149_mixed_witness : (itercall sendComp 1 w0).1 = [1, 3, 23] ∧
    outputsOf (X := Unit) 0 [.next 0, .next 1, .next 0, .next 0] (genRun [.next 0, .next 1, .next 0, .next 0] ⟨sendComp, w0, [.fresh 1, .fresh 5]⟩).1 =
      [.yields 1, .yields 3, .yields 103] := ⟨rfl, rfl⟩

/-- C149: so the full claim fails -/
theorem C149_full_fails : ¬ IterationsApart Int Unit := by
  intro h
  have := h ⟨sendComp, w0, [.fresh 1, .fresh 5]⟩ (by simp [Dict.WF, sendComp]) (by
      intro p hp
      simp only [sendComp, List.mem_cons, List.not_mem_nil, or_false] at hp
      rcases hp with rfl | rfl | rfl
      · exact ⟨fun _ _ _ _ => rfl, fun _ h => by simp [digitStep] at h⟩
      · refine ⟨fun args kw w w' => ?_, fun _ h => by simp [addTwo, pureStep] at h⟩
        simp only [addTwo, pureStep]
        split <;> rfl
      · exact ⟨fun _ _ _ _ => rfl, fun _ h => by simp [digitStep] at h⟩) 0 1 rfl
    [.next 0, .next 1, .next 0, .next 0] (by simp [OnlyRuns]) w0 [1, 3, 23] none _ _ rfl 2 (.yields 103) rfl
  simp [alone] at this

theorem pure_pure (i : Nat) (f : Int → Except PyErr Int) : PureStep (pureStep (X := Unit) i f) := by
  refine ⟨fun args kw w w' => ?_, fun _ h => by simp [pureStep] at h⟩
  simp only [pureStep]
  split <;> rfl

/-- a tracked Composition, iterated over twice and run in between -/
def twice : GenState Int Unit := ⟨{
  steps := [(.int 0, addTwo), (.int 1, timesThree)]
  sends := [(.int 0, [⟨some (trackPipe logTracker (.int 0) addTwo), none, .none⟩])]
  tracker := some logTracker }, w0, [.fresh 1, .fresh 5]⟩

example : ∀ j o, (outputsOf (X := Unit) 1 [.next 0, .next 1, .edit (.run 9), .next 0, .next 1, .next 1]
      (genRun [.next 0, .next 1, .edit (.run 9), .next 0, .next 1, .next 1] twice).1)[j]? = some o → o = alone ([7, 21], none) j := by
  intro j o h
  refine C149_alone_partial twice (by simp [Dict.WF, twice]) ?_ ?_ 1 5 rfl _ (by simp [OnlyRuns]) w0 [7, 21] none _ _ rfl j o h
  · intro p hp
    simp only [twice, List.mem_cons, List.not_mem_nil, or_false] at hp
    rcases hp with rfl | rfl <;> exact pure_pure _ _
  · intro p hp sd hsd
    simp only [twice, List.mem_singleton] at hp
    subst hp
    simp only [List.mem_singleton] at hsd
    subst hsd
    exact fun c v w => ⟨_, rfl⟩

end Verif.Props
