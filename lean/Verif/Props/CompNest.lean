import Verif.Lemmas.CompNest
import Verif.Props.Composition
/-! # C134: a Composition as a step of another -/
namespace Verif.Props
open Verif Verif.Model Verif.Lemmas Verif.Spec

variable {V X : Type}

/-- `flat` is `outer` with the steps of `inner` in place of the step `n`, which is `inner`: the sends and inserts of a step are
those it has where it comes from; the sends of `n` follow those of the last step of `inner`. The steps of `inner` have no
names in common with those of `outer`, and nothing is sent or inserted across. -/
structure Flattens [PyNone V] (outer inner flat : Comp V X) (n : Name) : Prop where
  steps : ∃ pre post i, outer.steps = pre ++ (n, compStep i inner) :: post ∧ flat.steps = pre ++ inner.steps ++ post ∧
    ∀ p ∈ pre ++ post, p.1 ≠ n ∧ p.1 ∉ inner.steps.keys
  untracked : outer.tracker = none ∧ inner.tracker = none ∧ flat.tracker = none
  optional : flat.optional = outer.optional
  sends_out : ∀ m, m ≠ n → m ∉ inner.steps.keys → sendsOf flat m = sendsOf outer m
  sends_in : ∃ body last s, inner.steps = body ++ [(last, s)] ∧ (∀ p ∈ body, sendsOf flat p.1 = sendsOf inner p.1) ∧
    sendsOf flat last = sendsOf inner last ++ sendsOf outer n
  inserts_out : ∀ m, m ≠ n → m ∉ inner.steps.keys → flat.inserts.get? m = outer.inserts.get? m
  inserts_in : ∀ m ∈ inner.steps.keys, flat.inserts.get? m = inner.inserts.get? m
  no_inserts : outer.inserts.get? n = none
  /-- sends of the outer Composition go to its other steps, or elsewhere, but not into the inner one -/
  targets_out : ∀ m, ∀ sd ∈ sendsOf outer m, SendsWithin (fun b => b ≠ n ∧ b ∉ inner.steps.keys) sd
  /-- sends of the inner one do not go to steps -/
  targets_in : ∀ m, ∀ sd ∈ sendsOf inner m, sd.target.bind Target.step? = none

/-- C134, in full: a Composition may stand for its steps -/
def C134_full : Prop :=
  ∀ (V X : Type) [PyNone V] (outer inner flat : Comp V X) (pre post : Dict Name (Step V X)) (n : Name) (i : Nat) (v : V)
    (w : World V X),
    outer = { steps := pre ++ (n, compStep i inner) :: post } → flat = { steps := pre ++ inner.steps ++ post } →
    inner.sends = [] → inner.inserts = [] → inner.tracker = none →
    (execute outer v w).1 = (execute flat v w).1

/-- the two Compositions in the course of a run -/
private structure Along [PyNone V] (outer inner flat : Comp V X) (n : Name) (co cf : Comp V X) : Prop where
  so : SameBut outer co
  sf : SameBut flat cf
  out : ∀ m, m ≠ n → m ∉ inner.steps.keys → cf.inserts.get? m = co.inserts.get? m
  inn : ∀ m ∈ inner.steps.keys, cf.inserts.get? m = inner.inserts.get? m
  none : co.inserts.get? n = none

private theorem addInsert_get? (c : Comp V X) (b k : Name) (v : V) (m : Name) :
    (addInsert c b k v).inserts.get? m = if b = m then some (((c.inserts.get? b).getD []).set k v) else c.inserts.get? m := by
  simp only [addInsert, Dict.get?_set]

private theorem along_kept [PyNone V] (outer inner flat : Comp V X) (n : Name) :
    KeptBy (Along outer inner flat n) (fun b => b ≠ n ∧ b ∉ inner.steps.keys) := by
  rintro b ⟨hb1, hb2⟩ k v co cf ⟨h1, h2, h3, h4, h5⟩
  refine ⟨h1.trans ⟨rfl, rfl, rfl, rfl, rfl⟩, h2.trans ⟨rfl, rfl, rfl, rfl, rfl⟩, ?_, ?_, ?_⟩
  · intro m hm1 hm2
    rw [addInsert_get?, addInsert_get?, h3 b hb1 hb2, h3 m hm1 hm2]
  · intro m hm
    rw [addInsert_get?, if_neg (by rintro rfl; exact hb2 hm), h4 m hm]
  · rw [addInsert_get?, if_neg hb1, h5]

private theorem sendsOf_same {c c' : Comp V X} (h : SameBut c c') (m : Name) : sendsOf c' m = sendsOf c m := by
  rw [sendsOf, sendsOf, h.sends]

/-- the steps of the outer Composition other than `n` do the same -/
private theorem outer_part [PyNone V] {outer inner flat : Comp V X} {n : Name} (hF : Flattens outer inner flat n)
    {co cf : Comp V X} (h : Along outer inner flat n co cf) (l : Dict Name (Step V X))
    (hl : ∀ p ∈ l, p.1 ≠ n ∧ p.1 ∉ inner.steps.keys) (v : V) (w : World V X) :
    (iterSteps co v l w).1 = (iterSteps cf v l w).1 ∧ (iterSteps co v l w).2.1 = (iterSteps cf v l w).2.1 ∧
      (iterSteps co v l w).2.2.2 = (iterSteps cf v l w).2.2.2 ∧
      Along outer inner flat n (iterSteps co v l w).2.2.1 (iterSteps cf v l w).2.2.1 := by
  refine iterSteps_sim (along_kept outer inner flat n) l ?_ ?_ h v w
  · intro p hp c c' hc
    exact (hc.out p.1 (hl p hp).1 (hl p hp).2).symm
  · intro p hp c c' hc
    rw [sendsOf_same hc.so, sendsOf_same hc.sf, hF.sends_out p.1 (hl p hp).1 (hl p hp).2]
    exact ⟨rfl, hF.targets_out p.1⟩

private theorem fromGenerator_idem (e : PyErr) : fromGenerator (fromGenerator e) = fromGenerator e := by cases e <;> rfl

/-- a Composition called by a pipeline that has no inserts for it -/
private theorem callStep_comp [PyNone V] {c inner : Comp V X} {n : Name} (hi : c.inserts.get? n = none) (i : Nat) (v : V)
    (w : World V X) : callStep c n (compStep i inner) v w = ((execute inner v w).1, (execute inner v w).2.2) := by
  simp [callStep, hi, compStep, callWith, intArgs, strArgs, callComp]

/-- the step `n` and the steps of the inner Composition do the same -/
private theorem inner_part [PyNone V] {outer inner flat : Comp V X} {n : Name} (hF : Flattens outer inner flat n)
    (hopt : inner.optional = false) {co cf : Comp V X} (h : Along outer inner flat n co cf) (i : Nat) (v : V) (w : World V X) :
    let o := iterSteps co v [(n, compStep i inner)] w
    let f := iterSteps cf v inner.steps w
    o.2.2.2 = f.2.2.2 ∧ Along outer inner flat n o.2.2.1 f.2.2.1 ∧ o.2.1.map fromGenerator = f.2.1.map fromGenerator ∧
      (o.2.1 = none → o.1.getLast? = f.1.getLast? ∧ o.1.getLast?.isSome = true) := by
  obtain ⟨body, last, s, hst, hb, hla⟩ := hF.sends_in
  -- the body of the inner one
  have hR : KeptBy (fun c c' : Comp V X => c = inner ∧ c' = cf) (fun _ => False) := fun _ hb => hb.elim
  have hno : ∀ m, ∀ sd ∈ sendsOf inner m, SendsWithin (fun _ => False) sd := by
    intro m sd hm b hb
    rw [hF.targets_in m sd hm] at hb
    cases hb
  have hkeys : ∀ p ∈ inner.steps, p.1 ∈ inner.steps.keys := fun p hp => List.mem_map.2 ⟨p, hp, rfl⟩
  have hbody := iterSteps_sim hR body
    (by
      rintro p hp c c' ⟨rfl, rfl⟩
      exact (h.inn p.1 (hkeys p (by rw [hst]; exact List.mem_append_left _ hp))).symm)
    (by
      rintro p hp c c' ⟨rfl, rfl⟩
      rw [sendsOf_same h.sf, hb p hp]
      exact ⟨rfl, hno p.1⟩) ⟨rfl, rfl⟩ v w
  have hcall := callStep_comp h.none (inner := inner) i v w
  rw [execute_untracked hF.untracked.2.1] at hcall
  simp only [itercall] at hcall
  intro o f
  have ho : o = iterSteps co v [(n, compStep i inner)] w := rfl
  have hf : f = iterSteps cf v inner.steps w := rfl
  clear_value o f
  simp only [iterSteps, doStep, hcall, hopt, Bool.and_false, Bool.false_eq_true, if_false] at ho
  rw [hst, iterSteps_append] at hf
  rw [hst, iterSteps_append] at ho
  rcases hin : iterSteps inner v body w with ⟨outs, e, c1, w1⟩
  rcases hcf : iterSteps cf v body w with ⟨outs', e', c1', w1'⟩
  rw [hin, hcf] at hbody
  obtain ⟨h1, h2, h3, h4, h5⟩ := hbody
  simp only at h1 h2 h3 h4 h5
  subst h1 h2 h3 h4 h5
  rw [hin] at ho
  rw [hcf] at hf
  cases e with
  | some e =>
    simp only at ho hf
    subst ho hf
    exact ⟨rfl, h, by simp [fromGenerator_idem], by simp⟩
  | none =>
    -- the last step
    simp only at ho hf
    have hcl := callStep_congr (c := c1) (c' := c1') (n := last)
      ((h.inn last (hkeys (last, s) (by rw [hst]; simp))).symm) s (outs.getLast?.getD v)
    have hsf : (c1'.sends.get? last).getD [] = sendsOf c1 last ++ sendsOf co n := by
      rw [sendsOf_same h.so, ← hla, ← sendsOf_same h.sf]; rfl
    simp only [iterSteps, doStep, hcl, performSends, hsf] at ho hf
    rcases hc : callStep c1' last s (outs.getLast?.getD v) w1 with ⟨r, w2⟩
    rw [hc] at ho hf
    cases r with
    | error e =>
      simp only at ho hf
      subst ho hf
      exact ⟨rfl, h, by simp [fromGenerator_idem], by simp⟩
    | ok x =>
      simp only at ho hf
      rw [performSendList_append] at hf
      obtain ⟨k1, k2, k3⟩ := performSendList_sim (R := fun c c' : Comp V X => c = c1 ∧ c' = c1') (fun _ hb => hb.elim)
        ⟨rfl, rfl⟩ x (sendsOf c1 last) (hno last) w2
      rw [show (c1.sends.get? last).getD [] = sendsOf c1 last from rfl] at ho
      rcases hp : performSendList c1 x (sendsOf c1 last) w2 with ⟨r, c3, w3⟩
      rcases hp' : performSendList c1' x (sendsOf c1 last) w2 with ⟨r', c3', w3'⟩
      rw [hp, hp'] at k1 k2 k3
      obtain ⟨k3, k4⟩ := k3
      simp only at k1 k2 k3 k4
      subst k1 k2 k3 k4
      rw [hp] at ho
      rw [hp'] at hf
      cases r with
      | error e =>
        simp only at ho hf
        subst ho hf
        exact ⟨rfl, h, by simp [fromGenerator_idem], by simp⟩
      | ok u =>
        simp only at ho hf
        obtain ⟨m1, m2, m3⟩ := performSendList_sim (along_kept outer c3 flat n) h x (sendsOf co n)
          (by rw [sendsOf_same h.so]; exact hF.targets_out n) w3
        rw [show (co.sends.get? n).getD [] = sendsOf co n from rfl] at ho
        simp only [List.getLast?_append, List.getLast?_singleton, Option.some_or, Option.getD_some] at ho
        rcases hq : performSendList co x (sendsOf co n) w3 with ⟨r, c4, w4⟩
        rcases hq' : performSendList c3' x (sendsOf co n) w3 with ⟨r', c4', w4'⟩
        rw [hq, hq'] at m1 m2 m3
        simp only at m1 m2 m3
        subst m1 m2
        rw [hq] at ho
        rw [hq'] at hf
        cases r with
        | error e =>
          simp only at ho hf
          subst ho hf
          exact ⟨rfl, m3, rfl, by simp⟩
        | ok u =>
          simp only at ho hf
          subst ho hf
          exact ⟨rfl, m3, rfl, by simp⟩

/-- C134: a Composition with at least one step that is not optional may stand for its steps: the run gives the same result or
exception, does the same, and the two Compositions go on corresponding -/
theorem C134_run_partial [PyNone V] {outer inner flat : Comp V X} {n : Name} (hF : Flattens outer inner flat n)
    (hopt : inner.optional = false) (v : V) (w : World V X) :
    (execute outer v w).1 = (execute flat v w).1 ∧ (execute outer v w).2.2 = (execute flat v w).2.2 ∧
      Flattens (execute outer v w).2.1 inner (execute flat v w).2.1 n := by
  obtain ⟨pre, post, i, ho, hf, hn⟩ := hF.steps
  have h0 : Along outer inner flat n outer flat :=
    ⟨SameBut.refl _, SameBut.refl _, hF.inserts_out, hF.inserts_in, hF.no_inserts⟩
  -- what is to be shown of the runs
  have key : (iterSteps outer v outer.steps w).2.2.2 = (iterSteps flat v flat.steps w).2.2.2 ∧
      Along outer inner flat n (iterSteps outer v outer.steps w).2.2.1 (iterSteps flat v flat.steps w).2.2.1 ∧
      (iterSteps outer v outer.steps w).2.1.map fromGenerator = (iterSteps flat v flat.steps w).2.1.map fromGenerator ∧
      ((iterSteps outer v outer.steps w).2.1 = none →
        (iterSteps outer v outer.steps w).1.getLast? = (iterSteps flat v flat.steps w).1.getLast?) := by
    rw [ho, hf, show pre ++ (n, compStep i inner) :: post = (pre ++ [(n, compStep i inner)]) ++ post by simp,
      iterSteps_append, iterSteps_append, iterSteps_append, iterSteps_append]
    obtain ⟨a1, a2, a3, a4⟩ := outer_part hF h0 pre (fun p hp => hn p (List.mem_append_left _ hp)) v w
    rcases hd : iterSteps outer v pre w with ⟨outs, e, c1, w1⟩
    rcases hd' : iterSteps flat v pre w with ⟨outs', e', c1', w1'⟩
    rw [hd, hd'] at a1 a2 a3 a4
    simp only at a1 a2 a3 a4
    subst a1 a2 a3
    cases e with
    | some e => exact ⟨rfl, a4, rfl, by simp⟩
    | none =>
      simp only
      obtain ⟨b1, b2, b3, b4⟩ := inner_part hF hopt a4 i (outs.getLast?.getD v) w1
      rcases hd2 : iterSteps c1 (outs.getLast?.getD v) [(n, compStep i inner)] w1 with ⟨outs2, e2, c2, w2⟩
      rcases hd2' : iterSteps c1' (outs.getLast?.getD v) inner.steps w1 with ⟨outs2', e2', c2', w2'⟩
      rw [hd2, hd2'] at b1 b2 b3 b4
      simp only at b1 b2 b3 b4
      subst b1
      cases e2 with
      | some e2 =>
        cases e2' with
        | none => cases b3
        | some e2' => exact ⟨rfl, b2, b3, by simp⟩
      | none =>
        cases e2' with
        | some e2' => cases b3
        | none =>
          simp only
          obtain ⟨b4, b5⟩ := b4 rfl
          have hlast : (outs ++ outs2).getLast?.getD v = (outs ++ outs2').getLast?.getD v := by
            rw [List.getLast?_append, List.getLast?_append, b4]
          rw [← hlast]
          obtain ⟨d1, d2, d3, d4⟩ := outer_part hF b2 post (fun p hp => hn p (List.mem_append_right _ hp))
            ((outs ++ outs2).getLast?.getD v) w2
          rw [d1, d2, d3]
          refine ⟨rfl, d4, rfl, fun _ => ?_⟩
          rw [List.getLast?_append, List.getLast?_append, List.getLast?_append, List.getLast?_append, b4]
  rw [execute_untracked hF.untracked.1, execute_untracked hF.untracked.2.2]
  simp only [itercall]
  obtain ⟨k1, k2, k3, k4⟩ := key
  refine ⟨?_, k1, ?_⟩
  · cases he : (iterSteps outer v outer.steps w).2.1 with
    | none =>
      rw [he] at k3
      cases he' : (iterSteps flat v flat.steps w).2.1 with
      | some e => rw [he'] at k3; cases k3
      | none =>
        simp only
        rw [k4 he]
    | some e =>
      rw [he] at k3
      cases he' : (iterSteps flat v flat.steps w).2.1 with
      | none => rw [he'] at k3; cases k3
      | some e' =>
        rw [he'] at k3
        simp only [Option.map_some, Option.some.injEq] at k3
        simp only [k3, hF.optional]
  · refine ⟨⟨pre, post, i, k2.so.steps.trans ho, k2.sf.steps.trans hf, hn⟩,
      ⟨k2.so.tracker.trans hF.untracked.1, hF.untracked.2.1, k2.sf.tracker.trans hF.untracked.2.2⟩,
      k2.sf.optional.trans (hF.optional.trans k2.so.optional.symm), ?_, ?_, k2.out, k2.inn, k2.none, ?_, hF.targets_in⟩
    · intro m h1 h2
      rw [sendsOf_same k2.so, sendsOf_same k2.sf, hF.sends_out m h1 h2]
    · obtain ⟨body, last, s, hst, hb, hla⟩ := hF.sends_in
      refine ⟨body, last, s, hst, fun p hp => ?_, ?_⟩
      · rw [sendsOf_same k2.sf, hb p hp]
      · rw [sendsOf_same k2.sf, sendsOf_same k2.so, hla]
    · intro m
      rw [sendsOf_same k2.so]
      exact hF.targets_out m

/-- a series of executions: what each gave -/
def executions [PyNone V] (c : Comp V X) : List V → World V X → List (Except PyErr V) × World V X
  | [], w => ([], w)
  | v :: t, w => match execute c v w with
    | (r, c', w') => (r :: (executions c' t w').1, (executions c' t w').2)

/-- C134: so do all the runs of a series, though sends may carry something from one to the next -/
theorem C134_runs_partial [PyNone V] {outer inner flat : Comp V X} {n : Name} (hF : Flattens outer inner flat n)
    (hopt : inner.optional = false) (signals : List V) (w : World V X) :
    executions outer signals w = executions flat signals w := by
  induction signals generalizing outer flat w with
  | nil => rfl
  | cons v t ih =>
    obtain ⟨h1, h2, h3⟩ := C134_run_partial hF hopt v w
    rw [executions, executions]
    rcases hd : execute outer v w with ⟨r, c, w1⟩
    rcases hd' : execute flat v w with ⟨r', c', w1'⟩
    rw [hd, hd'] at h1 h2 h3
    simp only at h1 h2 h3
    subst h1 h2
    simp only [ih h3]

/-- C134: a Composition without steps is not the identity: it gives `None` -/
theorem C134_empty [PyNone V] (inner : Comp V X) (h : inner.steps = []) (v : V) (w : World V X) :
    (callComp inner [v] [] w) = (.ok PyNone.none, w) := by
  simp [callComp, Dict.get?, execute, itercall, h, iterSteps]

/-- C134: an optional Composition that fails gives `None` to the step after it -/
theorem C134_optional [PyNone V] (inner : Comp V X) (ht : inner.tracker = none) (ho : inner.optional = true) (v : V)
    (w : World V X) (e : PyErr) (he : (itercall inner v w).2.1 = some e) (hx : (fromGenerator e).isException = true) :
    (callComp inner [v] [] w).1 = .ok PyNone.none := by
  simp only [callComp, Dict.get?_nil, Option.isSome_none, Bool.false_eq_true, if_false, execute_untracked ht, he, hx, ho, Bool.and_self, if_true]

/-- C134: the signal may be given by keyword, and without one it is `None` -/
theorem C134_keyword [PyNone V] (inner : Comp V X) (kw : Dict Str V) (w : World V X) (hs : kw.get? "self".toList = none) :
    callComp inner [] kw w = callComp inner [(kw.get? "signal".toList).getD PyNone.none] [] w := by
  simp only [callComp, selfKey, hs]
  rfl

/-- C134: a second argument, or a signal given twice, or a keyword `self`, is a `TypeError` before any step is run -/
theorem C134_too_many [PyNone V] (inner : Comp V X) (args : List V) (kw : Dict Str V) (w : World V X)
    (h : 2 ≤ args.length ∨ (args ≠ [] ∧ (kw.get? "signal".toList).isSome) ∨ (kw.get? "self".toList).isSome) :
    callComp inner args kw w = (.error .typeError, w) := by
  unfold callComp signalKey selfKey
  by_cases hs : (kw.get? "self".toList).isSome = true
  · rw [if_pos hs]
  rw [if_neg hs]
  simp only [hs, Bool.false_eq_true, or_false] at h
  match args with
  | [] => simp at h
  | [v] =>
    have h : (kw.get? "signal".toList).isSome := by simpa using h
    obtain ⟨x, hx⟩ := Option.isSome_iff_exists.1 h
    rw [hx]
  | v :: u :: t => rfl

private theorem intArgs_ne {d : Dict Name V} {i : Int} (h : (d.get? (.int i)).isSome) : intArgs d ≠ [] := by
  induction d with
  | nil => simp [Dict.get?] at h
  | cons p t ih =>
    obtain ⟨k, v⟩ := p
    cases k with
    | int n => simp [intArgs]
    | _ =>
      simp only [intArgs]
      refine ih ?_
      simpa [Dict.get?] using h

/-- C134: an insert in a position for a nested Composition makes it a `TypeError` -/
theorem C134_insert [PyNone V] (outer inner : Comp V X) (n : Name) (ident : Nat) (ins : Dict Name V) (wf : ins.WF)
    (hn : outer.inserts.get? n = some ins) (i : Int) (hi : (ins.get? (.int i)).isSome) (v : V) (w : World V X) :
    callStep outer n (compStep ident inner) v w = (.error .typeError, w) := by
  have h0 := intArgs_ne hi
  simp only [callStep, compStep, hn, Option.getD_some, callWith]
  rw [if_neg (by simpa using h0)]
  refine C134_too_many inner _ _ w (.inl ?_)
  obtain ⟨o, ho, ks, h1, h2, h3⟩ := flowSignal_spec v (wf_intArgs wf)
  have hlen := congrArg List.length h3
  simp only [List.length_map] at hlen
  rw [hlen]
  have m1 : (o : Int) ∈ ks := (h2 o).2 (.inl rfl)
  have hne : (intArgs ins).get? i ≠ none := by
    rw [get?_intArgs]
    intro hc
    rw [hc] at hi
    cases hi
  have m2 : i ∈ ks := (h2 i).2 (.inr hne)
  have hio : i ≠ o := fun e => hne (e ▸ ho.1)
  match ks with
  | [] => cases m1
  | [x] =>
    simp only [List.mem_singleton] at m1 m2
    exact absurd (m2.trans m1.symm) hio
  | x :: y :: t => simp

/-! ## Examples -/

def nestA : Name := .str "a".toList
def nestB : Name := .str "b".toList

/-- add two, then triple and send what comes out to list 0 -/
def nestInner : Comp Int Unit :=
  { steps := [(nestA, addTwo), (nestB, timesThree)], sends := [(nestB, [⟨none, some (.list 0), .none⟩])] }

/-- the inner one, then a step with an insert; each run's output goes into the next run as an insert -/
def nestOuter : Comp Int Unit :=
  { steps := [(.int 0, timesThree), (.int 1, compStep 9 nestInner), (.int 2, digitStep)]
    sends := [(.int 1, [⟨none, some (.list 1), .none⟩]), (.int 2, [⟨none, some (.stepInt 2), .int 1⟩])]
    inserts := [(.int 2, [(.int 0, 4)])] }

def nestFlat : Comp Int Unit :=
  { steps := [(.int 0, timesThree), (nestA, addTwo), (nestB, timesThree), (.int 2, digitStep)]
    sends := [(nestB, [⟨none, some (.list 0), .none⟩, ⟨none, some (.list 1), .none⟩]), (.int 2, [⟨none, some (.stepInt 2), .int 1⟩])]
    inserts := [(.int 2, [(.int 0, 4)])] }

private theorem nest_sends {m : Name} {sd : Send Int Unit} (h : sd ∈ sendsOf nestOuter m) :
    sd.target.bind Target.step? = none ∨ sd.target.bind Target.step? = some (.int 2) := by
  simp only [sendsOf, nestOuter, Dict.get?_cons, Dict.get?_nil] at h
  split at h
  · simp only [Option.getD_some, List.mem_singleton] at h
    subst h
    exact Or.inl rfl
  · split at h
    · simp only [Option.getD_some, List.mem_singleton] at h
      subst h
      exact Or.inr rfl
    · cases h

theorem nest_flattens : Flattens nestOuter nestInner nestFlat (.int 1) where
  steps := ⟨[(.int 0, timesThree)], [(.int 2, digitStep)], 9, rfl, rfl, by decide⟩
  untracked := ⟨rfl, rfl, rfl⟩
  optional := rfl
  sends_out := by
    intro m h1 h2
    have hb : ¬ nestB = m := fun e => h2 (by rw [← e]; decide)
    simp [sendsOf, nestOuter, nestFlat, Dict.get?_cons, hb, Ne.symm h1]
  sends_in := ⟨[(nestA, addTwo)], nestB, timesThree, rfl, by
    intro p hp
    simp only [List.mem_singleton] at hp
    subst hp
    rfl, rfl⟩
  inserts_out := fun _ _ _ => rfl
  inserts_in := by
    intro m hm
    have : m = nestA ∨ m = nestB := by simpa [nestInner] using hm
    rcases this with rfl | rfl <;> rfl
  no_inserts := rfl
  targets_out := by
    intro m sd hsd b hb
    rcases nest_sends hsd with h | h
    · rw [h] at hb; cases hb
    · rw [h] at hb
      cases hb
      decide
  targets_in := by
    intro m sd hsd
    simp only [sendsOf, nestInner, Dict.get?_cons, Dict.get?_nil] at hsd
    split at hsd
    · simp only [Option.getD_some, List.mem_singleton] at hsd
      subst hsd
      rfl
    · cases hsd

example : executions nestOuter [1, 2, 3] w0 = executions nestFlat [1, 2, 3] w0 :=
  C134_runs_partial nest_flattens rfl [1, 2, 3] w0

example : (executions nestOuter [1, 2, 3] w0).1 = [.ok 55, .ok 974, .ok 10173] := by rfl

example : (callComp ({ steps := [(.int 0, oops)], optional := true } : Comp Int Unit) [5] [] w0).1 = .ok (-1) :=
  C134_optional _ rfl rfl 5 w0 .zeroDivision rfl rfl

/-- an insert at position 0 of the nested Composition -/
example : callStep ({ nestOuter with inserts := [(.int 1, [(.int 0, 4)])] }) (.int 1) (compStep 9 nestInner) 5 w0 = (.error .typeError, w0) :=
  C134_insert _ _ _ _ [(.int 0, 4)] (by simp [Dict.WF, Dict.keys]) rfl 0 rfl 5 w0

example : callComp nestInner [] [("signal".toList, 5)] w0 = callComp nestInner [5] [] w0 := C134_keyword nestInner _ w0 rfl

example : callComp nestInner [5] [("signal".toList, 5)] w0 = (.error .typeError, w0) :=
  C134_too_many nestInner _ _ w0 (.inr (.inl ⟨by simp, rfl⟩))

/-- C134: false: a Composition without steps gives `None` where no steps at all hand on the signal -/
theorem C134_full_false : ¬ C134_full := by
  intro h
  have := h Int Unit _ { steps := [] } _ [(.int 0, addTwo)] [(.int 2, timesThree)] (.int 1) 9 5 w0 rfl rfl rfl rfl rfl
  have h1 : (execute { steps := [(.int 0, addTwo)] ++ (.int 1, compStep 9 { steps := [] }) :: [(.int 2, timesThree)] } 5 w0).1
    = .ok (-3) := by rfl
  have h2 : (execute { steps := [(.int 0, addTwo)] ++ [] ++ [(.int 2, timesThree)] } 5 w0).1 = .ok 21 := by rfl
  rw [h1, h2] at this
  cases this

end Verif.Props
