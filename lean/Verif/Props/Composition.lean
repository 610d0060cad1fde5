import Verif.Lemmas.CompSends
/-!
# C26-C29, C31-C33: Composition
-/
namespace Verif.Props
open Verif Verif.Model Verif.Lemmas Verif.Spec

variable {V X : Type}

/-! ## The values of the examples -/

instance : PyNone Int := ⟨-1⟩

/-- a function of one argument and no keywords -/
def pureStep (ident : Nat) (g : V → Except PyErr V) : Step V X where
  ident := ident
  call := fun args kw w => match args, kw with
    | [v], [] => (g v, w)
    | _, _ => (.error .typeError, w)

/-- `lambda *args, **kw: sum of args, each times ten to its place, plus the keywords` -/
def digits : Fn Int Unit := fun args kw w =>
  (.ok (args.foldl (fun acc a => 10 * acc + a) 0 + 1000 * (kw.values.foldl (· + ·) 0)), w)

def digitStep : Step Int Unit := { ident := 7, call := digits }
def addTwo : Step Int Unit := pureStep 1 fun v => .ok (v + 2)
def timesThree : Step Int Unit := pureStep 2 fun v => .ok (3 * v)
def oops : Step Int Unit := pureStep 3 fun _ => .error .zeroDivision

def w0 : World Int Unit := ⟨fun _ => [], 0, fun _ => [], [], ()⟩

/-! ## C26 -/

/-- C26: without sends, `execute` passes the signal through the steps in order, each called with its inserts (and the
arguments baked into it); the result is the last output, `None` if there are no steps; the Composition is unchanged,
whether or not a step fails -/
theorem C26_execute_threads [PyNone V] (c : Comp V X) (wf : CompWF c) (hno : NoSends c) (v : V) (w : World V X) :
    ∃ outs e w', Threads (c.steps.map fun p => StepCalls p.2 (insertsAt c p.1)) v w outs e w' ∧
      (e = none → execute c v w = (.ok (outs.getLast?.getD PyNone.none), c, w') ∧ outs.length = c.steps.length) ∧
      (execute c v w).2.1 = c := by
  obtain ⟨outs, e, w', h1, h2⟩ := iterSteps_threads wf.inserts hno c.steps wf.keywords v w
  refine ⟨outs, e, w', h2, ?_, ?_⟩
  · rintro rfl
    refine ⟨?_, iterSteps_length h1⟩
    simp only [execute, itercall, h1]
  · rw [execute_comp, itercall, h1]

/-- C26: a row of functions of one argument, without inserts or sends: left-to-right composition (a `StopIteration` from
a step arrives as `RuntimeError`, and a pipeline of no steps gives `None`) -/
theorem C26_plain_functions [PyNone V] (names : List Name) (fs : List (V → Except PyErr V)) (hl : names.length = fs.length)
    (ident : Nat) (v : V) (w : World V X) :
    execute { steps := names.zip (fs.map (pureStep ident)) } v w =
      (match (if fs = [] then .ok PyNone.none else fs.foldlM (fun x g => g x) v : Except PyErr V) with
        | .ok y => .ok y
        | .error e => .error (fromGenerator e), { steps := names.zip (fs.map (pureStep ident)) }, w) := by
  have key : ∀ (c : Comp V X), c.inserts = [] → c.sends = [] → ∀ (fs : List (V → Except PyErr V)) (names : List Name),
      names.length = fs.length → ∀ v, (∃ outs, iterSteps c v (names.zip (fs.map (pureStep ident))) w = (outs, none, c, w) ∧
        fs.foldlM (fun x g => g x) v = .ok (outs.getLast?.getD v) ∧ outs.length = fs.length) ∨
      ∃ outs e, iterSteps c v (names.zip (fs.map (pureStep ident))) w = (outs, some e, c, w) ∧
        fs.foldlM (fun x g => g x) v = .error e := by
    intro c hi hs fs
    induction fs with
    | nil =>
      intro names hl v
      exact Or.inl ⟨[], by simp [iterSteps], rfl, rfl⟩
    | cons g t ih =>
      intro names hl v
      cases names with
      | nil => simp at hl
      | cons n ns =>
        have hc : callStep c n (pureStep ident g) v w = (g v, w) := by
          simp [callStep, hi, pureStep, callWith, intArgs, strArgs]
        have hp : ∀ y, performSends c n y w = (.ok (), c, w) := by
          intro y; simp [performSends, hs, performSendList]
        cases hg : g v with
        | error e =>
          refine Or.inr ⟨[], e, ?_, ?_⟩
          · simp only [List.map_cons, List.zip_cons_cons, iterSteps, doStep, hc, hg]
          · rw [List.foldlM_cons, hg]; rfl
        | ok y =>
          have hd : doStep c n (pureStep ident g) v w = (.ok y, c, w) := by simp only [doStep, hc, hg, hp]
          have hf : (g :: t).foldlM (fun x g => g x) v = t.foldlM (fun x g => g x) y := by
            rw [List.foldlM_cons, hg]; rfl
          rcases ih ns (by simpa using hl) y with ⟨outs, h1, h2, h3⟩ | ⟨outs, e, h1, h2⟩
          · refine Or.inl ⟨y :: outs, ?_, ?_, by simp [h3]⟩
            · simp only [List.map_cons, List.zip_cons_cons, iterSteps, hd, h1]
            · rw [hf, h2, List.getLast?_cons]; rfl
          · refine Or.inr ⟨y :: outs, e, ?_, ?_⟩
            · simp only [List.map_cons, List.zip_cons_cons, iterSteps, hd, h1]
            · rw [hf, h2]
  rcases key { steps := names.zip (fs.map (pureStep ident)) } rfl rfl fs names hl v with ⟨outs, h1, h2, h3⟩ | ⟨outs, e, h1, h2⟩
  · simp only [execute, itercall, h1]
    by_cases hf : fs = []
    · subst hf
      have : outs = [] := List.length_eq_zero_iff.1 h3
      simp [this]
    · have : outs ≠ [] := by
        intro h0; subst h0; exact hf (List.length_eq_zero_iff.1 h3.symm)
      rw [if_neg hf, h2]
      cases ho : outs.getLast? with
      | none => exact absurd (List.getLast?_eq_none_iff.1 ho) this
      | some y => rfl
  · have hf : fs ≠ [] := by rintro rfl; simp [List.foldlM, pure, Except.pure] at h2
    simp only [execute, itercall, h1, if_neg hf, h2]
    by_cases he : (fromGenerator e).isException = true
    · rw [if_pos he]; rfl
    · rw [if_neg he]
      cases e <;> first | rfl | exact absurd rfl he

def firstName : Name := .str "first".toList

/-- a step with positional and keyword inserts, then a plain one -/
def insComp : Comp Int Unit :=
  { steps := [(firstName, digitStep), (.int 9, timesThree)]
    inserts := [(firstName, [(.int 0, 4), (.str "k".toList, 5), (.int 2, 6), (.none, 8)])] }

example : ∃ outs e w', Threads (insComp.steps.map fun p => StepCalls p.2 (insertsAt insComp p.1)) 3 w0 outs e w' ∧
    (e = none → execute insComp 3 w0 = (.ok (outs.getLast?.getD PyNone.none), insComp, w') ∧ outs.length = 2) ∧
    (execute insComp 3 w0).2.1 = insComp := by
  refine C26_execute_threads insComp ⟨?_, ?_, ?_⟩ ?_ 3 w0
  · simp [Dict.WF, insComp, firstName]
  · intro n d h
    simp only [insComp, Dict.get?_cons, Dict.get?_nil] at h
    split at h
    · cases h; simp [Dict.WF]
    · cases h
  · intro n s h k hk
    simp only [insComp, List.mem_cons, Prod.mk.injEq, List.not_mem_nil, or_false] at h
    rcases h with ⟨_, rfl⟩ | ⟨_, rfl⟩ <;> simp [digitStep, timesThree, pureStep] at hk
  · intro n l h; simp [insComp] at h

example : (execute insComp 3 w0).1 = .ok (3 * 5436) := rfl

example : execute { steps := [Name.int 0, .int 1].zip (([fun v => .ok (v + 2), fun v => .ok (3 * v)] :
      List (Int → Except PyErr Int)).map (pureStep 0)) } 5 w0 =
    (.ok 21, { steps := [Name.int 0, .int 1].zip (([fun v => .ok (v + 2), fun v => .ok (3 * v)] :
      List (Int → Except PyErr Int)).map (pureStep 0)) }, w0) :=
  C26_plain_functions _ _ rfl 0 5 w0

/-! ## C27 -/

/-- C27: a step that is not a partial object gets its positional inserts in increasing position, and the signal in the
first open position; its keyword inserts as keywords; inserts under other keys are ignored. These arguments are
determined. -/
theorem C27_signal_in_first_open_slot (c : Comp V X) (hi : InsWF c) (name : Name) (step : Step V X)
    (hf : step.func = none) (v : V) (w : World V X) :
    ∃ args kw, PosArgs (fun i => insertsAt c name (.int i)) v args ∧ KwArgs (fun s => insertsAt c name (.str s)) kw ∧
      callStep c name step v w = step.call args kw w ∧
      ∀ args', PosArgs (fun i => insertsAt c name (.int i)) v args' → args' = args := by
  obtain ⟨args, kw, h⟩ := callStep_spec hi name (step := step) (fun h => absurd hf h) v w
  simp only [hf] at h
  exact ⟨args, kw, h.1, h.2.1, h.2.2, fun args' h' => posArgs_unique h' h.1⟩

/-- C27: if the inserts leave no gap, the argument in position `i` is the insert for `i` -/
theorem C27_no_gaps (ins : Int → Option V) (v : V) (args : List V) (h : PosArgs ins v args) (o n : Nat) (ho : IsOpening ins o)
    (hn : ∀ k : Int, k = o ∨ ins k ≠ none ↔ 0 ≤ k ∧ k < n) :
    args.length = n ∧ ∀ i < n, args[i]? = if i = o then some v else ins (i : Nat) := by
  obtain ⟨o', ho', ks, h1, h2, h3⟩ := h
  have := isOpening_unique ho ho'
  subst this
  have hks : ks = (List.range n).map fun i : Nat => (i : Int) := by
    refine sorted_unique h1 ?_ fun k => ?_
    · rw [List.pairwise_map]
      exact List.pairwise_lt_range.imp fun h => by omega
    · rw [h2, hn]
      simp only [List.mem_map, List.mem_range]
      constructor
      · rintro ⟨h1, h2⟩
        exact ⟨k.toNat, by omega, by omega⟩
      · rintro ⟨i, hi, rfl⟩
        omega
  subst hks
  have hlen : args.length = n := by simpa using congrArg List.length h3
  refine ⟨hlen, fun i hi => ?_⟩
  have h4 := congrArg (fun l => l[i]?) h3
  simp only [List.getElem?_map, List.getElem?_range hi, Option.map_some] at h4
  rw [List.getElem?_eq_getElem (by omega)] at h4 ⊢
  simp only [Option.map_some, Option.some.injEq] at h4
  rw [h4]
  by_cases h5 : i = o
  · simp [h5]
  · rw [if_neg h5, if_neg (by omega)]

/-- inserts in positions 0 and 2: the signal goes to position 1 -/
example : IsOpening (fun i => insertsAt insComp firstName (.int i)) 1 ∧
    PosArgs (fun i => insertsAt insComp firstName (.int i)) 3 [4, 3, 6] := by
  have h1 : ∀ k : Int, insertsAt insComp firstName (.int k) = if k = 0 then some 4 else if k = 2 then some 6 else none := by
    intro k
    simp only [insertsAt, insComp, Dict.get?_cons, if_true, Option.bind_some, Name.int.injEq, reduceCtorEq, if_false, Dict.get?_nil]
    by_cases h0 : k = 0
    · simp [h0]
    · by_cases h2 : k = 2
      · simp [h2]
      · simp [h0, h2, Ne.symm h0, Ne.symm h2]
  have ho : IsOpening (fun i => insertsAt insComp firstName (.int i)) 1 := by
    refine ⟨by simp [h1], fun i hi => ?_⟩
    have : i = 0 := by omega
    subst this; simp [h1]
  refine ⟨ho, 1, ho, [0, 1, 2], by decide, fun k => ?_, ?_⟩
  · simp only [h1, List.mem_cons, List.not_mem_nil, or_false]
    constructor
    · rintro (rfl | rfl | rfl) <;> simp
    · rintro (h | h)
      · right; left; simpa using h
      · split at h
        · left; assumption
        · split at h
          · right; right; assumption
          · exact absurd rfl h
  · simp [h1]

/-! ## C28 -/

/-- C28: `functools.partial(f, *args, **keywords)` as a step: `f` gets in each position the insert, or else the baked
argument, and the signal in the first open position; for each keyword the insert, or else the baked value -/
theorem C28_inserts_override_baked (c : Comp V X) (hi : InsWF c) (name : Name) (ident : Nat) (f : Fn V X)
    (bargs : List V) (bkw : Dict Str V) (hb : bkw.WF) (v : V) (w : World V X) :
    ∃ args kw, PosArgs (over (fun i => insertsAt c name (.int i)) (baked bargs)) v args ∧
      KwArgs (over (fun s => insertsAt c name (.str s)) bkw.get?) kw ∧
      callStep c name (partialStep ident f bargs bkw) v w = f args kw w ∧
      ∀ args', PosArgs (over (fun i => insertsAt c name (.int i)) (baked bargs)) v args' → args' = args := by
  obtain ⟨args, kw, h⟩ := callStep_spec hi name (step := partialStep ident f bargs bkw) (fun _ k hk => by cases hk; exact hb) v w
  exact ⟨args, kw, h.1, h.2.1, h.2.2, fun args' h' => posArgs_unique h' h.1⟩

/-- without inserts: the signal comes after the baked arguments, as in a call of the partial object -/
theorem C28_no_inserts (c : Comp V X) (name : Name) (hn : c.inserts.get? name = none) (ident : Nat) (f : Fn V X)
    (bargs : List V) (bkw : Dict Str V) (hb : bkw.WF) (v : V) (w : World V X) :
    ∃ kw, KwArgs bkw.get? kw ∧ callStep c name (partialStep ident f bargs bkw) v w = f (bargs ++ [v]) kw w := by
  have hi : InsWF { c with inserts := [] } := fun n d h => by simp at h
  have hc : callStep c name (partialStep ident f bargs bkw) v w =
      callStep { c with inserts := [] } name (partialStep ident f bargs bkw) v w := by
    simp [callStep, hn]
  obtain ⟨args, kw, h1, h2, h3, _⟩ := C28_inserts_override_baked { c with inserts := [] } hi name ident f bargs bkw hb v w
  have hins : ∀ k, insertsAt ({ c with inserts := [] } : Comp V X) name k = none := fun k => by simp [insertsAt]
  have h1' : PosArgs (baked bargs) v args := by
    have : over (fun i => insertsAt ({ c with inserts := [] } : Comp V X) name (.int i)) (baked bargs) = baked bargs := by
      funext i; simp [over, hins]
    rwa [this] at h1
  have h2' : KwArgs bkw.get? kw := by
    have : over (fun s => insertsAt ({ c with inserts := [] } : Comp V X) name (.str s)) bkw.get? = bkw.get? := by
      funext i; simp [over, hins]
    rwa [this] at h2
  refine ⟨kw, h2', ?_⟩
  rw [hc, h3]
  congr 1
  have ho : IsOpening (baked bargs) bargs.length := ⟨by simp [baked], fun i hi => by simp [baked, hi]⟩
  obtain ⟨hlen, hget⟩ := C27_no_gaps (baked bargs) v args h1' bargs.length (bargs.length + 1) ho (fun k => by
    simp only [baked]
    constructor
    · rintro (h | h)
      · omega
      · split at h
        · rename_i h0
          have := (List.getElem?_eq_some_iff.1 (Option.ne_none_iff_exists'.1 h).choose_spec).1
          omega
        · exact absurd rfl h
    · rintro ⟨h0, h1⟩
      rw [if_pos h0]
      by_cases h2 : k = bargs.length
      · exact Or.inl h2
      · right; rw [List.getElem?_eq_getElem (by omega)]; simp)
  apply List.ext_getElem?
  intro i
  by_cases hi : i < bargs.length + 1
  · rw [hget i hi]
    by_cases h5 : i = bargs.length
    · simp [h5]
    · rw [if_neg h5, List.getElem?_append_left (by omega)]
      simp [baked]
  · rw [List.getElem?_eq_none (by omega), List.getElem?_eq_none (by simp; omega)]

/-- a partial object with two positional arguments and a keyword; inserts for position 1, the keyword, and position 3 -/
def bakedComp : Comp Int Unit :=
  { steps := [(.int 0, partialStep 4 digits [1, 2] [("k".toList, 5)])]
    inserts := [(.int 0, [(.int 1, 9), (.str "k".toList, 1), (.int 3, 7)])] }

theorem bakedComp_wf : InsWF bakedComp := by
  intro n d h
  simp only [bakedComp, Dict.get?_cons, Dict.get?_nil] at h
  split at h
  · cases h; simp [Dict.WF]
  · cases h

example : ∃ args kw, PosArgs (over (fun i => insertsAt bakedComp (.int 0) (.int i)) (baked [1, 2])) 6 args ∧
    KwArgs (over (fun s => insertsAt bakedComp (.int 0) (.str s)) (Dict.get? [("k".toList, 5)])) kw ∧
    callStep bakedComp (.int 0) (partialStep 4 digits [1, 2] [("k".toList, 5)]) 6 w0 = digits args kw w0 ∧
    ∀ args', PosArgs (over (fun i => insertsAt bakedComp (.int 0) (.int i)) (baked [1, 2])) 6 args' → args' = args :=
  C28_inserts_override_baked bakedComp bakedComp_wf (.int 0) 4 digits [1, 2] [("k".toList, 5)] (by simp [Dict.WF]) 6 w0

example : (execute bakedComp 6 w0).1 = .ok 2967 := rfl

/-! ## C29 -/

/-- C29, later steps: when step `a` sends to argument `p` of a later step `b`, and no later send before `b`'s turn goes
there, `b` is called with the (piped) output `a` had in this very run as its insert `p` -/
theorem C29_later_step_same_run (c : Comp V X) (hi : InsWF c) (pre mid post : Dict Name (Step V X)) (a b p : Name)
    (sa sb : Step V X) (hsteps : c.steps = pre ++ (a, sa) :: mid ++ (b, sb) :: post)
    (hkw : ∀ k, sb.keywords = some k → k.WF) (s1 s2 : List (Send V X)) (sd : Send V X)
    (hs : sendsOf c a = s1 ++ sd :: s2) (hh : Hits sd b p) (h2 : ∀ x ∈ s2, ¬ Hits x b p)
    (hm : ∀ n s, (n, s) ∈ mid → ∀ x ∈ sendsOf c n, ¬ Hits x b p) (v : V) (w : World V X) (outs : List V) (c' : Comp V X)
    (w' : World V X) (hr : iterSteps c v (pre ++ (a, sa) :: mid) w = (outs, none, c', w')) :
    ∃ x y, (itercall c v w).1[pre.length]? = some x ∧ Piped sd x y ∧ insertsAt c' b p = some y ∧
      StepCalls sb (insertsAt c' b) (outs.getLast?.getD v) w' (callStep c' b sb (outs.getLast?.getD v) w') ∧
      itercall c v w = (outs ++ (iterSteps c' (outs.getLast?.getD v) ((b, sb) :: post) w').1,
        (iterSteps c' (outs.getLast?.getD v) ((b, sb) :: post) w').2) := by
  obtain ⟨x, y, h3, h4, h5⟩ := delivered hs hh h2 hm hr
  have hi' : InsWF c' := by
    have := iterSteps_insWF hi v (pre ++ (a, sa) :: mid) w
    rwa [hr] at this
  have hit : itercall c v w = (outs ++ (iterSteps c' (outs.getLast?.getD v) ((b, sb) :: post) w').1,
        (iterSteps c' (outs.getLast?.getD v) ((b, sb) :: post) w').2) := by
    rw [itercall, hsteps, iterSteps_append, hr]
  refine ⟨x, y, ?_, h4, h5, callStep_spec hi' b (fun _ => hkw) _ _, hit⟩
  rw [hit]
  simp only
  rw [List.getElem?_append_left]
  · exact h3
  · exact (List.getElem?_eq_some_iff.1 h3).1

/-- C29, earlier steps (or `a` itself): when step `a` sends to argument `p` of a step `b` that does not come after it, and
no later send of the run goes there, then in the next run `b` is called with the (piped) output `a` had in this run -/
theorem C29_earlier_step_next_run [PyNone V] (c : Comp V X) (hi : InsWF c) (pre l1 l2 post : Dict Name (Step V X))
    (a b p : Name) (sa sb : Step V X) (hsteps : c.steps = l1 ++ (a, sa) :: l2)
    (hsteps' : c.steps = pre ++ (b, sb) :: post) (hkw : ∀ k, sb.keywords = some k → k.WF) (s1 s2 : List (Send V X))
    (sd : Send V X) (hs : sendsOf c a = s1 ++ sd :: s2) (hh : Hits sd b p) (h2 : ∀ x ∈ s2, ¬ Hits x b p)
    (hm : ∀ n s, (n, s) ∈ l2 → ∀ x ∈ sendsOf c n, ¬ Hits x b p)
    (hp : ∀ n s, (n, s) ∈ pre → ∀ x ∈ sendsOf c n, ¬ Hits x b p) (v : V) (w : World V X) (r : V) (c' : Comp V X)
    (w' : World V X) (hr : execute c v w = (.ok r, c', w')) (hopt : c.optional = false)
    (v2 : V) (w2 : World V X) (outs : List V) (c'' : Comp V X) (w'' : World V X)
    (hr2 : iterSteps c' v2 pre w2 = (outs, none, c'', w'')) :
    ∃ x y, (itercall c v w).1[l1.length]? = some x ∧ Piped sd x y ∧ insertsAt c'' b p = some y ∧
      StepCalls sb (insertsAt c'' b) (outs.getLast?.getD v2) w'' (callStep c'' b sb (outs.getLast?.getD v2) w'') ∧
      itercall c' v2 w2 = (outs ++ (iterSteps c'' (outs.getLast?.getD v2) ((b, sb) :: post) w'').1,
        (iterSteps c'' (outs.getLast?.getD v2) ((b, sb) :: post) w'').2) := by
  have hok : ∃ outs1, itercall c v w = (outs1, none, c', w') := by
    have hcomp := execute_comp c v w
    rw [hr] at hcomp
    rw [execute] at hr
    rcases hit : itercall c v w with ⟨o, e, c1, w1⟩
    rw [hit] at hr hcomp
    cases e with
    | none =>
      simp only [Prod.mk.injEq] at hr
      obtain ⟨_, rfl, rfl⟩ := hr
      exact ⟨o, rfl⟩
    | some e =>
      exfalso
      simp only [hopt, Bool.false_eq_true, if_false] at hr
      split at hr
      · split at hr
        · simp at hr
        · simp at hr
        · split at hr <;> simp at hr
      · simp at hr
  obtain ⟨outs1, hit⟩ := hok
  have hit' : iterSteps c v (l1 ++ (a, sa) :: l2) w = (outs1, none, c', w') := by rw [← hsteps]; exact hit
  obtain ⟨x, y, h3, h4, h5⟩ := delivered hs hh h2 hm hit'
  have hsame : SameBut c c' := by
    have := iterSteps_same c v c.steps w
    change SameBut c (itercall c v w).2.2.1 at this
    rwa [hit] at this
  have hi' : InsWF c' := by
    have := iterSteps_insWF hi v c.steps w
    change InsWF (itercall c v w).2.2.1 at this
    rwa [hit] at this
  have hi'' : InsWF c'' := by
    have := iterSteps_insWF hi' v2 pre w2
    rwa [hr2] at this
  have hne := iterSteps_ne (c := c') v2 pre w2 (b := b) (p := p) (fun n s h => by
    rw [sendsOf, hsame.sends]; exact hp n s h)
  rw [hr2] at hne
  refine ⟨x, y, by rw [hit]; exact h3, h4, hne.trans h5, callStep_spec hi'' b (fun _ => hkw) _ _, ?_⟩
  rw [itercall, hsame.steps, hsteps', iterSteps_append, hr2]

/-- the output of step 0, doubled, is sent to position 0 of step 2; that of step 2 to keyword `k` of step 0 -/
def sendComp : Comp Int Unit :=
  { steps := [(.int 0, digitStep), (.int 1, addTwo), (.int 2, digitStep)]
    sends := [(.int 0, [⟨some fun v w => (.ok (2 * v), w), some (.stepInt 2), .int 0⟩]),
      (.int 2, [⟨none, some (.stepInt 0), .str "k".toList⟩])] }

/-- 1, then 3, then 2·1 and 3: 23; in the next run the 23 is back at step 0 -/
example : (execute sendComp 1 w0).1 = .ok 23 ∧
    (itercall (execute sendComp 1 w0).2.1 1 w0).1 = [23001, 23003, 10 * 46002 + 23003] := ⟨rfl, rfl⟩

theorem sendComp_wf : InsWF sendComp := by intro n d h; simp [sendComp] at h

example : ∃ x y, (itercall sendComp 1 w0).1[0]? = some x ∧
    Piped (⟨some fun v w => (.ok (2 * v), w), some (.stepInt 2), .int 0⟩ : Send Int Unit) x y ∧
    insertsAt (iterSteps sendComp 1 [(.int 0, digitStep), (.int 1, addTwo)] w0).2.2.1 (.int 2) (.int 0) = some y := by
  obtain ⟨x, y, h1, h2, h3, _⟩ := C29_later_step_same_run sendComp sendComp_wf [] [(.int 1, addTwo)] [] (.int 0) (.int 2) (.int 0)
    digitStep digitStep rfl (by simp [digitStep]) [] [] _ rfl ⟨rfl, rfl⟩ (by simp)
    (by intro n s h; simp only [List.mem_singleton, Prod.mk.injEq] at h; rw [h.1]; simp [sendsOf, sendComp, Dict.get?_cons])
    1 w0 _ _ _ rfl
  exact ⟨x, y, h1, h2, h3⟩

example : ∃ x y, (itercall sendComp 1 w0).1[2]? = some x ∧
    Piped (⟨none, some (.stepInt 0), .str "k".toList⟩ : Send Int Unit) x y ∧
    insertsAt (execute sendComp 1 w0).2.1 (.int 0) (.str "k".toList) = some y := by
  obtain ⟨x, y, h1, h2, h3, _⟩ := C29_earlier_step_next_run sendComp sendComp_wf [] [(.int 0, digitStep), (.int 1, addTwo)] []
    [(.int 1, addTwo), (.int 2, digitStep)] (.int 2) (.int 0) (.str "k".toList) digitStep digitStep rfl rfl
    (by simp [digitStep]) [] [] _ rfl ⟨rfl, rfl⟩ (by simp) (by simp) (by simp) 1 w0 23 _ _ rfl rfl 1 w0 [] _ _ rfl
  exact ⟨x, y, h1, h2, h3⟩

/-! ## C31 -/

/-- C31: when a run fails, it fails at one step, all steps before which succeeded; that step (or one of its sends) raised,
and nothing after it happens: the run would be the same whatever steps came after -/
theorem C31_stops_at_failing_step (c : Comp V X) (v : V) (w : World V X) (outs : List V) (e : PyErr) (c' : Comp V X)
    (w' : World V X) (h : itercall c v w = (outs, some e, c', w')) :
    ∃ n s c1 w1, c.steps[outs.length]? = some (n, s) ∧
      iterSteps c v (c.steps.take outs.length) w = (outs, none, c1, w1) ∧
      doStep c1 n s (outs.getLast?.getD v) w1 = (.error e, c', w') ∧
      ∀ later, iterSteps c v (c.steps.take outs.length ++ (n, s) :: later) w = (outs, some e, c', w') := by
  obtain ⟨n, s, c1, w1, h1, h2, h3⟩ := iterSteps_fail h
  refine ⟨n, s, c1, w1, h1, h2, h3, fun later => ?_⟩
  rw [iterSteps_append, h2]
  simp only [iterSteps, h3, List.append_nil]

/-- C31: with a tracker, the failure of an ordinary exception adds one record, for the failing step, and the exception is
raised, or `None` returned if the Composition is optional; `KeyboardInterrupt` and `SystemExit` are not recorded, and
raised in either case. (`StopIteration` arrives as `RuntimeError`.) -/
theorem C31_failure_is_reported [PyNone V] (c : Comp V X) (v : V) (w : World V X) (outs : List V) (e : PyErr) (c' : Comp V X)
    (w' : World V X) (h : itercall c v w = (outs, some e, c', w')) :
    (e.isException = true → c.tracker = some logTracker → ∃ n s, c.steps[outs.length]? = some (n, s) ∧
      execute c v w = (if c.optional then .ok PyNone.none else .error (fromGenerator e), c',
        { w' with log := w'.log ++ [{ target := s.ident, failure := some (fromGenerator e) }] })) ∧
    (e.isException = true → c.tracker = none →
      execute c v w = (if c.optional then .ok PyNone.none else .error (fromGenerator e), c', w')) ∧
    (e.isException = false → execute c v w = (.error e, c', w')) := by
  obtain ⟨n, s, _, _, h1, _, _⟩ := C31_stops_at_failing_step c v w outs e c' w' h
  have hg : (fromGenerator e).isException = e.isException := by cases e <;> rfl
  refine ⟨fun he ht => ⟨n, s, h1, ?_⟩, fun he ht => ?_, fun he => ?_⟩
  · simp only [execute, h, hg, he, if_true, ht, h1, logTracker]
  · simp only [execute, h, hg, he, if_true, ht]
  · simp only [execute, h, hg, he, Bool.false_eq_true, if_false]

theorem iterSteps_log [PyNone V] (l : Dict Name (Step V X)) (c : Comp V X)
    (hs : ∀ n s, (n, s) ∈ l → sendsOf c n = [⟨some (trackPipe logTracker n s), none, .none⟩])
    (hq : ∀ n s, (n, s) ∈ l → s.func = none ∧ ∀ args kw w, (s.call args kw w).2.log = w.log) (v : V) (w : World V X) :
    (iterSteps c v l w).2.2.2.log = w.log ++ (l.take (iterSteps c v l w).1.length).map fun p =>
      { target := p.2.ident, step := some p.1 } := by
  induction l generalizing v w with
  | nil => simp [iterSteps]
  | cons p t ih =>
    obtain ⟨n, s⟩ := p
    have hc : (callStep c n s v w).2.log = w.log := by
      have h := (hq n s List.mem_cons_self)
      simp only [callStep, h.1, callWith]
      split <;> exact h.2 _ _ _
    rw [iterSteps, doStep]
    rcases hcs : callStep c n s v w with ⟨r, w1⟩
    rw [hcs] at hc
    simp only at hc
    cases r with
    | error e => simpa using hc
    | ok x =>
      have hsn := hs n s List.mem_cons_self
      rw [sendsOf] at hsn
      simp only [performSends, hsn, performSendList, performSend, trackPipe, logTracker]
      have := ih (fun n s h => hs n s (List.mem_cons_of_mem _ h)) (fun n s h => hq n s (List.mem_cons_of_mem _ h)) x
        { w1 with log := w1.log ++ [{ target := s.ident, step := some n }] }
      rw [this, hc]
      simp

theorem map_mapIdx {α β γ : Type} (f : Nat → α → β) (g : β → γ) (l : List α) :
    (l.mapIdx f).map g = l.mapIdx fun i a => g (f i a) := by
  apply List.ext_getElem?
  intro i
  simp only [List.getElem?_map, List.getElem?_mapIdx, Option.map_map]
  rfl

theorem take_mapIdx {α β : Type} (f : Nat → α → β) (l : List α) (n : Nat) : (l.mapIdx f).take n = (l.take n).mapIdx f := by
  apply List.ext_getElem?
  intro i
  simp only [List.getElem?_take, List.getElem?_mapIdx]
  by_cases h : i < n
  · simp only [if_pos h]
  · simp only [if_neg h]; rfl

theorem mapIdx_self {α : Type} (l : List α) : (l.mapIdx fun _ a => a) = l := by
  apply List.ext_getElem?
  intro i
  simp only [List.getElem?_mapIdx]
  cases l[i]? <;> rfl

theorem foldl_set_append {κ α : Type} [DecidableEq κ] (l acc : Dict κ α) (h : Dict.WF (acc ++ l)) :
    l.foldl (fun d kv => Dict.set d kv.1 kv.2) acc = acc ++ l := by
  induction l generalizing acc with
  | nil => simp
  | cons p t ih =>
    obtain ⟨k, v⟩ := p
    rw [List.foldl_cons]
    have hk : k ∉ Dict.keys acc := by
      intro hk
      rw [Dict.WF, Dict.keys_append, Dict.keys_cons, List.nodup_append] at h
      exact h.2.2 k hk k List.mem_cons_self rfl
    rw [Dict.set_of_not_mem k v hk, ih _ (by simpa using h)]
    simp

/-- steps given as a list are numbered from 0 -/
theorem enumerate_list (l : List (Step V X)) :
    enumerateAsMapping (fun n => Name.int n) (.iterable l) = l.mapIdx fun i s => (Name.int i, s) := by
  have h : (l.zipIdx.map fun x => (Name.int x.2, x.1)) = l.mapIdx fun i s => (Name.int i, s) := by
    rw [List.mapIdx_eq_zipIdx_map]
  rw [enumerateAsMapping, h, foldl_set_append]
  · rfl
  · simp only [List.nil_append, Dict.WF, Dict.keys]
    rw [map_mapIdx, List.Nodup, List.pairwise_iff_getElem]
    intro i j hi hj hij
    simp
    omega

theorem addTrackSends_sends [PyNone V] {t : TrackRec → Act V X Unit} (l : Dict Name (Step V X)) (c : Comp V X)
    (ht : c.tracker = some t) (wf : Dict.WF l) (hn : ∀ n ∈ Dict.keys l, c.sends.get? n = none) :
    (∀ n s, (n, s) ∈ l → sendsOf (addTrackSends c l) n = [⟨some (trackPipe t n s), none, .none⟩]) ∧
    ∀ n, n ∉ Dict.keys l → (addTrackSends c l).sends.get? n = c.sends.get? n := by
  induction l generalizing c with
  | nil => exact ⟨by simp, fun n _ => rfl⟩
  | cons p r ih =>
    obtain ⟨n, s⟩ := p
    have wf' := List.nodup_cons.1 wf
    have hone : addTrackSend c n s = { c with sends := c.sends.set n [⟨some (trackPipe t n s), none, .none⟩] } := by
      simp [addTrackSend, ht, addSend, hn n (by simp)]
    have h := ih (addTrackSend c n s) (by rw [hone]; exact ht) wf'.2 (fun m hm => by
      rw [hone]
      simp only [Dict.get?_set]
      rw [if_neg (by rintro rfl; exact wf'.1 hm)]
      exact hn m (by simp [hm]))
    rw [addTrackSends]
    refine ⟨fun m s' hm => ?_, fun m hm => ?_⟩
    · rcases List.mem_cons.1 hm with he | hm
      · simp only [Prod.mk.injEq] at he
        obtain ⟨rfl, rfl⟩ := he
        rw [sendsOf, h.2 m wf'.1, hone]
        simp [Dict.get?_set]
      · exact h.1 m s' hm
    · simp only [Dict.keys_cons, List.mem_cons, not_or] at hm
      rw [h.2 m hm.2, hone]
      simp only [Dict.get?_set, if_neg (Ne.symm hm.1)]

theorem addTrackSend_steps [PyNone V] (c : Comp V X) (n : Name) (s : Step V X) : (addTrackSend c n s).steps = c.steps := by
  unfold addTrackSend
  cases c.tracker with
  | none => rfl
  | some t => simp [addSend]

theorem addTrackSends_steps [PyNone V] (l : Dict Name (Step V X)) (c : Comp V X) : (addTrackSends c l).steps = c.steps := by
  induction l generalizing c with
  | nil => rfl
  | cons p t ih =>
    obtain ⟨n, s⟩ := p
    rw [addTrackSends, ih, addTrackSend_steps]

theorem wf_numbered (l : List (Step V X)) : Dict.WF (l.mapIdx fun i s => (Name.int i, s)) := by
  simp only [Dict.WF, Dict.keys]
  rw [map_mapIdx, List.Nodup, List.pairwise_iff_getElem]
  intro i j hi hj hij
  simp
  omega

theorem compInit_steps [PyNone V] (l : List (Step V X)) (sends : Dict Name (List (Send V X)))
    (inserts : Dict Name (Dict Name V)) (tracker : Option (TrackRec → Act V X Unit)) (optional : Bool) :
    (compInit (.iterable l) sends inserts tracker optional).steps = l.mapIdx fun i s => (Name.int i, s) := by
  simp only [compInit, stepsOrIdentity, enumerate_list, addTrackSends_steps]

/-- C31, with the tracker given at construction: the log gains a record for each completed step and then one for the
failing one; for steps that do not themselves write to the log, and no other sends -/
theorem C31_log_of_a_run [PyNone V] (steps : List (Step V X)) (optional : Bool) (v : V) (w : World V X)
    (hq : ∀ s ∈ steps, s.func = none ∧ ∀ args kw w, (s.call args kw w).2.log = w.log)
    (c : Comp V X) (hc : c = compInit (.iterable steps) [] [] (some logTracker) optional) (outs : List V)
    (e : Option PyErr) (c' : Comp V X) (w' : World V X) (h : itercall c v w = (outs, e, c', w')) :
    w'.log = w.log ++ ((steps.take outs.length).mapIdx fun i s => { target := s.ident, step := some (.int i) }) := by
  subst hc
  have hl := iterSteps_log (steps.mapIdx fun i s => (Name.int i, s)) (compInit (.iterable steps) [] [] (some logTracker) optional)
    (by
      have := (addTrackSends_sends (steps.mapIdx fun i s => (Name.int i, s)) ({
        steps := steps.mapIdx fun i s => (Name.int i, s), tracker := some logTracker, optional } : Comp V X)
        rfl (wf_numbered steps) (fun _ _ => rfl)).1
      simpa only [compInit, stepsOrIdentity, enumerate_list] using this)
    (by
      intro n s hm
      obtain ⟨i, hi, he⟩ := List.mem_mapIdx.1 hm
      simp only [Prod.mk.injEq] at he
      rw [← he.2]
      exact hq _ (List.getElem_mem hi)) v w
  have h' : iterSteps (compInit (.iterable steps) [] [] (some logTracker) optional) v (steps.mapIdx fun i s => (Name.int i, s)) w =
      (outs, e, c', w') := by
    rw [← compInit_steps steps [] [] (some logTracker) optional]; exact h
  rw [h'] at hl
  simp only at hl
  rw [hl, take_mapIdx, map_mapIdx]

/-- a pipeline that fails at its second step -/
def failComp (optional : Bool) : Comp Int Unit :=
  compInit (.iterable [addTwo, oops, timesThree]) [] [] (some logTracker) optional

example : itercall (failComp true) 1 w0 = ([3], some .zeroDivision, failComp true,
    { w0 with log := [{ target := 1, step := some (.int 0) }] }) := rfl

example : ∃ n s, (failComp true).steps[1]? = some (n, s) ∧ execute (failComp true) 1 w0 = (.ok (-1), failComp true,
    { w0 with log := [{ target := 1, step := some (.int 0) }] ++ [{ target := s.ident, failure := some .zeroDivision }] }) :=
  (C31_failure_is_reported (failComp true) 1 w0 [3] .zeroDivision (failComp true) _ rfl).1 rfl rfl

/-! ## C32 -/

/-- add steps without names, one after the other -/
def addSteps [PyNone V] (c : Comp V X) (l : List (Step V X)) : Comp V X := l.foldl (fun c s => addStep c s) c

/-- C32: steps added without names to a Composition made from a list come after all others, in the order of their
addition, and replace none -/
theorem C32_unnamed_steps_append [PyNone V] (l added : List (Step V X)) (sends : Dict Name (List (Send V X)))
    (inserts : Dict Name (Dict Name V)) (tracker : Option (TrackRec → Act V X Unit)) (optional : Bool) :
    Dict.values (addSteps (compInit (.iterable l) sends inserts tracker optional) added).steps = l ++ added := by
  have key : ∀ (added : List (Step V X)) (c : Comp V X), (∀ k ∈ Dict.keys c.steps, ∃ i : Int, k = .int i ∧ i ≤ c.steps.length) →
      Dict.values (addSteps c added).steps = Dict.values c.steps ++ added := by
    intro added
    induction added with
    | nil => intro c _; simp [addSteps]
    | cons s t ih =>
      intro c hc
      have hnew : Name.int (c.steps.length + 1) ∉ Dict.keys c.steps := by
        intro hm
        obtain ⟨i, hi, hle⟩ := hc _ hm
        simp only [Name.int.injEq] at hi
        omega
      have hst : (addStep c s).steps = c.steps ++ [(.int (c.steps.length + 1), s)] := by
        simp only [addStep, Option.getD_none]
        rw [addTrackSend_steps]
        exact Dict.set_of_not_mem _ _ hnew
      have := ih (addStep c s) (by
        intro k hk
        rw [hst, Dict.keys_append] at hk
        rw [hst]
        rcases List.mem_append.1 hk with hk | hk
        · obtain ⟨i, hi, hle⟩ := hc k hk
          exact ⟨i, hi, by simp; omega⟩
        · simp [Dict.keys] at hk
          exact ⟨_, hk, by simp⟩)
      rw [show addSteps c (s :: t) = addSteps (addStep c s) t from rfl, this, hst]
      simp [Dict.values]
  rw [key added _ (by
    rw [compInit_steps]
    intro k hk
    simp only [Dict.keys, map_mapIdx, List.mem_mapIdx] at hk
    obtain ⟨i, hi, rfl⟩ := hk
    exact ⟨i, rfl, by simp; omega⟩), compInit_steps]
  simp only [Dict.values, map_mapIdx]
  rw [mapIdx_self]

/-- C32: not so when a step has been given an integer for a name: the next step without a name may replace it -/
theorem C32_named_step_replaced : ∃ c : Comp Int Unit, c = addStep (compInit (.iterable [addTwo]) [] [] none false) oops (some (.int 3)) ∧
    Dict.values (addStep c timesThree).steps = [addTwo, timesThree] :=
  ⟨_, rfl, rfl⟩

example : Dict.values (addSteps (compInit (.iterable [addTwo]) [] [] (some logTracker) false) [oops, timesThree]).steps =
    [addTwo, oops, timesThree] :=
  C32_unnamed_steps_append [addTwo] [oops, timesThree] [] [] (some logTracker) false

/-! ## C33 -/

/-- C33, in full: `reindex` does not change what a pipeline gives and does -/
def C33_full : Prop :=
  ∀ (V X : Type) [PyNone V] (c : Comp V X) (_ : CompWF c) (v : V) (w : World V X),
    (execute (reindex c) v w).1 = (execute c v w).1 ∧ (execute (reindex c) v w).2.2 = (execute c v w).2.2

/-- C33: an insert for a step not named by its place is lost by `reindex` -/
theorem C33_full_false : ¬ C33_full := by
  intro h
  have h1 := (h Int Unit insComp ⟨by simp [Dict.WF, insComp, firstName], by
    intro n d h
    simp only [insComp, Dict.get?_cons, Dict.get?_nil] at h
    split at h
    · cases h; simp [Dict.WF]
    · exact absurd h (by simp), by
    intro n s h k hk
    simp only [insComp, List.mem_cons, Prod.mk.injEq, List.not_mem_nil, or_false] at h
    rcases h with ⟨_, rfl⟩ | ⟨_, rfl⟩ <;> simp [digitStep, timesThree, pureStep] at hk⟩ 3 w0).1
  have h2 : (execute (reindex insComp) 3 w0).1 = .ok 9 := rfl
  have h3 : (execute insComp 3 w0).1 = .ok (3 * 5436) := rfl
  rw [h2, h3] at h1
  exact absurd h1 (by decide)

theorem reindex_steps (c : Comp V X) : (reindex c).steps = (Dict.values c.steps).mapIdx fun i s => (Name.int i, s) := by
  have h : reindexMapping c.steps = (List.range c.steps.length).zip (Dict.values c.steps) := by
    unfold reindexMapping
    rw [foldl_set_append]
    · rfl
    · simp only [List.nil_append, Dict.WF, Dict.keys]
      rw [List.map_fst_zip (by simp [Dict.values])]
      exact List.nodup_range
  simp only [reindex, h]
  apply List.ext_getElem?
  intro i
  simp only [List.getElem?_map, List.getElem?_mapIdx, Dict.values]
  by_cases hi : i < c.steps.length
  · rw [List.getElem?_eq_getElem (by simp; omega), List.getElem?_eq_getElem (by exact hi)]
    simp
  · rw [List.getElem?_eq_none (by simp; omega), List.getElem?_eq_none (by omega)]
    rfl

/-- C33, the part that holds: true of Compositions without sends or inserts; and of those whose steps are already numbered
in order, which `reindex` leaves as they are -/
theorem C33_reindex_partial [PyNone V] (c : Comp V X) :
    (NoSends c → (∀ n, c.inserts.get? n = none) → ∀ v w,
      (execute (reindex c) v w).1 = (execute c v w).1 ∧ (execute (reindex c) v w).2.2 = (execute c v w).2.2) ∧
    (Dict.keys c.steps = (List.range c.steps.length).map (fun i : Nat => Name.int i) → reindex c = c) := by
  constructor
  · intro hno hins v w
    have key : ∀ (l l' : Dict Name (Step V X)), Dict.values l = Dict.values l' → ∀ (c' : Comp V X), c'.sends = c.sends →
        c'.inserts = c.inserts → ∀ v w, (iterSteps c' v l w).1 = (iterSteps c v l' w).1 ∧
        (iterSteps c' v l w).2.1 = (iterSteps c v l' w).2.1 ∧ (iterSteps c' v l w).2.2.2 = (iterSteps c v l' w).2.2.2 := by
      intro l
      induction l with
      | nil =>
        intro l' hl
        cases l' with
        | nil => intro c' _ _ v w; exact ⟨rfl, rfl, rfl⟩
        | cons p t => simp [Dict.values] at hl
      | cons p t ih =>
        intro l' hl c' h1 h2 v w
        cases l' with
        | nil => simp [Dict.values] at hl
        | cons q r =>
          obtain ⟨n, s⟩ := p
          obtain ⟨m, s'⟩ := q
          simp only [Dict.values, List.map_cons, List.cons.injEq] at hl
          obtain ⟨rfl, hl⟩ := hl
          have hcall : callStep c' n s v w = callStep c m s v w := by
            simp only [callStep, h2, hins]
          have hno' : NoSends c' := fun n l h => hno n l (by rw [← h1]; exact h)
          simp only [iterSteps, doStep, hcall, performSends_none hno, performSends_none hno']
          rcases callStep c m s v w with ⟨x, w1⟩
          cases x with
          | error e => exact ⟨rfl, rfl, rfl⟩
          | ok y =>
            obtain ⟨e1, e2, e3⟩ := ih r hl c' h1 h2 y w1
            exact ⟨by simp only [e1], e2, e3⟩
    have hv : Dict.values (reindex c).steps = Dict.values c.steps := by
      rw [reindex_steps]
      simp only [Dict.values, map_mapIdx]
      exact mapIdx_self _
    obtain ⟨e1, e2, e3⟩ := key (reindex c).steps c.steps hv (reindex c) rfl rfl v w
    have hget : ∀ i : Nat, ((reindex c).steps[i]?).map Prod.snd = (c.steps[i]?).map Prod.snd := by
      intro i
      have := congrArg (fun l => l[i]?) hv
      simpa [Dict.values] using this
    simp only [execute, itercall]
    rcases h1 : iterSteps (reindex c) v (reindex c).steps w with ⟨o1, x1, c1, w1⟩
    rcases h2 : iterSteps c v c.steps w with ⟨o2, x2, c2, w2⟩
    rw [h1, h2] at e1 e2 e3
    simp only at e1 e2 e3
    subst e1 e2 e3
    cases x1 with
    | none => exact ⟨rfl, rfl⟩
    | some e =>
      simp only [show (reindex c).tracker = c.tracker from rfl, show (reindex c).optional = c.optional from rfl]
      have hg := hget o1.length
      by_cases he : (fromGenerator e).isException = true
      · rw [if_pos he, if_pos he]
        cases c.tracker with
        | none => exact ⟨rfl, rfl⟩
        | some t =>
          rcases ha : (reindex c).steps[o1.length]? with _ | ⟨n, s⟩ <;> rcases hb : c.steps[o1.length]? with _ | ⟨n', s'⟩ <;>
            rw [ha, hb] at hg <;> simp at hg
          · exact ⟨rfl, rfl⟩
          · subst hg
            simp only
            rcases t { target := s.ident, failure := some (fromGenerator e) } w1 with ⟨r, w3⟩
            cases r <;> exact ⟨rfl, rfl⟩
      · rw [if_neg he, if_neg he]
        exact ⟨rfl, rfl⟩
  · intro hk
    have : (reindex c).steps = c.steps := by
      rw [reindex_steps]
      apply List.ext_getElem?
      intro i
      have h1 := congrArg (fun l => l[i]?) hk
      simp only [Dict.keys, List.getElem?_map] at h1
      simp only [Dict.values, List.getElem?_mapIdx, List.getElem?_map]
      by_cases hi : i < c.steps.length
      · rw [List.getElem?_range hi, List.getElem?_eq_getElem hi] at h1
        rw [List.getElem?_eq_getElem hi]
        simp only [Option.map_some, Option.some.injEq] at h1 ⊢
        rw [← h1]
      · rw [List.getElem?_eq_none (by omega)]
        rfl
    obtain ⟨a1, a2, a3, a4, a5, a6⟩ := c
    simp only at this
    rw [reindex]
    simp only [reindex] at this
    rw [this]

/-- a pipeline with names, and one with inserts, numbered -/
def namedComp : Comp Int Unit := { steps := [(firstName, addTwo), (.int 9, timesThree)] }

example : (execute (reindex namedComp) 3 w0).1 = (execute namedComp 3 w0).1 ∧
    (execute (reindex namedComp) 3 w0).2.2 = (execute namedComp 3 w0).2.2 :=
  (C33_reindex_partial namedComp).1 (fun n l h => by simp [namedComp] at h) (fun _ => rfl) 3 w0

example : reindex bakedComp = bakedComp := (C33_reindex_partial bakedComp).2 rfl

end Verif.Props
