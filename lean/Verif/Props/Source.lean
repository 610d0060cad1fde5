import Verif.Model.Source
import Verif.Py.Tactics
/-! # C79: a Dynamic and the function its source defines -/
namespace Verif.Props
open Verif Verif.Model

variable {B V G W : Type}

/-- the function object that executing the definition binds (undecorated): its own code object and its defaults -/
def defined (d : FnDef B V) (g : G) : FnObj B V G := ⟨d.code, g, d.defaults⟩

/-- a source that defines one function: statements without code objects of their own (imports, assignments) around a
definition -/
structure OneFunction (s : List (Stmt B V)) (d : FnDef B V) : Prop where
  form : ∃ pre post, s = pre ++ .fn d :: post ∧ codeChildren pre = []

/-- the call gives every parameter an argument -/
def Supplies (params : List Str) (a : CallArgs V) : Prop :=
  ∀ p ∈ params.drop a.pos.length, (a.kw.get? p).isSome = true

theorem codeChildren_append (s t : List (Stmt B V)) : codeChildren (s ++ t) = codeChildren s ++ codeChildren t := by
  induction s with
  | nil => rfl
  | cons x s ih => simp [codeChildren, ih]

private theorem bind_supplied (ds : Dict Str V) (kw : Dict Str V) :
    ∀ (ps : List Str) (vs : List V), (∀ p ∈ ps.drop vs.length, (kw.get? p).isSome = true) →
      bindParams ds kw ps vs = bindParams [] kw ps vs
  | [], [], _ => rfl
  | [], _ :: _, _ => rfl
  | p :: ps, v :: vs, h => by
    simp only [bindParams]
    rw [bind_supplied ds kw ps vs (by simpa using h)]
  | p :: ps, [], h => by
    have hp := h p (by simp)
    simp only [bindParams]
    rw [bind_supplied ds kw ps [] (fun q hq => h q (by simp at hq ⊢; exact Or.inr hq))]
    obtain ⟨v, hv⟩ := Option.isSome_iff_exists.1 hp
    simp [bindNamed, hv]

private theorem bind_missing (kw : Dict Str V) :
    ∀ (ps : List Str) (vs : List V) (p : Str), p ∈ ps.drop vs.length → kw.get? p = none →
      bindParams [] kw ps vs = .error .typeError
  | [], vs, p, h, _ => by simp at h
  | q :: ps, v :: vs, p, h, hk => by
    simp only [bindParams]
    split
    · rfl
    · rw [bind_missing kw ps vs p (by simpa using h) hk]
  | q :: ps, [], p, h, hk => by
    simp only [bindParams]
    cases hn : bindNamed ([] : Dict Str V) kw q with
    | error e =>
      simp only [bindNamed, Dict.get?] at hn
      cases h1 : kw.get? q with
      | some v => rw [h1] at hn; simp at hn
      | none => rw [h1] at hn; simp at hn; simp [hn]
    | ok v =>
      simp only [List.length_nil, List.drop_zero, List.mem_cons] at h
      rcases h with rfl | h
      · simp [bindNamed, hk, Dict.get?] at hn
      · rw [bind_missing kw ps [] p (by simpa using h) hk]

private theorem call_supplied (eval : B → G → Dict Str V → W → Except PyErr V × W) (d : FnDef B V) (g : G)
    (a : CallArgs V) (w : W) (h : Supplies d.code.params a) :
    callFn eval ⟨d.code, g, []⟩ a w = callFn eval (defined d g) a w := by
  have hb : bindArgs d.code.params d.defaults a = bindArgs d.code.params [] a := by
    simp only [bindArgs]
    rw [bind_supplied d.defaults a.kw _ _ h]
  simp only [callFn, defined]
  rw [hb]

private theorem new_loaded (eval : B → G → Dict Str V → W → Except PyErr V × W) (here : G) (s : List (Stmt B V))
    (c : CodeObj B) (rest : List (CodeObj B)) (hs : codeChildren s = c :: rest) (g : Option G) (opt loc : Bool) (w0 : W) :
    ∃ dyn, dynNew (sourcePy eval here) { source := some s, globals := g, optional := opt, loadOnCall := loc } w0 = .ok dyn ∧
      dyn.funcVal = some ⟨c, g.getD here, []⟩ ∧ dyn.optional = opt := by
  refine ⟨{
    source := some s, globals := g, optional := opt, loadOnCall := loc, code := some (some c)
    func := some (some ⟨c, g.getD here, []⟩) }, ?_, rfl, rfl⟩
  simp [dynNew, dynInit, dynLoad, dynCompile, dynDefine, compileSrc, defineFn, sourcePy, hs, getCodechild,
    Dyn.funcVal, Dyn.codeVal]

private theorem call_loaded (py : Py (List (Stmt B V)) (CodeObj B) G (FnObj B V G) (CallArgs V) V W)
    (dyn : Dyn (List (Stmt B V)) (CodeObj B) G (FnObj B V G)) (f : FnObj B V G) (hf : dyn.funcVal = some f)
    (a : CallArgs V) (o : Option Bool) (w : W) :
    dynCall py a o dyn w = finishCall (o.getD dyn.optional) dyn (py.run f a w).1 (py.run f a w).2 := by
  simp [dynCall, maybeLoad, hf]

/-- **C79 (partial).** A Dynamic made from a source whose first code object is that of its function: a call that gives every
parameter an argument does exactly what the function defined by the source does (result, exceptions, effects).
Missing: calls that rely on default values (`C79_defaults_lost`), decorators or defaults with lambdas
(`C79_first_code_object`). -/
theorem C79_source_partial (eval : B → G → Dict Str V → W → Except PyErr V × W) (here : G) (s : List (Stmt B V))
    (d : FnDef B V) (hs : OneFunction s d) (hi : d.inner = []) (g : Option G) (loc : Bool) (w0 : W) :
    ∃ dyn, dynNew (sourcePy eval here) { source := some s, globals := g, loadOnCall := loc } w0 = .ok dyn ∧
      ∀ (a : CallArgs V) (w : W), Supplies d.code.params a →
        dynCall (sourcePy eval here) a none dyn w =
          ((callFn eval (defined d (g.getD here)) a w).1.map some, dyn, (callFn eval (defined d (g.getD here)) a w).2) := by
  obtain ⟨pre, post, rfl, hpre⟩ := hs.form
  have hc : codeChildren (pre ++ .fn d :: post) = d.code :: codeChildren post := by
    rw [codeChildren_append, hpre]; simp [codeChildren, stmtCodes, hi]
  obtain ⟨dyn, h1, h2, h3⟩ := new_loaded eval here _ _ _ hc g false loc w0
  refine ⟨dyn, h1, fun a w ha => ?_⟩
  rw [call_loaded _ _ _ h2, h3]
  simp only [Option.getD_none, finishCall, Bool.false_eq_true, if_false]
  rw [show (sourcePy eval here).run = callFn eval from rfl, call_supplied eval d _ a w ha]

/-- **C79, what happens otherwise.** A call that leaves any parameter to its default raises `TypeError` without running
the body, whatever the defaults in the source are. -/
theorem C79_defaults_lost (eval : B → G → Dict Str V → W → Except PyErr V × W) (here : G) (s : List (Stmt B V))
    (d : FnDef B V) (hs : OneFunction s d) (hi : d.inner = []) (g : Option G) (loc : Bool) (w0 : W) :
    ∃ dyn, dynNew (sourcePy eval here) { source := some s, globals := g, loadOnCall := loc } w0 = .ok dyn ∧
      ∀ (a : CallArgs V) (w : W), ¬ Supplies d.code.params a →
        dynCall (sourcePy eval here) a none dyn w = (.error .typeError, dyn, w) := by
  obtain ⟨pre, post, rfl, hpre⟩ := hs.form
  have hc : codeChildren (pre ++ .fn d :: post) = d.code :: codeChildren post := by
    rw [codeChildren_append, hpre]; simp [codeChildren, stmtCodes, hi]
  obtain ⟨dyn, h1, h2, h3⟩ := new_loaded eval here _ _ _ hc g false loc w0
  refine ⟨dyn, h1, fun a w ha => ?_⟩
  rw [call_loaded _ _ _ h2, h3]
  simp only [Option.getD_none, finishCall, Bool.false_eq_true, if_false]
  have hrun : (sourcePy eval here).run ⟨d.code, g.getD here, []⟩ a w = (.error .typeError, w) := by
    have hb : bindArgs d.code.params ([] : Dict Str V) a = .error .typeError := by
      simp only [bindArgs]
      simp only [Supplies, not_forall] at ha
      obtain ⟨p, hp, hk⟩ := ha
      rw [bind_missing a.kw _ _ p hp (by simpa using hk)]
      split <;> rfl
    simp only [sourcePy, callFn]
    rw [hb]
  rw [hrun]
  rfl

private theorem bind_fits (kw : Dict Str V) : ∀ (ps : List Str) (vs : List V),
    (vs.length ≤ ps.length ∧ (∀ p ∈ ps.take vs.length, kw.get? p = none) ∧ (∀ p ∈ ps.drop vs.length, (kw.get? p).isSome = true) →
      ∃ env, bindParams [] kw ps vs = .ok env ∧
        env.map (fun q => (q.1, some q.2)) = ps.zip (vs.map some ++ (ps.drop vs.length).map kw.get?)) ∧
    (¬ (vs.length ≤ ps.length ∧ (∀ p ∈ ps.take vs.length, kw.get? p = none) ∧
        (∀ p ∈ ps.drop vs.length, (kw.get? p).isSome = true)) → bindParams [] kw ps vs = .error .typeError)
  | [], [] => ⟨fun _ => ⟨[], rfl, rfl⟩, fun h => absurd ⟨Nat.le_refl _, by simp, by simp⟩ h⟩
  | [], _ :: _ => ⟨fun h => absurd h.1 (by simp), fun _ => rfl⟩
  | p :: ps, v :: vs => by
    obtain ⟨h1, h2⟩ := bind_fits kw ps vs
    simp only [bindParams]
    cases hk : kw.get? p with
    | some x =>
      refine ⟨fun h => ?_, fun _ => by simp⟩
      have := h.2.1 p (by simp)
      rw [hk] at this; cases this
    | none =>
      simp only [Option.isSome_none, Bool.false_eq_true, if_false]
      constructor
      · intro h
        obtain ⟨env, e1, e2⟩ := h1 ⟨by simpa using h.1, fun q hq => h.2.1 q (by simp [hq]), fun q hq => h.2.2 q (by simpa using hq)⟩
        exact ⟨(p, v) :: env, by rw [e1], by simp [e2]⟩
      · intro h
        rw [h2 fun hc => h ⟨by simpa using hc.1, fun q hq => ?_, fun q hq => hc.2.2 q (by simpa using hq)⟩]
        simp only [List.length_cons, List.take_succ_cons, List.mem_cons] at hq
        rcases hq with rfl | hq
        · exact hk
        · exact hc.2.1 q hq
  | p :: ps, [] => by
    obtain ⟨h1, h2⟩ := bind_fits kw ps []
    simp only [bindParams]
    cases hk : kw.get? p with
    | none =>
      have hb : bindNamed ([] : Dict Str V) kw p = .error .typeError := by simp [bindNamed, hk, Dict.get?]
      rw [hb]
      refine ⟨fun h => ?_, fun _ => rfl⟩
      have := h.2.2 p (by simp)
      rw [hk] at this; cases this
    | some x =>
      have hb : bindNamed ([] : Dict Str V) kw p = .ok x := by simp [bindNamed, hk]
      rw [hb]
      constructor
      · intro h
        obtain ⟨env, e1, e2⟩ := h1 ⟨by simp, by simp, fun q hq => h.2.2 q (by simp at hq ⊢; exact Or.inr hq)⟩
        refine ⟨(p, x) :: env, by simp only [e1], ?_⟩
        simpa [hk] using e2
      · intro h
        simp only []
        rw [h2 fun hc => h ⟨by simp, by simp, fun q hq => ?_⟩]
        simp only [List.length_nil, List.drop_zero, List.mem_cons] at hq
        rcases hq with rfl | hq
        · rw [hk]; rfl
        · exact hc.2.2 q (by simpa using hq)

/-- the arguments of a call are those a function with these parameters and no defaults takes: not too many, none that it does
not have or that is given twice, and none left out -/
def Takes (params : List Str) (a : CallArgs V) : Prop :=
  a.pos.length ≤ params.length ∧ (∀ k ∈ a.kw.keys, k ∈ params) ∧ (∀ p ∈ params.take a.pos.length, a.kw.get? p = none) ∧
    Supplies params a

/-- **C79, the arguments.** The body of the function in the source is run if and only if the arguments are those it takes without
defaults; its local variables are the parameters in order, with the arguments given by place and then those given by name.
Otherwise `TypeError` is raised and nothing is run. -/
theorem C79_arguments (eval : B → G → Dict Str V → W → Except PyErr V × W) (here : G) (s : List (Stmt B V))
    (d : FnDef B V) (hs : OneFunction s d) (hi : d.inner = []) (g : Option G) (loc : Bool) (w0 : W) :
    ∃ dyn, dynNew (sourcePy eval here) { source := some s, globals := g, loadOnCall := loc } w0 = .ok dyn ∧
      ∀ (a : CallArgs V) (w : W),
        (Takes d.code.params a → ∃ env : Dict Str V, env.map (fun q => (q.1, some q.2)) =
            d.code.params.zip (a.pos.map some ++ (d.code.params.drop a.pos.length).map a.kw.get?) ∧
          dynCall (sourcePy eval here) a none dyn w =
            ((eval d.code.body (g.getD here) env w).1.map some, dyn, (eval d.code.body (g.getD here) env w).2)) ∧
        (¬ Takes d.code.params a → dynCall (sourcePy eval here) a none dyn w = (.error .typeError, dyn, w)) := by
  obtain ⟨pre, post, rfl, hpre⟩ := hs.form
  have hc : codeChildren (pre ++ .fn d :: post) = d.code :: codeChildren post := by
    rw [codeChildren_append, hpre]; simp [codeChildren, stmtCodes, hi]
  obtain ⟨dyn, h1, h2, h3⟩ := new_loaded eval here _ _ _ hc g false loc w0
  refine ⟨dyn, h1, fun a w => ?_⟩
  rw [call_loaded _ _ _ h2, h3]
  simp only [Option.getD_none, finishCall, Bool.false_eq_true, if_false]
  rw [show (sourcePy eval here).run = callFn eval from rfl]
  obtain ⟨f1, f2⟩ := bind_fits a.kw d.code.params a.pos
  simp only [callFn, bindArgs]
  constructor
  · intro h
    obtain ⟨env, e1, e2⟩ := f1 ⟨h.1, h.2.2.1, h.2.2.2⟩
    have hall : (a.kw.keys.all fun k => d.code.params.contains k) = true := by
      rw [List.all_eq_true]; intro k hk; simpa using h.2.1 k hk
    refine ⟨env, e2, ?_⟩
    rw [if_pos hall, e1]
  · intro h
    by_cases hall : (a.kw.keys.all fun k => d.code.params.contains k) = true
    · rw [if_pos hall, f2 fun hcc => h ⟨hcc.1, fun k hk => ?_, hcc.2.1, hcc.2.2⟩]
      · rfl
      · rw [List.all_eq_true] at hall; simpa using hall k hk
    · rw [if_neg hall]; rfl

/-- `f(y=8)` and `f(1, 2)` are refused by `def f(x)`, `f(7)` is not -/
example : Takes [['x']] ({ pos := [7] } : CallArgs Nat) ∧ ¬ Takes [['x']] ({ pos := [1], kw := [(['y'], 8)] } : CallArgs Nat) ∧
    ¬ Takes [['x']] ({ pos := [1, 2] } : CallArgs Nat) := by
  refine ⟨⟨by decide, fun k hk => (by cases hk), fun p _ => rfl, fun p hp => (by cases hp)⟩, fun h => ?_, fun h => ?_⟩
  · have := h.2.1 ['y'] (.head _); simp at this
  · exact absurd h.1 (by decide)

/-- **C79, which code runs.** The function of a Dynamic is the first code object of the compiled source, whatever it
belongs to: a lambda in a decorator or default value, a class body, or the first of several functions. -/
theorem C79_first_code_object (eval : B → G → Dict Str V → W → Except PyErr V × W) (here : G) (s : List (Stmt B V))
    (c : CodeObj B) (rest : List (CodeObj B)) (hs : codeChildren s = c :: rest) (g : Option G) (loc : Bool) (w0 : W) :
    ∃ dyn, dynNew (sourcePy eval here) { source := some s, globals := g, loadOnCall := loc } w0 = .ok dyn ∧
      ∀ (a : CallArgs V) (w : W), dynCall (sourcePy eval here) a none dyn w =
        ((callFn eval ⟨c, g.getD here, []⟩ a w).1.map some, dyn, (callFn eval ⟨c, g.getD here, []⟩ a w).2) := by
  obtain ⟨dyn, h1, h2, h3⟩ := new_loaded eval here _ _ _ hs g false loc w0
  refine ⟨dyn, h1, fun a w => ?_⟩
  rw [call_loaded _ _ _ h2, h3]
  rfl

/-- **C79, no function.** A source without any code object: the constructor raises `TypeError`; a lazy Dynamic raises
`TypeError` at the first call even when it is optional, having logged the `StopIteration` as a compile error. -/
theorem C79_no_function (eval : B → G → Dict Str V → W → Except PyErr V × W) (here : G) (s : List (Stmt B V))
    (hs : codeChildren s = []) (g : Option G) (opt : Bool) (w0 : W) :
    dynNew (sourcePy eval here) { source := some s, globals := g, optional := opt } w0 = .error .typeError ∧
      ∃ dyn, dynNew (sourcePy eval here) { source := some s, globals := g, optional := opt, lazy := true } w0 = .ok dyn ∧
        ∀ (a : CallArgs V) (w : W), ∃ dyn', dynCall (sourcePy eval here) a none dyn w = (.error .typeError, dyn', w) ∧
          dyn'.errors = [⟨.stopIteration, .compile⟩] ∧ dyn'.compileFail = true := by
  constructor
  · simp [dynNew, dynInit, dynLoad, dynCompile, dynDefine, compileSrc, defineFn, sourcePy, hs, getCodechild,
      Dyn.funcVal, Dyn.codeVal, PyErr.isException]
  · refine ⟨_, rfl, fun a w => ⟨{
      source := some s, globals := g, optional := opt, lazy := true
      errors := [⟨.stopIteration, .compile⟩], compileFail := true }, ?_, rfl, rfl⟩⟩
    simp [dynCall, maybeLoad, dynLoad, dynCompile, dynDefine, compileSrc, defineFn, sourcePy, hs, getCodechild,
      Dyn.funcVal, Dyn.codeVal, PyErr.isException]

/-- the full claim: whatever the definition, the Dynamic does what the defined function does -/
def DynamicIsDefined : Prop :=
  ∀ (B V G W : Type) (eval : B → G → Dict Str V → W → Except PyErr V × W) (here : G) (d : FnDef B V) (g : Option G) (w0 : W),
    ∃ dyn, dynNew (sourcePy eval here) { source := some [.fn d], globals := g } w0 = .ok dyn ∧
      ∀ (a : CallArgs V) (w : W), (dynCall (sourcePy eval here) a none dyn w).1 =
        (callFn eval (defined d (g.getD here)) a w).1.map some

/-- the body of `def f(x=1): return x`, and of a lambda: `return` the only local variable, or 0 -/
def demoEval (b : Bool) (_ : Unit) (env : Dict Str Nat) (w : Unit) : Except PyErr Nat × Unit :=
  (.ok (if b then env.values.headD 0 else 0), w)

/-- `def f(x=1): return x` -/
def demoDef : FnDef Bool Nat := ⟨['f'], ⟨[['x']], true⟩, [(['x'], 1)], []⟩

/-- **C79, as stated false.** `Dynamic("def f(x=1): return x")()` raises `TypeError`; the function defined returns 1. -/
theorem C79_full_false : ¬ DynamicIsDefined := by
  intro h
  obtain ⟨dyn, h1, h2⟩ := h Bool Nat Unit Unit demoEval () demoDef none ()
  obtain ⟨dyn', h3, h4⟩ := C79_defaults_lost demoEval () [.fn demoDef] demoDef
    ⟨[], [], rfl, rfl⟩ rfl none true ()
  rw [h1] at h3
  injection h3 with h3
  subst h3
  have h5 := h2 {} ()
  have h6 := h4 {} () (by intro hs; have := hs ['x'] (by decide); simp [Dict.get?] at this)
  rw [h6] at h5
  have : (callFn demoEval (defined demoDef (Option.getD none ())) {} ()).1 = .ok 1 := rfl
  rw [this] at h5
  simp [Except.map] at h5

/-- the hypotheses are met: an import, then `def f(x=1)`, called with one argument -/
example : OneFunction [.other [], .fn demoDef] demoDef ∧ demoDef.inner = [] ∧ Supplies demoDef.code.params { pos := [7] } ∧
    ¬ Supplies demoDef.code.params ({} : CallArgs Nat) :=
  ⟨⟨[.other []], [], rfl, rfl⟩, rfl, by intro p hp; simp [demoDef] at hp,
    by intro h; have := h ['x'] (by decide); simp [Dict.get?] at this⟩

/-- called with one argument it works -/
example : (match dynNew (sourcePy demoEval ()) { source := some [.other [], .fn demoDef] } () with
    | .ok dyn => (dynCall (sourcePy demoEval ()) { pos := [7] } none dyn ()).1
    | .error e => .error e) = .ok (some 7) := rfl

/-- `def f(x, key=lambda: 0): return x`: the Dynamic is the lambda -/
example : codeChildren [Stmt.fn (⟨['f'], ⟨[['x'], ['k']], true⟩, [(['k'], 5)], [⟨[], false⟩]⟩ : FnDef Bool Nat)] =
    [⟨[], false⟩, ⟨[['x'], ['k']], true⟩] := rfl

end Verif.Props
