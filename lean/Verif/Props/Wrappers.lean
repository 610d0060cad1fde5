import Verif.Lemmas.CompSwap
import Verif.Lemmas.CompNest
import Verif.Model.Wrappers
/-! # C164, C165: decorated functions as steps of a Composition; functions that pass arguments on -/
namespace Verif.Props
open Verif Verif.Model Verif.Lemmas

variable {V X Y Src Code Glob F : Type}

/-- `lambda *args, **kwargs: o(*args, **kwargs)` -/
def asLambda (o : Wrappable V X) : Step V X := { ident := o.step.ident, call := o.step.call }

/-- what may be decorated: a function, a partial, a Composition, a Dynamic -/
inductive CanWrap [PyNone V] (py : PyFor V Y Src Code Glob F) (flag : V → Option Bool) :
    Wrappable V (Dyn Src Code Glob F × Y) → Prop
  | fn (i : Nat) (f : Fn V (Dyn Src Code Glob F × Y)) : CanWrap py flag (plainFn i f)
  | part (i : Nat) (f : Fn V (Dyn Src Code Glob F × Y)) (args : List V) (kw : Dict Str V) :
      CanWrap py flag (partialFn i f args kw)
  | comp (i : Nat) (inner : Comp V (Dyn Src Code Glob F × Y)) : CanWrap py flag (compFn i inner)
  | dyn (i : Nat) : CanWrap py flag (dynFn py flag i)

/-- C164, in full: giving a Composition a decorated callable as a step is giving it a function that calls the decorated
callable -/
def C164_full : Prop :=
  ∀ (V Y Src Code Glob F : Type) [PyNone V] (py : PyFor V Y Src Code Glob F) (flag : V → Option Bool)
    (o : Wrappable V (Dyn Src Code Glob F × Y)) (ds : List (Nat × Deco V (Dyn Src Code Glob F × Y)))
    (w0 : World V (Dyn Src Code Glob F × Y)) (c : Comp V (Dyn Src Code Glob F × Y))
    (pre post : Dict Name (Step V (Dyn Src Code Glob F × Y))) (n : Name) (v : V) (w : World V (Dyn Src Code Glob F × Y)),
    CanWrap py flag o → ds ≠ [] →
    (execute { c with steps := pre ++ (n, (decorate ds o w0).step) :: post } v w).1 =
      (execute { c with steps := pre ++ (n, asLambda (decorate ds o w0)) :: post } v w).1

/-- the attributes of a decorated callable are those its callable had -/
private theorem decorate_attrs [PyNone V] (ds : List (Nat × Deco V X)) (o : Wrappable V X) (w0 : World V X) :
    (decorate ds o w0).dict w0 = o.dict w0 ∧
    (ds ≠ [] → (decorate ds o w0).step.func = (o.dict w0).func ∧ (decorate ds o w0).step.args = (o.dict w0).args ∧
      (decorate ds o w0).step.keywords = (o.dict w0).keywords) := by
  induction ds with
  | nil => exact ⟨rfl, fun h => absurd rfl h⟩
  | cons d t ih =>
    have : decorate (d :: t) o w0 = d.2.apply d.1 (decorate t o w0) w0 := rfl
    rw [this]
    simp only [Deco.apply, wraps, ih.1]
    exact ⟨trivial, fun _ => ⟨trivial, trivial, trivial⟩⟩

/-- a step without an attribute `func` is called -/
private theorem callStep_lambdaOf {c : Comp V X} {n : Name} {o : Wrappable V X} (h : o.step.func = none) (v : V) :
    callStep c n o.step v = callStep c n (asLambda o) v := by
  unfold callStep asLambda
  rw [h]

private theorem execute_lambdaOf [PyNone V] (c : Comp V X) (pre post : Dict Name (Step V X)) (n : Name) (o : Wrappable V X)
    (h : o.step.func = none) (v : V) (w : World V X) :
    let r := execute { c with steps := pre ++ (n, asLambda o) :: post } v w
    execute { c with steps := pre ++ (n, o.step) :: post } v w =
      (r.1, { r.2.1 with steps := pre ++ (n, o.step) :: post }, r.2.2) := by
  refine execute_withSteps (S := pre ++ (n, o.step) :: post) (T := pre ++ (n, asLambda o) :: post) ?_ (by simp [asLambda])
  rw [iterSteps_append, iterSteps_append]
  rcases iterSteps c v pre w with ⟨outs, e, c1, w1⟩
  cases e with
  | some e => rfl
  | none => simp only [iterSteps, doStep, callStep_lambdaOf h]

/-- C164: a decorated function, partial or Composition, or a Dynamic that had never been loaded when it was decorated, may be
given as a step: the run gives and does what it does with a function that calls the decorated callable -/
theorem C164_as_called_partial [PyNone V] (py : PyFor V Y Src Code Glob F) (flag : V → Option Bool)
    (o : Wrappable V (Dyn Src Code Glob F × Y)) (ds : List (Nat × Deco V (Dyn Src Code Glob F × Y)))
    (w0 : World V (Dyn Src Code Glob F × Y)) (c : Comp V (Dyn Src Code Glob F × Y))
    (pre post : Dict Name (Step V (Dyn Src Code Glob F × Y))) (n : Name) (v : V) (w : World V (Dyn Src Code Glob F × Y))
    (ho : CanWrap py flag o) (hds : ds ≠ []) (hdyn : ∀ i, o = dynFn py flag i → w0.ext.1.func = none) :
    let r := execute { c with steps := pre ++ (n, asLambda (decorate ds o w0)) :: post } v w
    execute { c with steps := pre ++ (n, (decorate ds o w0).step) :: post } v w =
      (r.1, { r.2.1 with steps := pre ++ (n, (decorate ds o w0).step) :: post }, r.2.2) := by
  refine execute_lambdaOf c pre post n _ ?_ v w
  rw [((decorate_attrs ds o w0).2 hds).1]
  cases ho with
  | fn => rfl
  | part => rfl
  | comp => rfl
  | dyn i => simp only [dynFn, hdyn i rfl, Option.map_none]

/-- C164: a Dynamic that was loaded when it was decorated: the decorators are passed over. However many there are, and
whatever has become of the Dynamic since, the step calls the function the Dynamic had then, with the signal. -/
theorem C164_bypassed [PyNone V] (py : PyFor V Y Src Code Glob F) (flag : V → Option Bool) (i : Nat)
    (ds : List (Nat × Deco V (Dyn Src Code Glob F × Y))) (w0 : World V (Dyn Src Code Glob F × Y))
    (c : Comp V (Dyn Src Code Glob F × Y)) (n : Name) (v : V) (w : World V (Dyn Src Code Glob F × Y)) (f : F)
    (hds : ds ≠ []) (hf : w0.ext.1.func = some (some f)) (hi : c.inserts.get? n = none) :
    callStep c n (decorate ds (dynFn py flag i) w0).step v w =
      ((py.run f ([v], []) w.apart).1, ((py.run f ([v], []) w.apart).2).together w.ext.1) := by
  obtain ⟨h1, h2, h3⟩ := (decorate_attrs ds (dynFn py flag i) w0).2 hds
  have h0 : ((dynFn py flag i).dict w0).func = some fun args kw w =>
      ((py.run f (args, kw) w.apart).1, ((py.run f (args, kw) w.apart).2).together w.ext.1) := by
    simp only [dynFn, hf, Option.map_some]
  rw [h0] at h1
  rw [show ((dynFn py flag i).dict w0).args = none from rfl] at h2
  rw [show ((dynFn py flag i).dict w0).keywords = none from rfl] at h3
  unfold callStep
  rw [h1, hi]
  simp only [callPartialStep, overArgs, overKeywords, h2, h3, Option.getD_none, intArgs, strArgs, callWith,
    List.length_nil, if_true]

/-- C164: a Dynamic that had been unloaded when it was decorated: the step raises `TypeError` and does nothing -/
theorem C164_unloaded [PyNone V] (py : PyFor V Y Src Code Glob F) (flag : V → Option Bool) (i : Nat)
    (ds : List (Nat × Deco V (Dyn Src Code Glob F × Y))) (w0 : World V (Dyn Src Code Glob F × Y))
    (c : Comp V (Dyn Src Code Glob F × Y)) (n : Name) (v : V) (w : World V (Dyn Src Code Glob F × Y))
    (hds : ds ≠ []) (hf : w0.ext.1.func = some none) (hi : c.inserts.get? n = none) :
    doStep c n (decorate ds (dynFn py flag i) w0).step v w = (.error .typeError, c, w) := by
  obtain ⟨h1, h2, h3⟩ := (decorate_attrs ds (dynFn py flag i) w0).2 hds
  have h0 : ((dynFn py flag i).dict w0).func = some fun _ _ w => (.error .typeError, w) := by
    simp only [dynFn, hf, Option.map_some]
  rw [h0] at h1
  rw [show ((dynFn py flag i).dict w0).args = none from rfl] at h2
  rw [show ((dynFn py flag i).dict w0).keywords = none from rfl] at h3
  unfold doStep callStep
  rw [h1, hi]
  simp only [callPartialStep, overArgs, overKeywords, h2, h3, Option.getD_none, intArgs, strArgs, callWith,
    List.length_nil, if_true]

/-! ## what the decorated steps do -/

private theorem callStep_deco [PyNone V] (d : Deco V X) (i : Nat) (o : Wrappable V X) (w0 : World V X) (c : Comp V X)
    (n : Name) (v : V) (w : World V X) (ho : (o.dict w0).func = none) (hi : c.inserts.get? n = none) :
    callStep c n (d.apply i o w0).step v w = d.calling o.step.call [v] [] w := by
  unfold callStep
  simp only [Deco.apply, wraps, ho, hi, Option.getD_none, intArgs, strArgs, callWith, List.length_nil, if_true]

/-- C164: `triggerize(g)` as a step calls `g()` and hands on the signal -/
theorem C164_triggerize [PyNone V] (i : Nat) (o : Wrappable V X) (w0 : World V X) (c : Comp V X) (n : Name) (v : V)
    (w : World V X) (ho : (o.dict w0).func = none) (hi : c.inserts.get? n = none) :
    (∀ x w', o.step.call [] [] w = (.ok x, w') → callStep c n (Deco.triggerize.apply i o w0).step v w = (.ok v, w')) ∧
    ∀ e w', o.step.call [] [] w = (.error e, w') →
      callStep c n (Deco.triggerize.apply i o w0).step v w = (.error e, w') := by
  rw [callStep_deco _ i o w0 c n v w ho hi]
  constructor
  · intro x w' h
    simp only [Deco.calling, bindOne, h]
  · intro e w' h
    simp only [Deco.calling, bindOne, h]

/-- C164: `triggerize(g)` called by hand: without an argument it gives `None`; the argument may be given by name, and no other
name will do; with two arguments it raises `TypeError` and does not call `g` -/
theorem C164_trigger_alone [PyNone V] (g : Fn V X) (w w' : World V X) (x : V) (h : g [] [] w = (.ok x, w')) (u v : V) (k : Str) :
    Deco.triggerize.calling g [] [] w = (.ok PyNone.none, w') ∧
    Deco.triggerize.calling g [] [("deferred_state".toList, v)] w = (.ok v, w') ∧
    (k ≠ "deferred_state".toList → Deco.triggerize.calling g [] [(k, v)] w = (.error .typeError, w)) ∧
    Deco.triggerize.calling g [u, v] [] w = (.error .typeError, w) ∧
    Deco.triggerize.calling g [u] [(k, v)] w = (.error .typeError, w) := by
  refine ⟨?_, ?_, fun hk => ?_, rfl, rfl⟩
  · simp only [Deco.calling, bindOne, h]
  · simp only [Deco.calling, bindOne, h, if_true]
  · simp only [Deco.calling, bindOne, if_neg hk]

/-- C164: `splat(f)` as a step calls `f` with the elements of the signal as arguments -/
theorem C164_splat [PyNone V] (asSeq : V → Option (List V)) (i : Nat) (o : Wrappable V X) (w0 : World V X) (c : Comp V X)
    (n : Name) (v : V) (w : World V X) (ho : (o.dict w0).func = none) (hi : c.inserts.get? n = none) :
    (∀ l, asSeq v = some l → callStep c n ((Deco.splat asSeq).apply i o w0).step v w = o.step.call l [] w) ∧
    (asSeq v = none → callStep c n ((Deco.splat asSeq).apply i o w0).step v w = (.error .typeError, w)) := by
  rw [callStep_deco _ i o w0 c n v w ho hi]
  constructor
  · intro l h
    simp only [Deco.calling, bindOne, h]
  · intro h
    simp only [Deco.calling, bindOne, h]

/-- C164: `argstop(f, k)` as a step calls `f` with the first `k` elements of the signal, `argstop(f, k, unpack=False)` with the
signal, or with nothing if `k` is 0 -/
theorem C164_argstop [PyNone V] (asSeq : V → Option (List V)) (k : Nat) (i : Nat) (o : Wrappable V X) (w0 : World V X)
    (c : Comp V X) (n : Name) (v : V) (w : World V X) (ho : (o.dict w0).func = none) (hi : c.inserts.get? n = none) :
    (∀ l, asSeq v = some l →
      callStep c n ((Deco.argstop asSeq k true).apply i o w0).step v w = o.step.call (l.take k) [] w) ∧
    (asSeq v = none → callStep c n ((Deco.argstop asSeq k true).apply i o w0).step v w = (.error .typeError, w)) ∧
    callStep c n ((Deco.argstop asSeq k false).apply i o w0).step v w =
      o.step.call (if k = 0 then [] else [v]) [] w := by
  rw [callStep_deco _ i o w0 c n v w ho hi, callStep_deco _ i o w0 c n v w ho hi]
  refine ⟨?_, ?_, ?_⟩
  · intro l h
    simp [Deco.calling, Model.argstop, h, sliceTo]
  · intro h
    simp only [Deco.calling, Model.argstop, h]
  · cases k with
    | zero => simp [Deco.calling, Model.argstop, sliceTo]
    | succ k =>
      have h0 : (0 : Int) ≤ (k : Int) + 1 := by omega
      have h1 : ((k : Int) + 1).toNat = k + 1 := by omega
      simp [Deco.calling, Model.argstop, sliceTo, h0, h1]

/-- C164: a pipeline of steps made with `optionalize` (and the default callback), without sends, never raises an ordinary
exception -/
theorem C164_never_fails [PyNone V] (c : Comp V X) (v : V) (w : World V X) (hs : c.sends = [])
    (h : ∀ p ∈ c.steps, ∃ i o w0, p.2 = ((Deco.optionalize zeroCallback).apply i o w0).step ∧ (o.dict w0).func = none) :
    (∃ y, (execute c v w).1 = .ok y) ∨ ∃ e, (execute c v w).1 = .error e ∧ e.isException = false := by
  have key : ∀ (l : Dict Name (Step V X)) (v : V) (w : World V X),
      (∀ p ∈ l, ∃ i o w0, p.2 = ((Deco.optionalize zeroCallback).apply i o w0).step ∧ (o.dict w0).func = none) →
      ∀ e, (iterSteps c v l w).2.1 = some e → e.isException = false := by
    intro l
    induction l with
    | nil => intro v w _ e he; cases he
    | cons p t ih =>
      obtain ⟨n, s⟩ := p
      intro v w hl e he
      obtain ⟨i, o, w0, hp, ho⟩ := hl (n, s) (List.mem_cons_self ..)
      simp only at hp
      have hcall : ∀ y args kw w1, s.call args kw w = (.error y, w1) → y.isException = false := by
        intro y args kw w1 h1
        rw [hp] at h1
        simp only [Deco.apply, wraps, Deco.calling] at h1
        rcases h2 : o.step.call args kw w with ⟨r, w2⟩
        rw [h2] at h1
        cases r with
        | ok x => simp only [Prod.mk.injEq] at h1; cases h1.1
        | error e2 =>
          simp only at h1
          cases hx : e2.isException with
          | true => rw [if_pos hx] at h1; simp only [zeroCallback, Prod.mk.injEq] at h1; cases h1.1
          | false =>
            rw [if_neg (by rw [hx]; exact Bool.false_ne_true)] at h1
            simp only [Prod.mk.injEq, Except.error.injEq] at h1
            rw [← h1.1]; exact hx
      have hf : s.func = none := by rw [hp]; exact ho
      rw [iterSteps] at he
      have hd : ∀ r, doStep c n s v w = r → (∃ y, r.1 = .error y ∧ y.isException = false) ∨
          ∃ y, r.1 = .ok y ∧ r.2.1 = c := by
        rintro r rfl
        unfold doStep
        rcases hcs : callStep c n s v w with ⟨r, w1⟩
        cases r with
        | error y =>
          left
          refine ⟨y, rfl, ?_⟩
          unfold callStep at hcs
          rw [hf] at hcs
          simp only [callWith] at hcs
          split at hcs
          · exact hcall _ _ _ _ hcs
          · exact hcall _ _ _ _ hcs
        | ok y =>
          right
          refine ⟨y, ?_⟩
          simp [performSends, hs, performSendList]
      rcases hd _ rfl with ⟨y, hy, hyx⟩ | ⟨y, hy, hyc⟩
      · rcases hdo : doStep c n s v w with ⟨r, c1, w1⟩
        rw [hdo] at he hy
        simp only at hy
        subst hy
        simp only [Option.some.injEq] at he
        rw [← he]; exact hyx
      · rcases hdo : doStep c n s v w with ⟨r, c1, w1⟩
        rw [hdo] at he hy hyc
        simp only at hy hyc
        subst hy hyc
        exact ih y w1 (fun p hp => hl p (List.mem_cons_of_mem _ hp)) e he
  unfold execute itercall
  have hk := key c.steps v w h
  generalize iterSteps c v c.steps w = d at hk ⊢
  obtain ⟨outs, e, c', w'⟩ := d
  cases e with
  | none => exact .inl ⟨_, rfl⟩
  | some e =>
    right
    have he := hk e rfl
    have hfg : (fromGenerator e).isException = false := by cases e <;> first | rfl | cases he
    simp only
    rw [if_neg (by rw [hfg]; exact Bool.false_ne_true)]
    exact ⟨e, rfl, he⟩

/-! ## functions that pass their arguments on -/

/-- C165, in full: `pass_parameters(f, *args, **kwargs)` is `f(*args, **kwargs)` -/
def C165_full : Prop :=
  ∀ (V X : Type) (f : Fn V X) (args : List V) (kw : Dict Str V) (w : World V X), passParameters f args kw w = f args kw w

/-- C165: it is, unless there is a keyword `func` -/
theorem C165_pass_parameters_partial (f : Fn V X) (args : List V) (kw : Dict Str V) (w : World V X)
    (h : funcKey ∉ kw.keys) : passParameters f args kw w = f args kw w := by
  rw [passParameters, if_neg]
  rw [(Dict.get?_eq_none).2 h]
  exact Bool.false_ne_true

private theorem erase_missing {κ α : Type} [DecidableEq κ] {d : Dict κ α} {k : κ} (h : d.get? k = none) : d.erase k = d := by
  induction d with
  | nil => rfl
  | cons p t ih =>
    obtain ⟨k', v⟩ := p
    rw [Dict.get?_cons] at h
    split at h
    · cases h
    · rename_i hne
      rw [Dict.erase, if_neg hne, ih h]

/-- C165: `catch_interaction(noninteractive, f, *args, **kwargs)` with none of its own names among the keywords: it gives `""`
without calling `f` if `noninteractive` is true, and is `f(*args, **kwargs)` otherwise -/
theorem C165_catch_interaction_partial (empty : V) (f : Fn V X) (args : List V) (kw : Dict Str V) (w : World V X)
    (h : ∀ k ∈ [funcKey, noninteractiveKey, defaultKey], k ∉ kw.keys) :
    catchInteractionFn empty true f args kw w = (.ok empty, w) ∧
    catchInteractionFn empty false f args kw w = f args kw w := by
  have h1 := (Dict.get?_eq_none).2 (h _ (.head _))
  have h2 := (Dict.get?_eq_none).2 (h _ (.tail _ (.head _)))
  have h3 := (Dict.get?_eq_none).2 (h _ (.tail _ (.tail _ (.head _))))
  constructor
  · simp [catchInteractionFn, h1, h2, h3]
  · simp only [catchInteractionFn, h1, h2, Option.isSome_none, Bool.false_eq_true, or_self, if_false]
    rw [erase_missing h3]

/-- C165: `_default` is what is given instead of `""`, and is not passed on -/
theorem C165_default (empty d : V) (f : Fn V X) (args : List V) (kw : Dict Str V) (w : World V X)
    (h : ∀ k ∈ [funcKey, noninteractiveKey], k ∉ kw.keys) (hd : kw.get? defaultKey = some d) :
    catchInteractionFn empty true f args kw w = (.ok d, w) ∧
    catchInteractionFn empty false f args kw w = f args (kw.erase defaultKey) w := by
  have h1 := (Dict.get?_eq_none).2 (h _ (.head _))
  have h2 := (Dict.get?_eq_none).2 (h _ (.tail _ (.head _)))
  constructor <;> simp [catchInteractionFn, h1, h2, hd]

/-- C165: `constant(x)` as a step gives `x`, and `zero` gives `None`, whatever the signal and the inserts are -/
theorem C165_constant [PyNone V] (c : Comp V X) (n : Name) (i : Nat) (x v : V) (w : World V X) :
    callStep c n (plainFn i (constantFn x)).step v w = (.ok x, w) ∧
    callStep c n (plainFn i zeroFn).step v w = (.ok PyNone.none, w) := by
  constructor <;> simp only [callStep, plainFn, callWith] <;> split <;> rfl

/-! ## Examples -/

private instance wrNone : PyNone Nat := ⟨99⟩

/-- sources, code and functions are numbers; function 0 adds two to its argument, function 1 divides by zero -/
private def wrPy : PyFor Nat Nat Nat Nat Unit Nat where
  compile := fun s _ => .ok s
  define := fun c _ => .ok c
  run := fun f a w => match f, a.1 with
    | 0, [v] => (.ok (v + 2), w)
    | _, _ => (.error .zeroDivision, w)
  getsource := .ok
  codeOf := id
  globalsOf := fun _ => ()

private def wrFlag : Nat → Option Bool := fun v => if v = 99 then none else some (v != 0)

private abbrev WrWorld := World Nat (Dyn Nat Nat Unit Nat × Nat)

private def wrWorld (d : Dyn Nat Nat Unit Nat) : WrWorld := ⟨fun _ => [], 0, fun _ => [], [], (d, 0)⟩

/-- loaded; its function divides by zero -/
private def wrReady : Dyn Nat Nat Unit Nat := { source := some 1, code := some (some 1), func := some (some 1) }
/-- the same with `lazy=True` -/
private def wrLazy : Dyn Nat Nat Unit Nat := { source := some 1, lazy := true }
/-- the same, loaded and unloaded -/
private def wrGone : Dyn Nat Nat Unit Nat := { source := some 1, code := some none, func := some none }

/-- a function without parameters that counts its calls -/
private def wrCount : Fn Nat (Dyn Nat Nat Unit Nat × Nat) := fun args kw w => match args, kw with
  | [], [] => (.ok 7, { w with ext := (w.ext.1, w.ext.2 + 1) })
  | _, _ => (.error .typeError, w)

/-- a sum of two -/
private def wrAdd : Fn Nat (Dyn Nat Nat Unit Nat × Nat) := fun args kw w => match args, kw with
  | [a, b], [] => (.ok (a + b), w)
  | _, _ => (.error .typeError, w)

/-- the numbers 10a + b are the pairs (a, b) -/
private def wrDigits (v : Nat) : Option (List Nat) := if v < 100 then some [v / 10, v % 10] else none

private def wrOptional : Deco Nat (Dyn Nat Nat Unit Nat × Nat) := .optionalize zeroCallback

/-- a pipeline of `splat(add)`, `triggerize(count)` and `optionalize(add)`: 4 + 2, then a call, then `None` -/
private def wrComp : Comp Nat (Dyn Nat Nat Unit Nat × Nat) where
  steps := [(.int 0, ((Deco.splat wrDigits).apply 1 (plainFn 0 wrAdd) (wrWorld {})).step),
    (.int 1, (Deco.triggerize.apply 3 (plainFn 2 wrCount) (wrWorld {})).step),
    (.int 2, (wrOptional.apply 4 (plainFn 0 wrAdd) (wrWorld {})).step)]

example : (itercall wrComp 42 (wrWorld {})).1 = [6, 6, 99] ∧ (itercall wrComp 42 (wrWorld {})).2.2.2.ext.2 = 1 := by
  decide +kernel

example : callStep wrComp (.int 0) ((Deco.splat wrDigits).apply 1 (plainFn 0 wrAdd) (wrWorld {})).step 42 (wrWorld {}) =
    wrAdd [4, 2] [] (wrWorld {}) :=
  (C164_splat wrDigits 1 (plainFn 0 wrAdd) (wrWorld {}) wrComp (.int 0) 42 (wrWorld {}) rfl rfl).1 [4, 2] rfl

example : callStep wrComp (.int 1) (Deco.triggerize.apply 3 (plainFn 2 wrCount) (wrWorld {})).step 6 (wrWorld {}) =
    (.ok 6, { wrWorld {} with ext := ({}, 1) }) :=
  (C164_triggerize 3 (plainFn 2 wrCount) (wrWorld {}) wrComp (.int 1) 6 (wrWorld {}) rfl rfl).1 7 _ rfl

example : Deco.triggerize.calling wrCount [] [] (wrWorld {}) = (.ok 99, { wrWorld {} with ext := ({}, 1) }) :=
  (C164_trigger_alone wrCount (wrWorld {}) _ 7 rfl 0 0 []).1

example : callStep wrComp (.int 0) ((Deco.argstop wrDigits (2 : Nat) true).apply 1 (plainFn 0 wrAdd) (wrWorld {})).step 42
    (wrWorld {}) = wrAdd [4, 2] [] (wrWorld {}) :=
  (C164_argstop wrDigits 2 1 (plainFn 0 wrAdd) (wrWorld {}) wrComp (.int 0) 42 (wrWorld {}) rfl rfl).1 [4, 2] rfl

example : (∃ y, (execute { steps := [(.int 2, (wrOptional.apply 4 (plainFn 0 wrAdd) (wrWorld {})).step)] } 5 (wrWorld {})).1 =
      .ok y) ∨
    ∃ e, (execute { steps := [(.int 2, (wrOptional.apply 4 (plainFn 0 wrAdd) (wrWorld {})).step)] } 5 (wrWorld {})).1 =
      .error e ∧ e.isException = false :=
  C164_never_fails _ 5 _ rfl (by
    intro p hp
    simp only [List.mem_singleton] at hp
    subst hp
    exact ⟨4, plainFn 0 wrAdd, wrWorld {}, rfl, rfl⟩)

/-- a lazy Dynamic, decorated: `None` -/
example : (execute { steps := [(.int 0, (decorate [(5, wrOptional)] (dynFn wrPy wrFlag 2) (wrWorld wrLazy)).step)] } 4
    (wrWorld wrLazy)).1 = .ok 99 := by
  have := C164_as_called_partial wrPy wrFlag (dynFn wrPy wrFlag 2) [(5, wrOptional)] (wrWorld wrLazy) { steps := [] } [] []
    (.int 0) 4 (wrWorld wrLazy) (.dyn 2) (by simp) (fun _ _ => rfl)
  exact (Prod.mk.inj this).1

/-- a loaded Dynamic, decorated twice: the exception -/
example : callStep { steps := [] } (.int 0)
    (decorate [(6, wrOptional), (5, .triggerize)] (dynFn wrPy wrFlag 2) (wrWorld wrReady)).step 4 (wrWorld wrReady) =
      (.error .zeroDivision, wrWorld wrReady) :=
  C164_bypassed wrPy wrFlag 2 _ (wrWorld wrReady) { steps := [] } (.int 0) 4 (wrWorld wrReady) 1 (by simp) rfl rfl

example : doStep { steps := [] } (.int 0) (decorate [(5, wrOptional)] (dynFn wrPy wrFlag 2) (wrWorld wrGone)).step 4
    (wrWorld wrReady) = (.error .typeError, { steps := [] }, wrWorld wrReady) :=
  C164_unloaded wrPy wrFlag 2 _ (wrWorld wrGone) { steps := [] } (.int 0) 4 (wrWorld wrReady) (by simp) rfl rfl

/-- C164: false: `optionalize(dynamic)` as a step raises what the function of a loaded Dynamic raises -/
theorem C164_full_false : ¬ C164_full := by
  intro h
  have := h Nat Nat Nat Nat Unit Nat wrPy wrFlag (dynFn wrPy wrFlag 2) [(5, wrOptional)] (wrWorld wrReady) { steps := [] } []
    [] (.int 0) 4 (wrWorld wrReady) (.dyn 2) (by simp)
  have h1 : (execute { steps := [(.int 0, (decorate [(5, wrOptional)] (dynFn wrPy wrFlag 2) (wrWorld wrReady)).step)] } 4
    (wrWorld wrReady)).1 = .error .zeroDivision := by rfl
  have h2 : (execute { steps := [(.int 0, asLambda (decorate [(5, wrOptional)] (dynFn wrPy wrFlag 2) (wrWorld wrReady)))] } 4
    (wrWorld wrReady)).1 = .ok 99 := by rfl
  simp only [List.nil_append] at this
  rw [h1, h2] at this
  cases this

private def wrKey : Fn Nat (Dyn Nat Nat Unit Nat × Nat) := fun _ kw w => (.ok ((kw.get? "x".toList).getD 0), w)

example : passParameters wrKey [1] [("x".toList, 3)] (wrWorld {}) = (.ok 3, wrWorld {}) :=
  C165_pass_parameters_partial wrKey [1] [("x".toList, 3)] (wrWorld {}) (by decide +kernel)

example : catchInteractionFn 0 true wrKey [1] [("x".toList, 3)] (wrWorld {}) = (.ok 0, wrWorld {}) ∧
    catchInteractionFn 0 false wrKey [1] [("x".toList, 3)] (wrWorld {}) = (.ok 3, wrWorld {}) :=
  C165_catch_interaction_partial 0 wrKey [1] [("x".toList, 3)] (wrWorld {}) (by decide +kernel)

example : catchInteractionFn 0 true wrKey [1] [("_default".toList, 5)] (wrWorld {}) = (.ok 5, wrWorld {}) :=
  (C165_default 0 5 wrKey [1] [("_default".toList, 5)] (wrWorld {}) (by decide +kernel) (by decide +kernel)).1

example : callStep wrComp (.int 0) (plainFn 1 (constantFn 8)).step 3 (wrWorld {}) = (.ok 8, wrWorld {}) :=
  (C165_constant wrComp (.int 0) 1 8 3 (wrWorld {})).1

/-- C165: false: a function with a parameter `func` cannot be given it by name -/
theorem C165_full_false : ¬ C165_full := by
  intro h
  have := congrArg Prod.fst (h Nat (Dyn Nat Nat Unit Nat × Nat) wrKey [] [(funcKey, 3)] (wrWorld {}))
  rw [show (passParameters wrKey [] [(funcKey, 3)] (wrWorld {})).1 = .error .typeError by rfl] at this
  cases this

end Verif.Props
