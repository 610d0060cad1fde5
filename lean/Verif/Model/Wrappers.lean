import Verif.Model.CompDyn
import Verif.Model.Func
/-!
# func.py: the decorators, and what they make of a callable as a step of a Composition

`triggerize` (func.py:32-44), `splat` (88-93), `argstop` (121-130) and `optionalize` (133-143) make a function with
`functools.wraps(func)`. `wraps` (CPython 3.11 `Lib/functools.py`:35-63) also copies what is in `func.__dict__` to the new
function. Composition (composition.py:209-212, 224) looks for attributes `func`, `args` and `keywords`. So a callable is
modelled as what Composition sees of it together with what `wraps` copies from it. Of the attributes, only these three are
modelled.

Also here: `pass_parameters` (8-9), `catch_interaction` (12-21), `zero` (28-30) and `constant` (81-85), with their arguments.
-/
namespace Verif.Model
open Verif

variable {V X : Type}

/-- those attributes in the `__dict__` of an object that Composition looks for -/
structure Attrs (V X : Type) where
  func : Option (Fn V X) := none
  args : Option (List V) := none
  keywords : Option (Dict Str V) := none

/-- a callable: what it is as a step, and its `__dict__`, which may change -/
structure Wrappable (V X : Type) where
  step : Step V X
  dict : World V X → Attrs V X

/-- a function without attributes of its own -/
def plainFn (ident : Nat) (f : Fn V X) : Wrappable V X := ⟨{ ident, call := f }, fun _ => {}⟩

/-- a `functools.partial` object: `func`, `args` and `keywords` are attributes of its class, its `__dict__` is empty -/
def partialFn (ident : Nat) (f : Fn V X) (args : List V) (keywords : Dict Str V) : Wrappable V X :=
  ⟨partialStep ident f args keywords, fun _ => {}⟩

/-- a Composition: its `__dict__` (composition.py:34-47) has none of the three -/
def compFn [PyNone V] (ident : Nat) (inner : Comp V X) : Wrappable V X := ⟨compStep ident inner, fun _ => {}⟩

/-- a Dynamic: `func` gets into its `__dict__` when it is loaded (dynamic.py:132, 184), and stays there, as `None`, when it
is unloaded (139). What is copied from there is the function of that time. -/
def dynFn {Y Src Code Glob F : Type} [PyNone V] (py : PyFor V Y Src Code Glob F) (flag : V → Option Bool) (ident : Nat) :
    Wrappable V (Dyn Src Code Glob F × Y) where
  step := dynStep py flag ident
  dict := fun w => { func := w.ext.1.func.map fun o args kw w => match o with
    | none => (.error .typeError, w)
    | some f => match py.run f (args, kw) w.apart with
      | (r, w') => (r, w'.together w.ext.1) }

/-- the arguments of a call bound to a signature `(name)` or `(name=default)` -/
def bindOne (name : Str) (default : Option V) (args : List V) (kw : Dict Str V) : Except PyErr V :=
  match args, kw with
  | [v], [] => .ok v
  | [], [(k, v)] => if k = name then .ok v else .error .typeError
  | [], [] => match default with
    | some v => .ok v
    | none => .error .typeError
  | _, _ => .error .typeError

/-- the decorators; `asSeq` gives the elements of what can be sliced or unpacked -/
inductive Deco (V X : Type) where
  | triggerize
  | splat (asSeq : V → Option (List V))
  | argstop (asSeq : V → Option (List V)) (argCount : Int) (unpack : Bool)
  | optionalize (callback : PyErr → Act V X Unit)

/-- the functions the decorators define: func.py:38-42 `trigger`, 90-91 `splatified`, 123-128 `stopargs`, 135-142
`optionally` -/
def Deco.calling [PyNone V] (f : Fn V X) : Deco V X → Fn V X
  | .triggerize => fun args kw w => match bindOne "deferred_state".toList (some PyNone.none) args kw with
    | .error e => (.error e, w)
    | .ok state => match f [] [] w with
      | (.ok _, w') => (.ok state, w')
      | (.error e, w') => (.error e, w')
  | .splat asSeq => fun args kw w => match bindOne "args".toList none args kw with
    | .error e => (.error e, w)
    | .ok v => match asSeq v with
      | none => (.error .typeError, w)
      | some l => f l [] w
  | .argstop asSeq n unpack => fun args kw w => match Model.argstop asSeq n unpack args with
    | .error e => (.error e, w)
    | .ok l => f l kw w
  | .optionalize callback => fun args kw w => match f args kw w with
    | (.ok v, w') => (.ok v, w')
    | (.error e, w') =>
      if e.isException then match callback e w' with
        | (.ok (), w'') => (.ok PyNone.none, w'')
        | (.error e', w'') => (.error e', w'')
      else (.error e, w')

/-- functools.py:35-63 `update_wrapper`: a function with the attributes of the callable it wraps -/
def wraps (f : Fn V X) (o : Wrappable V X) (ident : Nat) (w : World V X) : Wrappable V X :=
  let a := o.dict w
  ⟨{ ident, call := f, func := a.func, args := a.args, keywords := a.keywords }, fun _ => a⟩

/-- a decorator applied to a callable -/
def Deco.apply [PyNone V] (d : Deco V X) (ident : Nat) (o : Wrappable V X) (w : World V X) : Wrappable V X :=
  wraps (d.calling o.step.call) o ident w

/-- decorators applied one after the other, the last of the list first -/
def decorate [PyNone V] (ds : List (Nat × Deco V X)) (o : Wrappable V X) (w : World V X) : Wrappable V X :=
  ds.foldr (fun d o => d.2.apply d.1 o w) o

/-- func.py:28-30 `zero`, as the callback of `optionalize` -/
def zeroCallback : PyErr → Act V X Unit := fun _ w => (.ok (), w)

/-- func.py:28-30 `zero` -/
def zeroFn [PyNone V] : Fn V X := fun _ _ w => (.ok PyNone.none, w)

/-- func.py:81-85 `constant(value)` -/
def constantFn (value : V) : Fn V X := fun _ _ w => (.ok value, w)

/-- the names of parameters (func.py:8, 13) -/
def funcKey : Str := "func".toList
def noninteractiveKey : Str := "noninteractive".toList
def defaultKey : Str := "_default".toList

/-- func.py:8-9 `pass_parameters(func, *args, **kwargs)`: a keyword `func` is given twice -/
def passParameters (f : Fn V X) : Fn V X := fun args kw w =>
  if (kw.get? funcKey).isSome then (.error .typeError, w) else f args kw w

/-- func.py:12-21 `catch_interaction(noninteractive, func, *args, _default="", **kwargs)` -/
def catchInteractionFn (empty : V) (noninteractive : Bool) (f : Fn V X) : Fn V X := fun args kw w =>
  if (kw.get? funcKey).isSome ∨ (kw.get? noninteractiveKey).isSome then (.error .typeError, w)
  else if noninteractive then (.ok ((kw.get? defaultKey).getD empty), w)
  else f args (kw.erase defaultKey) w

end Verif.Model
