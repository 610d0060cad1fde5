import Verif.Model.Composition
/-!
# composition.py: a Composition as a step of another

composition.py:286-287 `__call__` passes everything to `execute(signal=None, **special_kwargs)`. A Composition has no attribute
`func`, so `call_step` calls it (226-228). Simplification: the inner Composition is one that runs do not change, that is, it
has no sends to steps (its inserts are the only thing a run could change); special keywords are ignored, as in the base
class (264-271).
-/
namespace Verif.Model
open Verif

variable {V X : Type}

/-- the name of `execute`'s parameter -/
def signalKey : Str := "signal".toList

/-- the name of the first parameter of a method -/
def selfKey : Str := "self".toList

/-- composition.py:243, 286-287: calling a Composition. `composition(self=…)` gives `self` twice. -/
def callComp [PyNone V] (inner : Comp V X) : Fn V X := fun args kw w =>
  if (kw.get? selfKey).isSome then (.error .typeError, w) else
  match args, kw.get? signalKey with
  | [], s => match execute inner (s.getD PyNone.none) w with
    | (r, _, w') => (r, w')
  | [v], none => match execute inner v w with
    | (r, _, w') => (r, w')
  | _, _ => (.error .typeError, w)

/-- a Composition as a step -/
def compStep [PyNone V] (ident : Nat) (inner : Comp V X) : Step V X where
  ident := ident
  call := callComp inner

end Verif.Model
