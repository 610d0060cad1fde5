import Verif.Model.Composition
/-!
# composition.py: keyword arguments of `execute`

`execute` and `itercall` take `**special_kwargs` and hand them to `_bind_special_runtime_kwargs`, which "exists for use by
subclasses" and does nothing in `Composition`. A subclass is a `Hook`: what its `_bind_special_runtime_kwargs` does with
the keyword arguments, the Composition and the world.
-/
namespace Verif.Model
open Verif
variable {V X : Type}

/-- a `_bind_special_runtime_kwargs` -/
abbrev Hook (V X : Type) := Dict Str V → Comp V X → World V X → Except PyErr Unit × Comp V X × World V X

/-- composition.py:265-272 `_bind_special_runtime_kwargs` of `Composition` -/
def noHook : Hook V X := fun _ c w => (.ok (), c, w)

/-- composition.py:236-241 `itercall`, with keyword arguments, run to its end. The arguments are bound (237) when the first
output is asked for; the steps are looked up after that (239). -/
def itercallWith (hook : Hook V X) (kw : Dict Str V) (c : Comp V X) (signal : V) (w : World V X) :
    List V × Option PyErr × Comp V X × World V X :=
  match hook kw c w with
  | (.ok (), c1, w1) => iterSteps c1 signal c1.steps w1
  | (.error e, c1, w1) => ([], some e, c1, w1)

/-- composition.py:243-260 `execute`, with keyword arguments. The tracker, the steps and `optional` are those that are
there when the exception is handled. -/
def executeWith [PyNone V] (hook : Hook V X) (kw : Dict Str V) (c : Comp V X) (signal : V) (w : World V X) :
    Except PyErr V × Comp V X × World V X :=
  match itercallWith hook kw c signal w with
  | (outs, .none, c', w') => (.ok (outs.getLast?.getD PyNone.none), c', w')         -- 248-251
  | (outs, some e, c', w') =>
    if (fromGenerator e).isException then                                           -- 252
      let finish : Except PyErr V := if c'.optional then .ok PyNone.none else .error (fromGenerator e)   -- 258-260
      match c'.tracker, c'.steps[outs.length]? with                                 -- 253-257
      | .none, _ => (finish, c', w')
      | some _, .none => (.error .indexError, c', w')
      | some t, some (_, s) => match t { target := s.ident, failure := some (fromGenerator e) } w' with
        | (.ok (), w'') => (finish, c', w'')
        | (.error e', w'') => (.error e', c', w'')
    else (.error e, c', w')

end Verif.Model
