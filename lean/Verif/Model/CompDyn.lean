import Verif.Model.CompNest
import Verif.Model.Dynamic
/-!
# composition.py and dynamic.py: a Dynamic as a step of a Composition

The Dynamic is an object of the world (`ext`), since calls change it. As in `Model/Dynamic.lean`, its function does not
change the Dynamic itself.
-/
namespace Verif.Model
open Verif

variable {V Y Src Code Glob F : Type}

/-- the world of the pipeline, apart from the Dynamic -/
def World.apart {D : Type} (w : World V (D × Y)) : World V Y := ⟨w.lists, w.nextList, w.dicts, w.log, w.ext.2⟩

/-- the world of the pipeline, with the Dynamic -/
def World.together {D : Type} (d : D) (w : World V Y) : World V (D × Y) := ⟨w.lists, w.nextList, w.dicts, w.log, (d, w.ext)⟩

/-- the interpreter; functions take positional and keyword arguments -/
abbrev PyFor (V Y Src Code Glob F : Type) := Py Src Code Glob F (List V × Dict Str V) V (World V Y)

/-- the keyword `_optional` of `Dynamic.__call__` -/
def optionalKey : Str := "_optional".toList

/-- dynamic.py:150-162 `Dynamic.__call__(*args, _optional=None, **kwargs)`, in the world of a pipeline; `flag` reads a value
given for `_optional`: `none` for `None`, `some false` for `False`, `some true` for anything else. A keyword `self` is given twice. -/
def callDynamic [PyNone V] (py : PyFor V Y Src Code Glob F) (flag : V → Option Bool) : Fn V (Dyn Src Code Glob F × Y) :=
  fun args kw w =>
    if (kw.get? selfKey).isSome then (.error .typeError, w) else
    match dynCall py (args, kw.erase optionalKey) ((kw.get? optionalKey).bind flag) w.ext.1 w.apart with
    | (r, d, w') => (r.map fun o => o.getD PyNone.none, w'.together d)

/-- `dynamic.func(*args, **kwargs)`: `self.func` is `None` while nothing is loaded (192), and `None` is not callable -/
def callFuncAttr (py : PyFor V Y Src Code Glob F) : Fn V (Dyn Src Code Glob F × Y) := fun args kw w =>
  match w.ext.1.funcVal with
  | none => (.error .typeError, w)
  | some f => match py.run f (args, kw) w.apart with
    | (r, w') => (r, w'.together w.ext.1)

/-- a Dynamic as a step. `"func" in dir(step)` (composition.py:224) is true of every Dynamic, loaded or not, because `func`
is an attribute of the class (dynamic.py:192); it has no `args` or `keywords`. -/
def dynStep [PyNone V] (py : PyFor V Y Src Code Glob F) (flag : V → Option Bool) (ident : Nat) :
    Step V (Dyn Src Code Glob F × Y) where
  ident := ident
  call := callDynamic py flag
  func := some (callFuncAttr py)

/-- `lambda *args, **kwargs: dynamic(*args, **kwargs)` as a step -/
def lambdaStep [PyNone V] (py : PyFor V Y Src Code Glob F) (flag : V → Option Bool) (ident : Nat) :
    Step V (Dyn Src Code Glob F × Y) where
  ident := ident
  call := callDynamic py flag

end Verif.Model
