import Verif.Model.Dynamic
import Verif.Py.Dict
import Verif.Py.Str
/-!
# dynamic.py:37-54: from source to function

A concrete instance of `Py` (Model/Dynamic): source is a list of top-level statements, `compile` gives the code objects
among the constants of the module's code, `get_codechild` takes the first of them, `FunctionType(code, globals)` makes a
function without defaults. Simplifications: positional-or-keyword parameters only (no `*args`, `**kwargs`,
keyword-only or positional-only parameters), no generic parameters and, as before Python 3.14, no separate code objects for
annotations; syntax errors are left out; bodies are abstract.
-/
namespace Verif.Model
open Verif

variable {B V G W : Type}

/-- a code object: parameter names and body -/
structure CodeObj (B : Type) where
  params : List Str
  body : B
  deriving DecidableEq

/-- `def name(params): body` with the values of its defaults. `inner`: code objects of lambdas and comprehensions in the
decorators and in the default expressions; CPython compiles those before the function's own code object. -/
structure FnDef (B V : Type) where
  name : Str
  code : CodeObj B
  defaults : Dict Str V := []
  inner : List (CodeObj B) := []
  deriving DecidableEq

/-- a top-level statement: a function definition, or anything else with the code objects it contains -/
inductive Stmt (B V : Type) where
  | fn (d : FnDef B V)
  | other (codes : List (CodeObj B))
  deriving DecidableEq

/-- the code objects a statement adds to the constants of the module's code, in order -/
def stmtCodes : Stmt B V → List (CodeObj B)
  | .fn d => d.inner ++ [d.code]
  | .other cs => cs

/-- the code objects in `compile(source, "", "exec").co_consts` -/
def codeChildren : List (Stmt B V) → List (CodeObj B)
  | [] => []
  | s :: t => stmtCodes s ++ codeChildren t

/-- dynamic.py:37-38, 48-49: `nth(0, …)` raises `StopIteration` when there is no code object -/
def getCodechild : List (CodeObj B) → Except PyErr (CodeObj B)
  | c :: _ => .ok c
  | [] => .error .stopIteration

/-- a function object: code, globals, defaults -/
structure FnObj (B V G : Type) where
  code : CodeObj B
  globals : G
  defaults : Dict Str V
  deriving DecidableEq

/-- the arguments of a call -/
structure CallArgs (V : Type) where
  pos : List V := []
  kw : Dict Str V := []
  deriving DecidableEq

/-- the value of one parameter that got no positional argument -/
def bindNamed (defaults kw : Dict Str V) (p : Str) : Except PyErr V :=
  match kw.get? p with
  | some v => .ok v
  | none => match defaults.get? p with
    | some v => .ok v
    | none => .error .typeError

/-- the values of the parameters, in order -/
def bindParams (defaults kw : Dict Str V) : List Str → List V → Except PyErr (Dict Str V)
  | [], [] => .ok []
  | [], _ :: _ => .error .typeError                         -- too many positional arguments
  | p :: ps, v :: vs =>
    if (kw.get? p).isSome then .error .typeError             -- multiple values for p
    else match bindParams defaults kw ps vs with
      | .ok r => .ok ((p, v) :: r)
      | .error e => .error e
  | p :: ps, [] => match bindNamed defaults kw p with
    | .error e => .error e
    | .ok v => match bindParams defaults kw ps [] with
      | .ok r => .ok ((p, v) :: r)
      | .error e => .error e

/-- Python's binding of the arguments of a call to the parameters -/
def bindArgs (params : List Str) (defaults : Dict Str V) (a : CallArgs V) : Except PyErr (Dict Str V) :=
  if a.kw.keys.all (fun k => params.contains k) then bindParams defaults a.kw params a.pos
  else .error .typeError                                     -- unexpected keyword argument

/-- calling a function object; `eval` runs a body with globals and local variables -/
def callFn (eval : B → G → Dict Str V → W → Except PyErr V × W) (f : FnObj B V G) (a : CallArgs V) (w : W) :
    Except PyErr V × W :=
  match bindArgs f.code.params f.defaults a with
  | .ok env => eval f.code.body f.globals env w
  | .error e => (.error e, w)

/-- the interpreter of Model/Dynamic with the functions above. dynamic.py:52-54 `FunctionType(code, globals_)`: no
defaults are given; `here` are the globals of dynamic.py. `inspect.getsource` is not used (`OSError`). -/
def sourcePy (eval : B → G → Dict Str V → W → Except PyErr V × W) (here : G) :
    Py (List (Stmt B V)) (CodeObj B) G (FnObj B V G) (CallArgs V) V W where
  compile s _ := getCodechild (codeChildren s)
  define c g := .ok ⟨c, g.getD here, []⟩
  run := callFn eval
  getsource _ := .error .osError
  codeOf f := f.code
  globalsOf f := f.globals

end Verif.Model
