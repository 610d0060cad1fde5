import Verif.Py.Err
import Verif.Model.Func
/-!
# dynamic.py: Dynamic

Abstract: Python's compiler and `FunctionType`, source code, code objects, globals, the functions and the world they act on
(`Py`). Not modelled: `__signature__`, `__name__`, `__str__`; the contents of error reports beyond the exception and the
category (`exc_report`, dynamic.py:57-77, is in `Model/ExcReport.lean`); functions that change the Dynamic itself; callables that are not functions in
`from_function` (179-182).
-/
namespace Verif.Model
open Verif

/-- what the interpreter does: `compile` and the choice of the child (48-49), `FunctionType(code, globals)` (54; `none` are
the globals of dynamic.py), calls, `inspect.getsource`, `__code__`, `__globals__` -/
structure Py (Src Code Glob Fn Args V W : Type) where
  compile : Src → W → Except PyErr Code
  define : Code → Option Glob → Except PyErr Fn
  run : Fn → Args → W → Except PyErr V × W
  getsource : Fn → Except PyErr Src
  codeOf : Fn → Code
  globalsOf : Fn → Glob

/-- the `category` of an error report (43, 126) -/
inductive ErrCat where
  | call | compile
  deriving DecidableEq

/-- an error report -/
structure ErrRec where
  exc : PyErr
  category : ErrCat
  deriving DecidableEq

/-- a Dynamic. `code` and `func` are class attributes (192) until set: the outer `none` says that the object has no such
attribute of its own. `optional` and `load_on_call` are taken to be `True` or `False`. -/
structure Dyn (Src Code Glob Fn : Type) where
  source : Option Src := none
  globals : Option Glob := none
  optional : Bool := false
  lazy : Bool := false
  loadOnCall : Bool := true
  callFail : Bool := false
  compileFail : Bool := false
  errors : List ErrRec := []
  code : Option (Option Code) := none
  func : Option (Option Fn) := none
  deriving DecidableEq

variable {Src Code Glob Fn Args V W : Type}

/-- `self.code` -/
def Dyn.codeVal (d : Dyn Src Code Glob Fn) : Option Code := d.code.join

/-- `self.func` -/
def Dyn.funcVal (d : Dyn Src Code Glob Fn) : Option Fn := d.func.join

/-- dynamic.py:48-49 `compile_source(source)`: `compile(None, …)` raises `TypeError` -/
def compileSrc (py : Py Src Code Glob Fn Args V W) (source : Option Src) (w : W) : Except PyErr Code :=
  match source with
  | some s => py.compile s w
  | none => .error .typeError

/-- dynamic.py:52-54 `define(code, globals_)`: `FunctionType(None, …)` raises `TypeError` -/
def defineFn (py : Py Src Code Glob Fn Args V W) (code : Option Code) (globals : Option Glob) : Except PyErr Fn :=
  match code with
  | some c => py.define c globals
  | none => .error .typeError

/-- dynamic.py:118-127 `compile_source` -/
def dynCompile (py : Py Src Code Glob Fn Args V W) (recompile : Bool) (d : Dyn Src Code Glob Fn) (w : W) :
    Except PyErr Unit × Dyn Src Code Glob Fn :=
  if !recompile && d.codeVal.isSome then (.error .alreadyLoaded, d)                  -- 119-120
  else match compileSrc py d.source w with
    | .ok c => (.ok (), { d with code := some (some c) })                            -- 122
    | .error e =>
      if e.isException then                                                          -- 123-127
        (.ok (), { d with errors := d.errors ++ [⟨e, .compile⟩], compileFail := true })
      else (.error e, d)

/-- dynamic.py:129-134 `define` -/
def dynDefine (py : Py Src Code Glob Fn Args V W) (redefine : Bool) (d : Dyn Src Code Glob Fn) :
    Except PyErr Unit × Dyn Src Code Glob Fn :=
  if d.funcVal.isSome && !redefine then (.error .alreadyLoaded, d)                   -- 130-131
  else match defineFn py d.codeVal d.globals with
    | .ok f => (.ok (), { d with func := some (some f) })                            -- 132
    | .error e => (.error e, d)

/-- dynamic.py:112-116 `load` -/
def dynLoad (py : Py Src Code Glob Fn Args V W) (reload : Bool) (d : Dyn Src Code Glob Fn) (w : W) :
    Except PyErr Unit × Dyn Src Code Glob Fn :=
  if !reload && d.funcVal.isSome then (.error .alreadyLoaded, d)                     -- 113-114
  else match dynCompile py reload d w with                                           -- 115
    | (.ok (), d1) => dynDefine py reload d1                                         -- 116
    | (.error e, d1) => (.error e, d1)

/-- dynamic.py:136-141 `unload`: `del` of an attribute the object does not have raises `AttributeError` -/
def dynUnload (d : Dyn Src Code Glob Fn) : Except PyErr Unit × Dyn Src Code Glob Fn :=
  match d.code, d.func with
  | none, _ => (.error .attributeError, d)
  | some _, none => (.error .attributeError, { d with code := none })
  | some _, some _ =>
    (.ok (), { d with code := some none, func := some none, errors := [], callFail := false, compileFail := false })

/-- dynamic.py:143-148 `_maybe_load_on_call` -/
def maybeLoad (py : Py Src Code Glob Fn Args V W) (d : Dyn Src Code Glob Fn) (w : W) :
    Except PyErr Unit × Dyn Src Code Glob Fn :=
  if d.funcVal.isSome then (.ok (), d)
  else if d.loadOnCall then dynLoad py false d w
  else (.error .unready, d)

/-- `finally` (159-162) -/
def noteCallFail (d : Dyn Src Code Glob Fn) : Dyn Src Code Glob Fn :=
  match d.errors.getLast? with
  | some ⟨_, .call⟩ => { d with callFail := true }
  | _ => d

/-- `dontcare(self.func, self.errors)` (41-45, 158), given the outcome of the function -/
def dontcare (out : Except PyErr V) (d : Dyn Src Code Glob Fn) : Except PyErr (Option V) × Dyn Src Code Glob Fn :=
  match optionalize out (fun _ => .ok ()) with
  | (r, log) => (r, { d with errors := d.errors ++ log.map fun e => ⟨e, .call⟩ })

/-- dynamic.py:154-162, given the outcome of the function -/
def finishCall (optional : Bool) (d : Dyn Src Code Glob Fn) (out : Except PyErr V) (w : W) :
    Except PyErr (Option V) × Dyn Src Code Glob Fn × W :=
  if optional then ((dontcare out d).1, noteCallFail (dontcare out d).2, w)          -- 157-162
  else (out.map some, d, w)                                                          -- 154-156

/-- dynamic.py:150-162 `__call__`; the value `none` is Python's `None` in place of a value of the function -/
def dynCall (py : Py Src Code Glob Fn Args V W) (args : Args) (opt : Option Bool) (d : Dyn Src Code Glob Fn) (w : W) :
    Except PyErr (Option V) × Dyn Src Code Glob Fn × W :=
  match maybeLoad py d w with                                                        -- 151
  | (.error e, d1) => (.error e, d1, w)
  | (.ok (), d1) => match d1.funcVal with
    | none => (.error .typeError, d1, w)                    -- cannot happen: `None` is not callable
    | some f => finishCall (opt.getD d1.optional) d1 (py.run f args w).1 (py.run f args w).2   -- 152-153

/-- the arguments of `__init__` (85-92) -/
structure InitArgs (Src Glob : Type) where
  source : Option Src := none
  globals : Option Glob := none
  optional : Bool := false
  lazy : Bool := false
  loadOnCall : Bool := true

/-- dynamic.py:85-106 `__init__`, on an object that may have attributes already (from `from_function`) -/
def dynInit (py : Py Src Code Glob Fn Args V W) (a : InitArgs Src Glob) (d : Dyn Src Code Glob Fn) (w : W) :
    Except PyErr (Dyn Src Code Glob Fn) :=
  let d0 : Dyn Src Code Glob Fn := { d with
    globals := a.globals, optional := a.optional, errors := [], loadOnCall := a.loadOnCall, lazy := a.lazy
    callFail := false, compileFail := false, source := a.source }
  if a.lazy then .ok d0
  else match dynLoad py false d0 w with                                              -- 101-106
    | (.ok (), d1) => .ok d1
    | (.error .alreadyLoaded, d1) => .ok d1
    | (.error e, _) => .error e

/-- `Dynamic(…)` -/
def dynNew (py : Py Src Code Glob Fn Args V W) (a : InitArgs Src Glob) (w : W) : Except PyErr (Dyn Src Code Glob Fn) :=
  dynInit py a {} w

/-- dynamic.py:172-189 `from_function`, of a function -/
def fromFunction (py : Py Src Code Glob Fn Args V W) (f : Fn) (a : InitArgs Src Glob) (w : W) :
    Except PyErr (Dyn Src Code Glob Fn) :=
  match py.getsource f with                                                          -- 178
  | .error e => .error e
  | .ok s => dynInit py a                                                            -- 183-188
      { source := some s, code := some (some (py.codeOf f)), func := some (some f), globals := some (py.globalsOf f) } w

/-- what can be done to a Dynamic -/
inductive DynOp (Src Glob Args : Type) where
  | load (reload : Bool)
  | compile (recompile : Bool)
  | define (redefine : Bool)
  | unload
  | call (args : Args) (opt : Option Bool)
  | setSource (s : Option Src)
  | setGlobals (g : Option Glob)
  | setOptional (b : Bool)
  | setLoadOnCall (b : Bool)

/-- what an operation returns or raises is put aside -/
def dynOp (py : Py Src Code Glob Fn Args V W) : DynOp Src Glob Args → Dyn Src Code Glob Fn × W → Dyn Src Code Glob Fn × W
  | .load r, (d, w) => ((dynLoad py r d w).2, w)
  | .compile r, (d, w) => ((dynCompile py r d w).2, w)
  | .define r, (d, w) => ((dynDefine py r d).2, w)
  | .unload, (d, w) => ((dynUnload d).2, w)
  | .call a o, (d, w) => (dynCall py a o d w).2
  | .setSource s, (d, w) => ({ d with source := s }, w)
  | .setGlobals g, (d, w) => ({ d with globals := g }, w)
  | .setOptional b, (d, w) => ({ d with optional := b }, w)
  | .setLoadOnCall b, (d, w) => ({ d with loadOnCall := b }, w)

/-- a history; between operations the world may change in any way (`W → W`) -/
def dynRun (py : Py Src Code Glob Fn Args V W) : List (DynOp Src Glob Args × (W → W)) → Dyn Src Code Glob Fn × W →
    Dyn Src Code Glob Fn × W
  | [], s => s
  | (op, g) :: t, s => dynRun py t (let r := dynOp py op s; (r.1, g r.2))

end Verif.Model
