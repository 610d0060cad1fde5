import Verif.Py.Err
import Verif.Py.Str
import Verif.Model.Func
/-!
# dynamic.py: `exc_report`, `dontcare` and `digsource`

`/repo/dustgoggles/dynamic.py`, lines 24-45, 57-78. Not modelled: how `inspect.getmodule` finds the module of a frame, and how
`inspect.getsource` finds lines in a file (both are given).
-/
namespace Verif.Model
open Verif

/-- an entry of a traceback: the line (`tb_lineno`), and of its frame the name of the module `getmodule` finds, the code's
qualified name (`none` before Python 3.11, which has no `co_qualname`), its name and its file -/
structure TbFrame where
  line : Nat
  module : Option Str
  qualname : Option Str
  coName : Str
  file : Str
  deriving DecidableEq

/-- an exception object: its class, the outcome of `f"{type(exc)}: {exc}"`, its traceback -/
structure ExcObj where
  cls : PyErr
  text : Except PyErr Str
  tb : List TbFrame

/-- `exc` in the report: the text or the object -/
inductive ExcField where
  | text (s : Str)
  | obj (e : ExcObj)

/-- a report -/
structure ExcReport where
  exception : ExcField
  lineno : List Nat := []
  name : List Str := []
  filename : List Str := []

/-- dynamic.py:65-72: the name of a frame -/
def frameName (f : TbFrame) : Str :=
  match f.module with
  | some m => m ++ '.' :: f.qualname.getD f.coName
  | none => f.coName

/-- dynamic.py:63-76, the loop -/
def reportLoop : List TbFrame → ExcReport → ExcReport
  | [], r => r
  | f :: t, r => reportLoop t { r with
      name := r.name ++ [frameName f]
      lineno := r.lineno ++ [f.line]
      filename := r.filename ++ [f.file] }

/-- dynamic.py:57-77 `exc_report`; `none` is the report `{}` of `None` -/
def excReport (exc : Option ExcObj) (stringify : Bool) : Except PyErr (Option ExcReport) :=
  match exc with
  | none => .ok none                                                             -- 58-59
  | some e =>
    if stringify = false then .ok (some (reportLoop e.tb { exception := .obj e }))
    else match e.text with                                                       -- 61
      | .error e' => .error e'
      | .ok s => .ok (some (reportLoop e.tb { exception := .text s }))

/-- dynamic.py:41-45 `dontcare(func, target)(…)`, given what the call of `func` ends in: the result, and what has been added
to `target` (`'func'` and `'category'` are the same in all entries). `here` is the frame of the wrapper (func.py:136-142),
which the traceback begins with. -/
def dontcareReport {V : Type} (here : TbFrame) (out : Except ExcObj V) (target : List ExcReport) :
    Except PyErr (Option V) × List ExcReport :=
  match out with
  | .ok v => (.ok (some v), target)
  | .error e =>
    if e.cls.isException then
      match excReport (some { e with tb := here :: e.tb }) true with             -- func.py:141-142
      | .error e' => (.error e', target)
      | .ok r => (.ok none, target ++ r.toList)
    else (.error e.cls, target)

/-! ## digsource -/

/-- things that can be called: functions (with the text `inspect` finds, if it does, and what `functools.wraps` noted in
`__wrapped__`), methods, `functools.partial`s, Dynamics (with their `func` and `source`), classes, and others -/
inductive Callee where
  | fn (text : Option Str) (wrapped : Option Callee)
  | method (of : Callee)
  | part (func : Callee)
  | dyn (func : Option Callee) (source : Option Str)
  | cls (text : Option Str)
  | other

/-- `functools.partial(func, …)`: a partial of a partial is flattened -/
def mkPartial : Callee → Callee
  | .part g => .part g
  | g => .part g

/-- `inspect.getsource` -/
def getSource : Callee → Except PyErr Str
  | .fn _ (some w) => getSource w
  | .fn (some s) none => .ok s
  | .fn none none => .error .osError
  | .method m => getSource m
  | .cls (some s) => .ok s
  | .cls none => .error .osError
  | .part _ => .error .typeError
  | .dyn _ _ => .error .typeError
  | .other => .error .typeError

/-- dynamic.py:24-35 `digsource`; classes and others are taken to have no attribute `func` -/
def digsource : Callee → Except PyErr Str
  | .fn t w => getSource (.fn t w)                                               -- 29-30
  | .method m => getSource (.method m)
  | .part f => getSource f                                                       -- 31-33
  | .dyn (some f) _ => getSource f
  | .dyn none _ => .error .typeError                                             -- getsource(None)
  | .cls _ => .error .typeError                                                  -- 34
  | .other => .error .typeError

/-- `Dynamic(source)`: the function is compiled with an empty file name (49), so `inspect` finds no text -/
def dynOfSource (source : Str) : Callee := .dyn (some (.fn none none)) (some source)

/-- `Dynamic.from_function(f)`: the function itself (184); `__init__` resets `source` (98) -/
def dynOfFunction (f : Callee) : Callee := .dyn (some f) none

end Verif.Model
