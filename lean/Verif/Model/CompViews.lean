import Verif.Model.Composition
/-!
# composition.py: the views of a Composition

`index`, `send_index`, `insert_index`, `function_names` and `_check_for_step`. The `__name__` of a step, if it has one, is
given by `named` (functions and classes have one; `functools.partial` objects, Compositions and most instances of classes
do not).
-/
namespace Verif.Model
open Verif
variable {V X : Type}

/-- composition.py:88-90 `index` -/
def stepIndex (c : Comp V X) : List Name := c.steps.keys

/-- composition.py:92-94 `insert_index` -/
def insertIndex (c : Comp V X) : List Name := c.inserts.keys

/-- composition.py:96-98 `send_index` -/
def sendIndex (c : Comp V X) : List Name := c.sends.keys

/-- `attrgetter("__name__")` -/
def nameAttr (named : Step V X → Option Str) (s : Step V X) : Except PyErr Str :=
  match named s with
  | some n => .ok n
  | .none => .error .attributeError

/-- `list(map(attrgetter("__name__"), l))` -/
def nameAttrs (named : Step V X → Option Str) : List (Step V X) → Except PyErr (List Str)
  | [] => .ok []
  | s :: t => match nameAttr named s with
    | .error e => .error e
    | .ok n => match nameAttrs named t with
      | .error e => .error e
      | .ok l => .ok (n :: l)

/-- composition.py:100-102 `function_names` -/
def functionNames (named : Step V X → Option Str) (c : Comp V X) : Except PyErr (List Str) := nameAttrs named c.steps.values

/-- composition.py:57-60 `_check_for_step` -/
def checkForStep (c : Comp V X) (name : Name) : Except PyErr (Step V X) :=
  match c.steps.get? name with
  | .none => .error .keyError                                                       -- 58-59
  | some s => .ok s                                                                 -- 60

end Verif.Model
