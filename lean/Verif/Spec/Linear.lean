import Verif.Spec.Index
/-!
# One call after another on a list of distinct keys
-/
namespace Verif.Spec
open Verif

/-- a call that changes an index; keys by their text -/
inductive KeyOp where
  | add (k : Str) (existsOk : Bool)
  | del (k : Str)

/-- its outcome and the new list -/
def ixDo (keys : List Str) : KeyOp → Except PyErr Nat × List Str
  | .add k eo => ixAdd keys k eo
  | .del k => ixDel keys k

/-- calls made one after the other on the list `a`, with the outcomes they should have, leave `b` -/
def Legal : List (KeyOp × Except PyErr Nat) → List Str → List Str → Prop
  | [], a, b => a = b
  | (o, r) :: t, a, b => r = (ixDo a o).1 ∧ Legal t (ixDo a o).2 b

end Verif.Spec
