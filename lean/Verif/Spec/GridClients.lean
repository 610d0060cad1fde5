import Verif.Model.GridClients
import Verif.Spec.Grid
/-!
# What a process that shares a GridPaper may expect

Every key belongs to one process, which alone sets it, or to nobody, and then it is not set at all. A process that reads a
key of its own, or one that is nobody's, finds what a dictionary of arrays that it has for itself would hold.
-/
namespace Verif.Spec
open Verif Verif.Model

variable {size : Arr → Nat}

/-- One call of a process: `st` is what it takes the GridPaper to hold, with the sizes of the blocks; it can tell this of
the keys `reads` only. -/
def GpStep (size : Arr → Nat) (reads : Str → Prop) (st : Str → Option (Arr × Nat)) :
    GpCall → Except PyErr GpOut → (Str → Option (Arr × Nat)) → Prop
  | .get k, r, st' => st' = st ∧ (reads k.text → r = match st k.text with
    | some (a, _) => .ok (.val a)
    | none => .error .keyError)
  | .set k a, r, st' => r = (match (gridStore size st k.text a).1 with | .ok _ => .ok .done | .error e => .error e) ∧
    st' = (gridStore size st k.text a).2
  | .keys, _, st' => st' = st

/-- all its calls -/
def GpLegal (size : Arr → Nat) (reads : Str → Prop) :
    (Str → Option (Arr × Nat)) → List (GpCall × Except PyErr GpOut) → (Str → Option (Arr × Nat)) → Prop
  | st, [], st' => st' = st
  | st, (o, out) :: t, st' => ∃ st1, GpStep size reads st o out st1 ∧ GpLegal size reads st1 t st'

end Verif.Spec
