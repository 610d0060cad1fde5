import Verif.Model.LockLife
/-!
# `SlidingLock` objects: orders of calls
-/
namespace Verif.Spec
open Verif Verif.Model

/-- an order of calls a programmer may write: objects are made before they are used; entered when they are not entered; left when
they are; closed when they are not, and then not used again. With `strict`, `close` only when no object is entered, and
after it no object is used that was made before. First argument lists: the objects that may be used, those that are
entered. -/
def proper (strict : Bool) : List Nat → List Nat → List LifeOp → Prop
  | _, _, [] => True
  | live, ins, .new i :: t => i ∉ live ∧ i ∉ ins ∧ proper strict (i :: live) ins t
  | live, ins, .enter i :: t => i ∈ live ∧ i ∉ ins ∧ proper strict live (i :: ins) t
  | live, ins, .exit i :: t => i ∈ ins ∧ proper strict live (ins.erase i) t
  | live, ins, .close i :: t => i ∈ live ∧ i ∉ ins ∧ (strict = true → ins = []) ∧
      proper strict (if strict then [] else live.erase i) ins t

/-- no object is entered while another is: the list has the objects that are entered -/
def oneByOne : List Nat → List LifeOp → Prop
  | _, [] => True
  | ins, .new _ :: t => oneByOne ins t
  | ins, .enter i :: t => ins = [] ∧ oneByOne [i] t
  | ins, .exit i :: t => oneByOne (ins.erase i) t
  | ins, .close _ :: t => oneByOne ins t

end Verif.Spec
