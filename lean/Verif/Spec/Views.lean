import Verif.Spec.Grid
/-!
# What becomes of the block an array is on
-/
namespace Verif.Spec
open Verif

/-- a block: whether its key still has it, and its bytes -/
structure Block where
  held : Bool
  bytes : Bytes

/-- what a call on the GridPaper does to the block of key `k`: arrays stored under the key are written to its front if they fit;
when the key is deleted or the GridPaper closed, it is left as it is. -/
def blockNext {A : Type} (data : A → Bytes) (k : Str) (st : GridState A) (b : Block) (c : GridCall A) : Block :=
  if st.has c then
    match c with
    | .set _ k' a => if k' = k ∧ b.held = true ∧ (data a).length ≤ b.bytes.length then ⟨true, data a ++ b.bytes.drop (data a).length⟩ else b
    | .del _ k' => if k' = k then ⟨false, b.bytes⟩ else b
    | .close _ => ⟨false, b.bytes⟩
    | _ => b
  else b

/-- a history of calls -/
def blockEnd {A : Type} (data : A → Bytes) (k : Str) : GridState A → Block → List (GridCall A) → Block
  | _, b, [] => b
  | st, b, c :: cs => blockEnd data k (gridNext (fun a => (data a).length) st c) (blockNext data k st b c) cs

/-- the call deletes `k`, or everything -/
def GridCall.removes {A : Type} (k : Str) : GridCall A → Prop
  | .del _ k' => k' = k
  | .close _ => True
  | _ => False

/-- the call stores something under `k` -/
def GridCall.stores {A : Type} (k : Str) : GridCall A → Prop
  | .set _ k' _ => k' = k
  | _ => False

end Verif.Spec
