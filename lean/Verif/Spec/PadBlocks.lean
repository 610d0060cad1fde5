import Verif.Spec.Views
import Verif.Spec.Notepad
/-!
# What becomes of the block of a value in a notepad
-/
namespace Verif.Spec
open Verif
variable {V : Type}

/-- the call takes the block away from the key: it stores another value under the key, deletes the key, or everything -/
def NoteCall.drops (k : Str) : NoteCall V → Prop
  | .set _ k' _ eo => k' = k ∧ eo = true
  | .del _ k' => k' = k
  | .clear _ => True
  | .close _ => True
  | _ => False

/-- the key `k` has lost the block by the end of the calls -/
def lost (k : Str) : NoteState V → List (NoteCall V) → Prop
  | _, [] => False
  | st, c :: cs => (st.has c = true ∧ c.drops k) ∨ lost k (noteNext st c) cs

end Verif.Spec
