import Verif.Model.CompSelf
/-!
# Steps that edit their own Composition: which edits are meant
-/
namespace Verif.Spec
open Verif Verif.Model
variable {V X : Type}

/-- a function that takes any arguments and does not raise -/
def TotalStep (s : Step V X) : Prop := s.func = none ∧ ∀ args kw w, ∃ y, (s.call args kw w).1 = .ok y

/-- adding or replacing steps that do not raise, adding inserts, reindexing -/
def GentleEdit : CompEdit V X → Prop
  | .addStep s _ => TotalStep s
  | .addInsert _ _ _ => True
  | .reindex => True
  | _ => False

/-- replacing steps of these names, adding inserts, sends, captures, a tracker -/
def SteadyEdit (names : List Name) : CompEdit V X → Prop
  | .addStep _ (some n) => n ∈ names
  | .addStep _ none => False
  | .reindex => False
  | .run _ => False
  | _ => True

/-- not reindexing -/
def NotReindex : CompEdit V X → Prop
  | .reindex => False
  | _ => True

end Verif.Spec
