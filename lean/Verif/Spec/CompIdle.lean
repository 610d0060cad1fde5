import Verif.Model.CompTrack
/-!
# Sends and inserts for names that are not steps; the views of a Composition

What is seen of a Composition: what its runs give, and the world after them.
-/
namespace Verif.Spec
open Verif Verif.Model
variable {V X : Type}

/-- what the runs among some edits give, in order, and the world at the end -/
def outcomes [PyNone V] : List (CompEdit V X) → Comp V X × World V X → List (Except PyErr V) × World V X
  | [], cw => ([], cw.2)
  | .run v :: t, cw => ((execute cw.1 v cw.2).1 :: (outcomes t (execute cw.1 v cw.2).2).1, (outcomes t (execute cw.1 v cw.2).2).2)
  | e :: t, cw => outcomes t (editComp cw e)

/-- a send from, or an insert at, a name that is not among `P` -/
def isIdle (P : Name → Bool) : CompEdit V X → Bool
  | .addSend n _ => !P n
  | .addInsert n _ _ => !P n
  | _ => false

/-- steps get only names among `P` (those the Composition chooses are integers) -/
def NamesWithin (P : Name → Bool) : CompEdit V X → Prop
  | .addStep _ (some n) => P n = true
  | .addStep _ none => ∀ i, P (.int i) = true
  | .reindex => ∀ i, P (.int i) = true
  | _ => True

/-- a send or an insert -/
def IsWiring : CompEdit V X → Prop
  | .addSend _ _ => True
  | .addInsert _ _ _ => True
  | _ => False

/-- an insert -/
def IsInsert : CompEdit V X → Prop
  | .addInsert _ _ _ => True
  | _ => False

/-- a name is put at the end of a row of names, unless it is there -/
def rowAdd (row : List Name) (n : Name) : List Name := if n ∈ row then row else row ++ [n]

/-- the row of the names of steps after an edit -/
def rowEdit (row : List Name) : CompEdit V X → List Name
  | .addStep _ (some n) => rowAdd row n
  | .addStep _ none => rowAdd row (.int (row.length + 1))
  | .reindex => (List.range row.length).map fun i => .int (i : Nat)
  | _ => row

/-- the row of the names of steps after some edits -/
def rowEdits (row : List Name) (es : List (CompEdit V X)) : List Name := es.foldl rowEdit row

end Verif.Spec
