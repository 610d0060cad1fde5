import Verif.Model.CompGen
/-!
# What comes of iterating over a Composition
-/
namespace Verif.Spec
open Verif Verif.Model
variable {V X : Type}

/-- what `next` gave for one of the generators, in order -/
def outputsOf (i : Nat) : List (GenOp V X) → List (Option (GenOut V)) → List (GenOut V)
  | .next j :: ops, o :: outs => if j = i then o.toList ++ outputsOf i ops outs else outputsOf i ops outs
  | _ :: ops, _ :: outs => outputsOf i ops outs
  | _, _ => []

/-- before the steps are reindexed, if ever, a step is added under a name that is not taken -/
def Grows [PyNone V] : List (GenOp V X) → GenState V X → Prop
  | [], _ => False
  | .edit .reindex :: _, _ => False
  | .edit (.addStep s name) :: t, S =>
      name.getD (.int (S.comp.steps.length + 1)) ∉ S.comp.steps.keys ∨ Grows t (genStep S (.edit (.addStep s name))).2
  | op :: t, S => Grows t (genStep S op).2

/-- what a step of the Composition as it is now makes of a value: called with the inserts it has now, and then its sends -/
inductive StepNow (c : Comp V X) (w : World V X) (n : Name) (v : V) : GenOut V → Prop
  | gone : c.steps.get? n = none → StepNow c w n v (.raises .keyError)
  | good {s : Step V X} {y : V} : c.steps.get? n = some s → (doStep c n s v w).1 = .ok y → StepNow c w n v (.yields y)
  | bad {s : Step V X} {e : PyErr} : c.steps.get? n = some s → (doStep c n s v w).1 = .error e →
      StepNow c w n v (.raises (fromGenerator e))

/-- a step whose results do not depend on the rest of the world -/
def PureStep (s : Step V X) : Prop :=
  (∀ args kw w w', (s.call args kw w).1 = (s.call args kw w').1) ∧
    ∀ f, s.func = some f → ∀ args kw w w', (f args kw w).1 = (f args kw w').1

/-- a send that cannot fail and leaves the Composition as it is -/
def MeekSend (sd : Send V X) : Prop := ∀ c v w, ∃ w', performSend c v sd w = (.ok (), c, w')

/-- iterating and running, and nothing else -/
def OnlyRuns : GenOp V X → Prop
  | .start _ => True
  | .next _ => True
  | .edit (.run _) => True
  | .edit _ => False

/-- the outputs of an iteration that is left alone -/
def alone (r : List V × Option PyErr) (j : Nat) : GenOut V :=
  match r.1[j]? with
  | some y => .yields y
  | none => if j = r.1.length then (match r.2 with
    | none => .stops
    | some e => .raises (fromGenerator e)) else .stops

end Verif.Spec
