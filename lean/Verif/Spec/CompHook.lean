import Verif.Model.CompHook
import Verif.Lemmas.CompSends
/-! # Subclasses that bind keyword arguments to steps, and what one would want of them -/
namespace Verif.Spec
open Verif Verif.Model Verif.Lemmas
variable {V X : Type}

/-- a keyword argument and where it goes: a step, and the key of an insert for it -/
structure Binding where
  kwarg : Str
  step : Name
  key : Name

/-- `self.add_insert(step, key, special_kwargs[kwarg])` for each of the bindings whose argument is given -/
def bindTable (table : List Binding) (kw : Dict Str V) (c : Comp V X) : Comp V X :=
  table.foldl (fun c b => match kw.get? b.kwarg with | some v => addInsert c b.step b.key v | none => c) c

/-- the subclass that does so: "apply kwargs at time of execution across multiple steps" -/
def tableHook (table : List Binding) : Hook V X := fun kw c w => (.ok (), bindTable table kw c, w)

/-- no two bindings have the same step and key -/
def OwnSlots (table : List Binding) : Prop := (table.map fun b => (b.step, b.key)).Nodup

/-- no send goes to a step -/
def NoStepSends (c : Comp V X) : Prop := ∀ n, ∀ sd ∈ sendsOf c n, sd.target.bind Target.step? = none

/-- keyword arguments concern the run they are given to: the next run is as if it were the first -/
def OnlyThatRun (V X : Type) [PyNone V] : Prop :=
  ∀ (table : List Binding) (c : Comp V X), OwnSlots table → NoStepSends c → ∀ (kw kw' : Dict Str V) (v v' : V) (w w' : World V X),
    (executeWith (tableHook table) kw' (executeWith (tableHook table) kw c v w).2.1 v' w').1 =
      (executeWith (tableHook table) kw' c v' w').1

end Verif.Spec
