import Verif.Model.Piped
/-! # Runs of two processes -/
namespace Verif.Spec
open Verif

/-- `n` steps of a transition system -/
inductive StepsN {α : Type} (step : α → α → Prop) : Nat → α → α → Prop
  | zero (s : α) : StepsN step 0 s s
  | succ {n : Nat} {s t u : α} : StepsN step n s t → step t u → StepsN step (n + 1) s u

/-- no process can go on -/
def AtRest {α : Type} (step : α → α → Prop) (s : α) : Prop := ∀ t, ¬ step s t

/-- whatever the order of steps, the system comes to rest within `k` steps, and `P` holds then -/
def AlwaysEnds {α : Type} (step : α → α → Prop) (s : α) (k : Nat) (P : α → Prop) : Prop :=
  (∀ n t, StepsN step n s t → n ≤ k) ∧ ∀ n t, StepsN step n s t → AtRest step t → P t

end Verif.Spec
