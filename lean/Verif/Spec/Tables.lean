import Mathlib.Data.List.Forall2
import Verif.Model.Tables
/-!
# What is said of whole tables

Row by row, column by column.
-/
namespace Verif.Spec
open Verif Verif.Model

variable {N C : Type} [DecidableEq N]

/-- the table `g` is `f` with its numeric columns cast: the same row labels, the same columns, every cell in its row -/
structure CastOf (numeric : N × List C → Bool) (cast : N × List C → Except PyErr (Option (List C))) (f g : Frame N C) : Prop where
  index : g.index = f.index
  columns : List.Forall₂ (fun c d => d.1 = c.1 ∧ (numeric c = false → d.2 = c.2) ∧ (numeric c = true → cast c = .ok (some d.2)))
    f.columns g.columns

/-- every column has a cell for every row -/
def Frame.Rect (f : Frame N C) : Prop := ∀ c ∈ f.columns, c.2.length = f.index.length

/-- numeric columns can be cast, each cell to one cell -/
def Castable (numeric : N × List C → Bool) (cast : N × List C → Except PyErr (Option (List C))) (f : Frame N C) : Prop :=
  ∀ c ∈ f.columns, numeric c = true → ∃ l, cast c = .ok (some l) ∧ l.length = c.2.length

/-- rows are labelled `0, 1, …` -/
def Frame.Default (ofNat : Nat → N) (f : Frame N C) : Prop := f.index = (List.range f.index.length).map ofNat

/-- the table `g` as it is when Series are put together by label: a column that is not numeric has its cells where the row has
the label they had in `f`; a numeric one has its `i`-th cell where the row is labelled `i`; null elsewhere -/
def ByLabel (numeric : N × List C → Bool) (cast : N × List C → Except PyErr (Option (List C))) (ofNat : Nat → N) (null : C)
    (f g : Frame N C) : Prop :=
  g.index.Nodup ∧ (∀ l, l ∈ g.index ↔ l ∈ f.index ∨ ∃ i < f.index.length, l = ofNat i) ∧
  List.Forall₂ (fun c d => d.1 = c.1 ∧ ∀ (k : Nat) (l : N), g.index[k]? = some l →
    (numeric c = false → (∀ i : Nat, f.index[i]? = some l → d.2[k]? = c.2[i]?) ∧ (l ∉ f.index → d.2[k]? = some null)) ∧
    (numeric c = true → ∃ v, cast c = .ok (some v) ∧ (∀ i : Nat, i < f.index.length → l = ofNat i → d.2[k]? = v[i]?) ∧
      ((∀ i < f.index.length, l ≠ ofNat i) → d.2[k]? = some null))) f.columns g.columns

end Verif.Spec
