import Verif.Py.Dict
import Verif.Py.Err
import Verif.Py.Str
/-!
# What a pipeline is

Stated without the model of `Composition`: which arguments a step gets, and what it means for a signal to pass through a
row of steps.
-/
namespace Verif.Spec
open Verif

variable {V W : Type}

/-- `o` is the first position not taken by an insert -/
def IsOpening (ins : Int → Option V) (o : Nat) : Prop := ins o = none ∧ ∀ i < o, ins (i : Nat) ≠ none

/-- `args` are the positional arguments of a step that has the positional inserts `ins`, for the signal `v`: the inserts in
increasing position, and the signal in the first open position -/
def PosArgs (ins : Int → Option V) (v : V) (args : List V) : Prop :=
  ∃ o, IsOpening ins o ∧ ∃ ks : List Int, ks.Pairwise (· < ·) ∧ (∀ k, k ∈ ks ↔ k = o ∨ ins k ≠ none) ∧
    args.map some = ks.map fun k : Int => if k = o then some v else ins k

/-- `kw` are keyword arguments with the values `f` -/
def KwArgs (f : Str → Option V) (kw : Dict Str V) : Prop := kw.WF ∧ ∀ s, kw.get? s = f s

/-- the overlay of two partial functions: `f` where it is defined, else `g` -/
def over {κ : Type} (f g : κ → Option V) : κ → Option V := fun k => (f k).or (g k)

/-- positional arguments baked into a partial object -/
def baked (l : List V) : Int → Option V := fun i => if 0 ≤ i then l[i.toNat]? else none

/-- a signal passes through a row of steps: each gets what the one before gives. The outputs, the exception that stops
it, if one does, and the world at the end. -/
inductive Threads : List (V → W → Except PyErr V × W → Prop) → V → W → List V → Option PyErr → W → Prop where
  | done (v : V) (w : W) : Threads [] v w [] none w
  | step {R : V → W → Except PyErr V × W → Prop} {t : List (V → W → Except PyErr V × W → Prop)} {v v' : V} {w w' w'' : W}
      {outs : List V} {e : Option PyErr} :
      R v w (.ok v', w') → Threads t v' w' outs e w'' → Threads (R :: t) v w (v' :: outs) e w''
  | fail {R : V → W → Except PyErr V × W → Prop} {t : List (V → W → Except PyErr V × W → Prop)} {v : V} {w w' : W}
      {e : PyErr} : R v w (.error e, w') → Threads (R :: t) v w [] (some e) w'

end Verif.Spec
