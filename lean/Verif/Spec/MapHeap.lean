import Mathlib.Logic.Relation
import Mathlib.Logic.Function.Iterate
import Verif.Model.MapHeap
/-!
# What mappings as objects show, and which of them a recursion comes upon
-/
namespace Verif.Spec
open Verif Verif.Model
variable {A : Type}

mutual
/-- the finite tree a value shows -/
inductive Unf (h : MHeap A) : HVal A → Val A → Prop
  | atom (a : A) : Unf h (.atom a) (.atom a)
  | obj {n : Nat} {m : HMap A} {l : List (A × Val A)} : h[n]? = some m → UnfItems h m.items l →
      Unf h (.obj n) (.map m.tag l)
/-- the same for items -/
inductive UnfItems (h : MHeap A) : List (A × HVal A) → List (A × Val A) → Prop
  | nil : UnfItems h [] []
  | cons {k : A} {v : HVal A} {w : Val A} {r : List (A × HVal A)} {l : List (A × Val A)} : Unf h v w → UnfItems h r l →
      UnfItems h ((k, v) :: r) ((k, w) :: l)
end

/-- mapping `a` has mapping `b`, of a class in `mt`, as a value -/
def Holds (h : MHeap A) (mt : Tag → Bool) (a b : Nat) : Prop :=
  ∃ m k m', h[a]? = some m ∧ (k, .obj b) ∈ m.items ∧ h[b]? = some m' ∧ mt m'.tag = true

mutual
/-- the mappings come upon below mapping `n` and at it, in order: once for each path that leads there -/
inductive Visits (h : MHeap A) (mt : Tag → Bool) : Nat → List Nat → Prop
  | mk {n : Nat} {m : HMap A} {vs : List Nat} : h[n]? = some m → VisitsItems h mt m.items vs → Visits h mt n (n :: vs)
inductive VisitsItems (h : MHeap A) (mt : Tag → Bool) : List (A × HVal A) → List Nat → Prop
  | nil : VisitsItems h mt [] []
  | skip {k : A} {v : HVal A} {r : List (A × HVal A)} {vs : List Nat} : v.isA h mt = false → VisitsItems h mt r vs →
      VisitsItems h mt ((k, v) :: r) vs
  | nest {k : A} {n : Nat} {r : List (A × HVal A)} {vs ws : List Nat} : (HVal.obj n).isA h mt = true → Visits h mt n vs →
      VisitsItems h mt r ws → VisitsItems h mt ((k, .obj n) :: r) (vs ++ ws)
end

/-- the keys of each mapping differ -/
def MapsOK [DecidableEq A] (h : MHeap A) : Prop := ∀ m ∈ h, Dict.WF m.items

/-- an entry with a plain value that matches, set anew; any other as it is -/
def editEntry (f : A → A → Bool) (s : A → A → A) (kv : A × HVal A) : A × HVal A :=
  match kv.2 with
  | .atom a => if f kv.1 a then (kv.1, .atom (s kv.1 a)) else kv
  | .obj _ => kv

/-- functions that match and set plain values only, going by key and value -/
structure PlainEdit (f : A → A → Bool) (s : A → A → A) (filter : MHeap A → A → HVal A → Bool)
    (setter : MHeap A → A → HVal A → HVal A × MHeap A) : Prop where
  atoms : ∀ h k a, filter h k (.atom a) = f k a
  noObj : ∀ h k n, filter h k (.obj n) = false
  sets : ∀ h k a, setter h k (.atom a) = (.atom (s k a), h)

/-- the heap with the entries of each mapping edited as many times as `times` says -/
def EditedTimes (f : A → A → Bool) (s : A → A → A) (times : Nat → Nat) (h h' : MHeap A) : Prop :=
  ∀ n : Nat, h'[n]? = (h[n]?).map fun m => { m with items := m.items.map (editEntry f s)^[times n] }

/-- editing what was edited changes nothing more -/
def Settled (f : A → A → Bool) (s : A → A → A) : Prop := ∀ k a, f k a = true → f k (s k a) = true → s k (s k a) = s k a

/-- every mapping held is there, and all are dicts (of some class) -/
def DictsOnly (h : MHeap A) : Prop :=
  ∀ m ∈ h, m.tag.isDict = true ∧ ∀ k b, (k, HVal.obj b) ∈ m.items → b < h.length

/-- the mapping is a `NestingDict` -/
def IsNesting (h : MHeap A) (n : Nat) : Prop := ∃ m, h[n]? = some m ∧ m.tag = .nesting

/-- a mapping is held below another, at any depth -/
def Below (h : MHeap A) (a b : Nat) : Prop := Relation.TransGen (Holds h Tag.isDict) a b

end Verif.Spec
