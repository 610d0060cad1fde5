import Mathlib.Data.List.Forall2
import Verif.Model.Pickle
/-!
# What it is for two object graphs to be the same
-/
namespace Verif.Spec
open Verif Verif.Model

/-- equal values, or corresponding objects -/
inductive RefRel (R : Nat → Nat → Prop) : PRef → PRef → Prop
  | none : RefRel R .none .none
  | bool (b : Bool) : RefRel R (.bool b) (.bool b)
  | int (i : Int) : RefRel R (.int i) (.int i)
  | float (x : BitVec 64) : RefRel R (.float x) (.float x)
  | unit : RefRel R .unit .unit
  | obj {a b : Nat} : R a b → RefRel R (.obj a) (.obj b)

/-- objects of the same type with the same contents, items in the same order -/
inductive NodeRel (R : Nat → Nat → Prop) : PNode → PNode → Prop
  | str (s : Text) : NodeRel R (.str s) (.str s)
  | bytes (b : Bytes) : NodeRel R (.bytes b) (.bytes b)
  | tuple {xs ys : List PRef} : List.Forall₂ (RefRel R) xs ys → NodeRel R (.tuple xs) (.tuple ys)
  | list {xs ys : List PRef} : List.Forall₂ (RefRel R) xs ys → NodeRel R (.list xs) (.list ys)
  | dict {xs ys : List (PRef × PRef)} : List.Forall₂ (fun p q => RefRel R p.1 q.1 ∧ RefRel R p.2 q.2) xs ys →
      NodeRel R (.dict xs) (.dict ys)

/-- the same value up to the places of its objects: what corresponds has the same contents, one object corresponds to one
object, and different objects to different ones. So sharing and cycles are the same too. -/
def SameGraph (h : PHeap) (r : PRef) (h' : PHeap) (r' : PRef) : Prop :=
  ∃ R : Nat → Nat → Prop,
    (∀ a b b', R a b → R a b' → b = b') ∧ (∀ a a' b, R a b → R a' b → a = a') ∧ RefRel R r r' ∧
    ∀ a b, R a b → ∃ n n', h[a]? = some n ∧ h'[b]? = some n' ∧ NodeRel R n n'

/-- what a reference is as a dict key -/
def IsKey (h : PHeap) (r : PRef) (k : List KeyTok) : Prop := ∃ n, keyN h n r = some k

/-- an object as Python has it: characters are code points, bytes are bytes, the empty tuple has no address, the keys of a
dict are hashable and differ -/
def NodeOK (h : PHeap) : PNode → Prop
  | .str s => ∀ c ∈ s, c < 0x110000
  | .bytes b => ∀ x ∈ b, x < 256
  | .tuple xs => xs ≠ []
  | .list _ => True
  | .dict kvs => (∀ p ∈ kvs, ∃ k, IsKey h p.1 k) ∧
      kvs.Pairwise fun p q => ∀ k l, IsKey h p.1 k → IsKey h q.1 l → k ≠ l

/-- all objects are as Python has them -/
def HeapOK (h : PHeap) : Prop := ∀ (a : Nat) n, h[a]? = some n → NodeOK h n

/-- the references an object holds -/
def PNode.refs : PNode → List PRef
  | .str _ | .bytes _ => []
  | .tuple xs | .list xs => xs
  | .dict kvs => kvs.flatMap fun p => [p.1, p.2]

/-- every reference held is to an object -/
def Closed (h : PHeap) : Prop := ∀ (a : Nat) n, h[a]? = some n → ∀ b, .obj b ∈ PNode.refs n → b < h.length

/-- an object is a tuple -/
def IsTuple (h : PHeap) (a : Nat) : Prop := ∃ xs, h[a]? = some (.tuple xs)

/-- tuples are nested directly in each other `N` deep at most: `rank` says how deep -/
def TuplesWithin (h : PHeap) (N : Nat) : Prop :=
  ∃ rank : Nat → Nat, (∀ a, rank a ≤ N) ∧ (∀ a, IsTuple h a → 0 < rank a) ∧
    ∀ a xs, h[a]? = some (.tuple xs) → ∀ b, .obj b ∈ xs → IsTuple h b → rank b < rank a

end Verif.Spec
