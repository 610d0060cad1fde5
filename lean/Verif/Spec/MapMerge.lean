import Verif.Spec.MapHeap
/-!
# What `rmerge` makes of two mappings that are objects
-/
namespace Verif.Spec
open Verif Verif.Model
variable {A : Type} [DecidableEq A]

mutual
/-- `Merged h h' lo mt a b r`: `r` is, in `h'`, a dict at an address from `lo` on that merges the mappings `a` and `b` of `h`,
and so are the dicts that merge two mappings of theirs; every other value is the very value of `a` or `b` -/
inductive Merged (h h' : MHeap A) (lo : Nat) : (Tag → Bool) → Nat → Nat → Nat → Prop
  | mk {mt : Tag → Bool} {a b r : Nat} {m1 m2 : HMap A} {out : List (A × HVal A)} : h[a]? = some m1 → h[b]? = some m2 →
      lo ≤ r → h'[r]? = some ⟨.dict, out⟩ →
      Dict.keys out = Dict.keys m1.items ++ (Dict.keys m2.items).filter (fun k => decide (k ∉ Dict.keys m1.items)) →
      MergedItems h h' lo mt m1.items m2.items out → Merged h h' lo mt a b r
/-- the values of the merger of some items -/
inductive MergedItems (h h' : MHeap A) (lo : Nat) : (Tag → Bool) → List (A × HVal A) → List (A × HVal A) → List (A × HVal A) → Prop
  | nil {mt : Tag → Bool} {i1 i2 : List (A × HVal A)} : MergedItems h h' lo mt i1 i2 []
  | cons {mt : Tag → Bool} {i1 i2 out : List (A × HVal A)} {k : A} {v : HVal A} : MergedVal h h' lo mt i1 i2 k v →
      MergedItems h h' lo mt i1 i2 out → MergedItems h h' lo mt i1 i2 ((k, v) :: out)
/-- the value of the merger at a key -/
inductive MergedVal (h h' : MHeap A) (lo : Nat) : (Tag → Bool) → List (A × HVal A) → List (A × HVal A) → A → HVal A → Prop
  | left {mt : Tag → Bool} {i1 i2 : List (A × HVal A)} {k : A} {v : HVal A} : Dict.get? i1 k = some v → Dict.get? i2 k = none →
      MergedVal h h' lo mt i1 i2 k v
  | right {mt : Tag → Bool} {i1 i2 : List (A × HVal A)} {k : A} {v : HVal A} : Dict.get? i1 k = none → Dict.get? i2 k = some v →
      MergedVal h h' lo mt i1 i2 k v
  | over {mt : Tag → Bool} {i1 i2 : List (A × HVal A)} {k : A} {u v : HVal A} : Dict.get? i1 k = some u → Dict.get? i2 k = some v →
      ¬ (u.isA h mt = true ∧ v.isA h mt = true) → MergedVal h h' lo mt i1 i2 k v
  | both {mt : Tag → Bool} {i1 i2 : List (A × HVal A)} {k : A} {a b r : Nat} : Dict.get? i1 k = some (.obj a) →
      Dict.get? i2 k = some (.obj b) → (HVal.obj a : HVal A).isA h mt = true → (HVal.obj b : HVal A).isA h mt = true →
      Merged h h' lo rmergeDefault a b r → MergedVal h h' lo mt i1 i2 k (.obj r)
end

/-- both mappings of the pair `p` have a mapping of a class in `mt` at the same key, and these are the pair `q` -/
def PairIn (h : MHeap A) (mt : Tag → Bool) (p q : Nat × Nat) : Prop :=
  ∃ m1 m2 k, h[p.1]? = some m1 ∧ h[p.2]? = some m2 ∧ Dict.get? m1.items k = some (.obj q.1) ∧ Dict.get? m2.items k = some (.obj q.2) ∧
    (HVal.obj q.1 : HVal A).isA h mt = true ∧ (HVal.obj q.2 : HVal A).isA h mt = true

/-- mapping `n` has mapping `c` as its value at key `k` -/
def Held (h : MHeap A) (n : Nat) (k : A) (c : Nat) : Prop := ∃ m, h[n]? = some m ∧ (k, HVal.obj c) ∈ m.items

/-- the mappings held are there -/
def NoDangling (h : MHeap A) : Prop := ∀ n k c, Held h n k c → c < h.length

/-- a mapping is another one or held by it, at any depth -/
def ReachesMap (h : MHeap A) : Nat → Nat → Prop := Relation.ReflTransGen fun a b => ∃ k, Held h a k b

/-- the mappings of either of the pair have, at the same key of the other, a mapping to be merged with -/
def Matched (h : MHeap A) (mt : Tag → Bool) (p : Nat × Nat) : Prop :=
  (∀ k c, Held h p.1 k c → ∃ d, Held h p.2 k d ∧ (HVal.obj c : HVal A).isA h mt = true ∧ (HVal.obj d : HVal A).isA h mt = true) ∧
  (∀ k d, Held h p.2 k d → ∃ c, Held h p.1 k c ∧ (HVal.obj c : HVal A).isA h mt = true ∧ (HVal.obj d : HVal A).isA h mt = true)

mutual
/-- how many pairs of mappings are merged when two trees are, each counted `q` times as often as the pair it is in, or once for
the pair given -/
def mergePairs (q : Nat) (mt : Tag → Bool) : Val A → Val A → Nat
  | .map _ l1, .map _ l2 => 1 + q * mergePairsItems q mt l1 l2
  | .map _ _, .atom _ => 0
  | .atom _, _ => 0
def mergePairsItems (q : Nat) (mt : Tag → Bool) : List (A × Val A) → List (A × Val A) → Nat
  | [], _ => 0
  | (k, v) :: r, l2 =>
    (match Dict.get? l2 k with
      | some w => if v.isA mt && w.isA mt then mergePairs q rmergeDefault v w else 0
      | none => 0) + mergePairsItems q mt r l2
end

/-- a tree of mappings with one key each, one in the other -/
def chainTree (k a : A) : Nat → Val A
  | 0 => .map .dict [(k, .atom a)]
  | n + 1 => .map .dict [(k, chainTree k a n)]

end Verif.Spec
