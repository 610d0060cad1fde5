import Verif.Py.Err
import Verif.Py.Val
/-!
# Specification vocabulary for nested mappings

Independent of the model: positions of items in a nested mapping, given by the index of the item at each level.
-/
namespace Verif.Spec
open Verif
variable {A : Type}

/-- The item of nested mapping `v` at position `pos`: `[i]` is the `i`-th item of `v`; `i :: rest` with `rest`
non-empty is the item at `rest` inside the value of the `i`-th item, provided that value is a mapping of a class
accepted by `mt`. -/
def itemAt (mt : Tag → Bool) : List Nat → Val A → Option (A × Val A)
  | [i], .map _ l => l[i]?
  | i :: j :: is, .map _ l => match l[i]? with
    | some (_, v) => if v.isA mt then itemAt mt (j :: is) v else none
    | none => none
  | _, _ => none

/-- The search order "a level before its sublevels, sublevels in order": position `p` comes before position `q`. -/
def Before : List Nat → List Nat → Prop
  | [i], [j] => i < j
  | [_], _ :: _ :: _ => True
  | i :: i' :: is, j :: j' :: js => i < j ∨ (i = j ∧ Before (i' :: is) (j' :: js))
  | _, _ => False

/-- `pos` is the position of a pair satisfying `p` -/
def MatchAt (mt : Tag → Bool) (p : A → Val A → Bool) (v : Val A) (pos : List Nat) : Prop :=
  ∃ kv, itemAt mt pos v = some kv ∧ p kv.1 kv.2 = true

/-! ### records -/

/-- all values of a list of items are mappings -/
def allMaps (l : List (A × Val A)) : Bool := l.all fun kv => kv.2.isMapping

/-- The leaf mapping of an item list at position `pos`, with the keys followed: a leaf is a mapping with at least one
value that is not a mapping; a mapping all of whose values are mappings is descended into. -/
def leafAt : List Nat → List (A × Val A) → Option (List A × List (A × Val A))
  | [], _ => none
  | i :: is, l => match l[i]? with
    | some (k, .map _ sub) =>
      if allMaps sub then (leafAt is sub).map fun x => (k :: x.1, x.2)
      else if is = [] then some ([k], sub) else none
    | _ => none

/-- document order of leaf positions (lexicographic) -/
def DocBefore : List Nat → List Nat → Prop
  | i :: is, j :: js => i < j ∨ (i = j ∧ DocBefore is js)
  | _, _ => False

/-- the key followed at the last level (numbered from `lvl`) that is named `f`, if any -/
def levelKey [DecidableEq A] (names : Nat → Option A) (lvl : Nat) : List A → A → Option A
  | [], _ => none
  | k :: ks, f => match levelKey names (lvl + 1) ks f with
    | some x => some x
    | none => if names lvl = some f then some k else none

mutual
/-- how many level names a nested mapping needs: one more than the deepest chain of mappings-of-mappings below it -/
def levelsNeeded : Val A → Nat
  | .atom _ => 0
  | .map _ l => 1 + levelsNeededItems l
def levelsNeededItems : List (A × Val A) → Nat
  | [] => 0
  | (_, v) :: r => max (if v.isMapping && allMaps v.items then levelsNeeded v else 0) (levelsNeededItems r)
end

/-! ### flattening -/

/-- the value found by following the keys of a path through mappings accepted by `mt`, if it is not itself such a
mapping -/
def valueAt [DecidableEq A] (mt : Tag → Bool) : List A → Val A → Option (Val A)
  | [k], .map _ l => match Dict.get? l k with
    | some w => if w.isA mt then none else some w
    | none => none
  | k :: k' :: ks, .map _ l => match Dict.get? l k with
    | some w => if w.isA mt then valueAt mt (k' :: ks) w else none
    | none => none
  | _, _ => none

/-- `k` is a key somewhere in `v` -/
def HasKey (k : A) (v : Val A) : Prop := ∃ pos kv, itemAt (fun _ => true) pos v = some kv ∧ kv.1 = k

/-- the flat key documented for a path: every enclosing level between escape characters, joined by underscores -/
def flatKey (str : A → List Char) (c : Char) : List A → List Char
  | [] => []
  | [k] => str k
  | k :: k' :: ks => c :: (str k ++ c :: '_' :: flatKey str c (k' :: ks))

/-! ### paths and edits -/

/-- following keys by plain lookup, without creating anything -/
def lookupPath [DecidableEq A] : List A → Val A → Option (Val A)
  | [], v => some v
  | k :: ks, .map _ l => match Dict.get? l k with
    | some w => lookupPath ks w
    | none => none
  | _ :: _, .atom _ => none

mutual
/-- `Edited f s mt v r`: `r` is `v` after every matching pair of each level had its value replaced by the setter's
result, once, editing then continuing inside the resulting values that are mappings accepted by `mt` -/
inductive Edited (filter : A → Val A → Bool) (setter : A → Val A → Val A) (mt : Tag → Bool) : Val A → Val A → Prop
  | atom (a) : Edited filter setter mt (.atom a) (.atom a)
  | map {t l r} : EditedItems filter setter mt l r → Edited filter setter mt (.map t l) (.map t r)
inductive EditedItems (filter : A → Val A → Bool) (setter : A → Val A → Val A) (mt : Tag → Bool) :
    List (A × Val A) → List (A × Val A) → Prop
  | nil : EditedItems filter setter mt [] []
  | keep {k v l w r} : filter k v = false → v.isA mt = false → w = v → EditedItems filter setter mt l r →
      EditedItems filter setter mt ((k, v) :: l) ((k, w) :: r)
  | keepIn {k v l w r} : filter k v = false → v.isA mt = true → Edited filter setter mt v w →
      EditedItems filter setter mt l r → EditedItems filter setter mt ((k, v) :: l) ((k, w) :: r)
  | set {k v l w r} : filter k v = true → (setter k v).isA mt = false → w = setter k v →
      EditedItems filter setter mt l r → EditedItems filter setter mt ((k, v) :: l) ((k, w) :: r)
  | setIn {k v l w r} : filter k v = true → (setter k v).isA mt = true → Edited filter setter mt (setter k v) w →
      EditedItems filter setter mt l r → EditedItems filter setter mt ((k, v) :: l) ((k, w) :: r)
end

mutual
/-- `v` with every `NestingDict` reachable through dicts replaced by a plain dict -/
def plainTree : Val A → Val A
  | .atom a => .atom a
  | .map t l => if t.isDict then .map (if t = .nesting then .dict else t) (plainItems l) else .map t l
def plainItems : List (A × Val A) → List (A × Val A)
  | [] => []
  | (k, v) :: r => (k, plainTree v) :: plainItems r
end

end Verif.Spec
