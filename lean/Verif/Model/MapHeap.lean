import Verif.Model.Nested
/-!
# structures.py: mappings as objects

`Model/Nested.lean` has nested mappings as finite trees. Here a mapping is an object at an address, a value of a mapping is
plain or the address of a mapping, and so mappings may be shared and may hold themselves. Modelled are the functions that
write to the mappings they are given or return objects of theirs: `dig_and_edit` (structures.py:268-279),
`NestingDict.todict` (80-88) and `rmerge` (295-312). `fuel` bounds the depth of the recursion; `none` is the
`RecursionError`.
-/
namespace Verif.Model
open Verif

/-- a value in a mapping -/
inductive HVal (A : Type) where
  | atom (a : A)
  | obj (n : Nat)
  deriving DecidableEq, Repr

/-- a mapping: its class and its items in order -/
structure HMap (A : Type) where
  tag : Tag
  items : List (A × HVal A)
  deriving DecidableEq, Repr

/-- the mappings there are; the address is the position -/
abbrev MHeap (A : Type) := List (HMap A)

variable {A : Type} [DecidableEq A]

/-- `isinstance(v, mtypes)` -/
def HVal.isA (h : MHeap A) (mt : Tag → Bool) : HVal A → Bool
  | .atom _ => false
  | .obj n => match h[n]? with
    | some m => mt m.tag
    | none => false

/-- `mapping[k] = v` -/
def setH (h : MHeap A) (n : Nat) (k : A) (v : HVal A) : MHeap A :=
  h.modify n fun m => { m with items := Dict.set m.items k v }

/-- structures.py:275-276, the loop over `matches`. A setter may make new objects (or change old ones): it gives a value and
the heap after it. -/
def setMatches (setter : MHeap A → A → HVal A → HVal A × MHeap A) (n : Nat) : MHeap A → List (A × HVal A) → MHeap A
  | h, [] => h
  | h, (k, v) :: ms =>
    let (w, h) := setter h k v
    setMatches setter n (setH h n k w) ms

/-- structures.py:277-278, the loop over the nests -/
def editNests (rec : MHeap A → Nat → Option (MHeap A)) : MHeap A → List Nat → Option (MHeap A)
  | h, [] => some h
  | h, n :: ns => do
    let h ← rec h n
    editNests rec h ns

/-- the mappings of class `mtypes` among some values, structures.py:277 -/
def nestsOf (h : MHeap A) (mt : Tag → Bool) (items : List (A × HVal A)) : List Nat :=
  items.filterMap fun kv => match kv.2 with
    | .atom _ => none
    | .obj n => if HVal.isA h mt (.obj n) then some n else none

/-- structures.py:268-279 `dig_and_edit(mapping, filter_func, setter_func, mtypes)`, as the heap after the call; what is
returned is `mapping` itself. `matches` is a tuple, and the list of nests is complete before the first of them is
edited. -/
def digEditH (filter : MHeap A → A → HVal A → Bool) (setter : MHeap A → A → HVal A → HVal A × MHeap A)
    (mt : Tag → Bool) : Nat → MHeap A → Nat → Option (MHeap A)
  | 0, _, _ => none
  | fuel + 1, h, n =>
    match h[n]? with
    | none => none
    | some m =>
      let h := setMatches setter n h (m.items.filter fun kv => filter h kv.1 kv.2)
      match h[n]? with
      | none => none
      | some m => editNests (digEditH filter setter mt fuel) h (nestsOf h mt m.items)

/-- `dict(v)` for a mapping: a new dict with the items of the old one -/
def dictOf (h : MHeap A) (n : Nat) : Nat × MHeap A :=
  match h[n]? with
  | some m => (h.length, h ++ [⟨.dict, m.items⟩])
  | none => (n, h)

/-- `lambda _, v: is_it(NestingDict)(v)`, structures.py:86 -/
def isNestingH (h : MHeap A) (_ : A) (v : HVal A) : Bool := v.isA h (· == .nesting)

/-- `lambda _, v: dict(v)`, structures.py:86 -/
def toPlainH (h : MHeap A) (_ : A) : HVal A → HVal A × MHeap A
  | .atom a => (.atom a, h)
  | .obj n => let (r, h) := dictOf h n; (.obj r, h)

/-- structures.py:80-88 `NestingDict.todict`: the address of the result and the heap after it -/
def todictH (fuel : Nat) (h : MHeap A) (n : Nat) : Option (Nat × MHeap A) := do
  let h ← digEditH isNestingH toPlainH Tag.isDict fuel h n
  some (dictOf h n)

/-- structures.py:305-311, what one pair of `chain(map1.items(), map2.items())` sets in `output`. `rec` is the recursive call
of line 309, giving the address of its output. -/
def rmergeStep (rec : MHeap A → Nat → Nat → Option (Nat × MHeap A)) (mt : Tag → Bool) (items1 items2 : List (A × HVal A))
    (out : Nat) (h : MHeap A) (kv : A × HVal A) : Option (MHeap A) :=
  match Dict.get? items1 kv.1, Dict.get? items2 kv.1 with
  | some v1, some v2 =>
    if v1.isA h mt && v2.isA h mt then
      match v1, v2 with
      | .obj a, .obj b => do
        let (o, h) ← rec h a b
        some (setH h out kv.1 (.obj o))
      | _, _ => some (setH h out kv.1 v2)
    else some (setH h out kv.1 v2)
  | _, _ => some (setH h out kv.1 kv.2)

/-- structures.py:295-312 `rmerge(map1, map2, mtypes)`: the address of `output` and the heap after it. The recursive call of
line 309 has the default `mtypes`. A key of both mappings comes up twice, and the second time does all of it again. -/
def rmergeH : Nat → (Tag → Bool) → MHeap A → Nat → Nat → Option (Nat × MHeap A)
  | 0, _, _, _, _ => none
  | fuel + 1, mt, h, a, b =>
    match h[a]?, h[b]? with
    | some m1, some m2 => do
      let h' ← (m1.items ++ m2.items).foldlM
        (rmergeStep (rmergeH fuel rmergeDefault) mt m1.items m2.items h.length) (h ++ [⟨.dict, []⟩])
      some (h.length, h')
    | _, _ => none

end Verif.Model
