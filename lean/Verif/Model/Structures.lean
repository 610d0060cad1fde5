import Verif.Py.Err
import Verif.Py.Dict
import Verif.Py.Tactics
/-!
# Model of `/repo/dustgoggles/structures.py`: flat helpers

`listify` (91-96), `reindex_mapping` (99-103), `enumerate_as_mapping` (106-111), `insert_after` (114-122),
`getitemattr`/`get_from` (136-159), `separate_by` (284-292), `HashDict` (315-336).
-/
namespace Verif.Model
open Verif

/-! ## `listify` -/

/-- What `listify` distinguishes about an object: a `str` (a `Collection` of characters), any other `Collection` with
its elements in iteration order (`isList` tells whether it already is a list), or anything else. -/
inductive Thing where
  | scalar (n : Int)
  | str (s : List Char)
  | coll (isList : Bool) (elems : List Thing)
  deriving Repr

/-- structures.py:91-96; the result is always a list, given by its elements -/
def listify : Thing → List Thing
  | .coll _ elems => elems
  | .str s => [.str s]
  | .scalar n => [.scalar n]

/-! ## numbering -/

/-- structures.py:99-103, given that the assertion holds: keys 0, 1, … for the values in order -/
def reindexMapping {κ α : Type} (m : Dict κ α) : Dict Nat α :=
  (List.range m.length).zip m.values |>.foldl (fun d kv => d.set kv.1 kv.2) []

/-- the argument of `enumerate_as_mapping`: `None`, a mapping, or another iterable -/
inductive SeqOrMap (κ α : Type) where
  | none
  | mapping (m : Dict κ α)
  | iterable (l : List α)

/-- structures.py:106-111. The result of the iterable case has integer keys: `ofNat` embeds them in the key type. -/
def enumerateAsMapping {κ α : Type} [DecidableEq κ] (ofNat : Nat → κ) : SeqOrMap κ α → Dict κ α
  | .none => []
  | .mapping m => m
  | .iterable l => (l.zipIdx.map fun x => (ofNat x.2, x.1)).foldl (fun d kv => d.set kv.1 kv.2) []

/-! ## `insert_after` -/

/-- structures.py:114-122 -/
def insertAfter {κ α : Type} [DecidableEq κ] (newKey : κ) (newVal : α) (prior : κ) (m : Dict κ α) : Dict κ α :=
  m.foldl (fun d kv =>
    let d := d.set kv.1 kv.2                                   -- 119
    if kv.1 = prior then d.set newKey newVal else d) []        -- 120-121

/-! ## `get_from` -/

/-- structures.py:136-144 `getitemattr`, over arbitrary `getitem` and `getattr` -/
def getitemattr {O K : Type} (getitem getattr : O → K → Except PyErr O) (o : O) (k : K) : Except PyErr O :=
  match getitem o k with
  | .ok v => .ok v
  | .error .keyError => getattr o k
  | .error .indexError => getattr o k
  | .error .typeError => getattr o k
  | .error e => .error e

/-- structures.py:147-159 `get_from` -/
def getFrom {O K : Type} (getitem getattr : O → K → Except PyErr O) (default : O) : O → List K → Except PyErr O
  | level, [] => .ok level
  | level, k :: ks => match getitemattr getitem getattr level k with
    | .ok level' => getFrom getitem getattr default level' ks
    | .error .attributeError => .ok default                    -- 157-158
    | .error e => .error e

/-! ## `separate_by` -/

/-- what a predicate may return: the objects `True` and `False`, or some other truthy or falsy object -/
inductive PredResult where
  | true_ | false_ | truthy | falsy
  deriving DecidableEq, Repr

/-- structures.py:285-292: the loop with its two accumulators -/
def separateByLoop {α : Type} (ref : α → Except PyErr PredResult) :
    List α → List α → List α → Except PyErr (List α × List α)
  | [], hits, misses => .ok (hits, misses)
  | x :: xs, hits, misses => do
    let r ← ref x
    if r = .true_ then separateByLoop ref xs (hits ++ [x]) misses      -- 288-289, `is True`
    else separateByLoop ref xs hits (misses ++ [x])                    -- 290-291

/-- structures.py:284-292 -/
def separateBy {α : Type} (xs : List α) (ref : α → Except PyErr PredResult) := separateByLoop ref xs [] []

/-! ## `HashDict` -/

/-- structures.py:315-319; `dict_` maps keys to hashes, `reverse` hashes to items -/
structure HashDict (K H V : Type) where
  dict_ : Dict K H
  reverse : Dict H V

variable {K H V : Type} [DecidableEq K] [DecidableEq H]

/-- structures.py:316-319 -/
def HashDict.empty : HashDict K H V := ⟨[], []⟩

/-- structures.py:321-325 `__setitem__`; `hasher` does not raise -/
def HashDict.setItem (hasher : V → H) (d : HashDict K H V) (key : K) (item : V) : HashDict K H V :=
  let itemhash := hasher item
  { dict_ := d.dict_.set key itemhash
    reverse := if itemhash ∈ d.reverse.keys then d.reverse else d.reverse.set itemhash item }

/-- structures.py:327-328 `__getitem__` -/
def HashDict.getItem (d : HashDict K H V) (key : K) : Except PyErr V :=
  match d.dict_.get? key with
  | none => .error .keyError
  | some h => match d.reverse.get? h with
    | none => .error .keyError
    | some v => .ok v

/-- structures.py:330-334: the two numbers shown by `__str__` -/
def HashDict.counts (d : HashDict K H V) : Nat × Nat := (d.dict_.length, d.reverse.length)

end Verif.Model
