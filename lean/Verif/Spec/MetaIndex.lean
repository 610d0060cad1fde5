import Verif.Spec.Index
/-!
# What a MetaTagIndex is for: an ordered list of distinct keys, some with metadata

`enc` is how metadata are written. Removing a key moves the last key into its place. A removal is reported as failed
(FileNotFoundError), though made, when neither the key nor the last key has metadata.
-/
namespace Verif.Spec
open Verif

/-- the keys in order, and the metadata of those that have any -/
structure MetaState (M : Type) where
  keys : List Str
  val : Str → Option M

/-- a call; keys by their text -/
inductive MetaCall (M : Type) where
  | add (k : Str) (v : Option M) (existsOk : Bool)
  | get (k : Str)
  | del (k : Str)
  | items
  | keys
  | values

/-- what a call gives its caller -/
inductive MetaAnswer (M : Type) where
  | position (r : Except PyErr Nat)
  | raw (r : Except PyErr Bytes)
  | items (l : List (Str × Option M))
  | keys (l : List Str)
  | values (l : List (Option M))
  | broken

/-- the metadata after `add` -/
def metaPut {M : Type} (st : MetaState M) (k : Str) (v : Option M) (existsOk : Bool) : Str → Option M :=
  fun x => if x = k then
      (if k ∈ st.keys then (if existsOk then v.orElse fun _ => st.val k else st.val k) else v)
    else st.val x

/-- the metadata of a key, as written -/
def metaFind {M : Type} (enc : M → Bytes) (st : MetaState M) (k : Str) : Except PyErr Bytes :=
  if k ∈ st.keys then
    match st.val k with
    | some v => .ok (enc v)
    | none => .error .fileNotFound
  else .error .keyError

/-- answer and new state -/
def metaAnswer {M : Type} (enc : M → Bytes) (st : MetaState M) : MetaCall M → MetaAnswer M × MetaState M
  | .add k v eo => (.position (ixAdd st.keys k eo).1, ⟨(ixAdd st.keys k eo).2, metaPut st k v eo⟩)
  | .get k => (.raw (metaFind enc st k), st)
  | .del k => (.position (match position k st.keys with
      | none => .error .keyError
      | some i => if st.val k = none ∧ (st.keys.getLast?.bind st.val) = none then .error .fileNotFound else .ok i),
      ⟨(ixDel st.keys k).2, st.val⟩)
  | .items => (.items (st.keys.map fun k => (k, st.val k)), st)
  | .keys => (.keys st.keys, st)
  | .values => (.values (st.keys.map st.val), st)

/-- answers to a sequence of calls -/
def metaPlay {M : Type} (enc : M → Bytes) : List (MetaCall M) → MetaState M → List (MetaAnswer M) × MetaState M
  | [], st => ([], st)
  | o :: t, st => ((metaAnswer enc st o).1 :: (metaPlay enc t (metaAnswer enc st o).2).1, (metaPlay enc t (metaAnswer enc st o).2).2)

end Verif.Spec
