import Verif.Spec.MetaIndex
import Verif.Spec.Notepad
/-!
# What a notepad with metadata is for

The keys in order, the value of each, and the metadata of some. A removal is reported as failed (KeyError), though made, when
neither the key nor the last key has metadata; removing all keys stops there.
-/
namespace Verif.Spec
open Verif

structure TagPadState (V M : Type) where
  keys : List Str
  note : Str → Option M
  val : Str → Option V

/-- a call on a notepad with `index_type=MetaTagIndex`; keys by their text -/
inductive TagPadCall (V M : Type) where
  | set (k : Str) (v : V) (note : Option M) (existsOk : Bool)
  | get (k : Str)
  | note (k : Str)
  | del (k : Str)
  | keys
  | notes
  | clear

inductive TagPadRes (V M : Type) where
  | done (r : Except PyErr Unit)
  | value (r : Except PyErr V)
  | note (r : Except PyErr Bytes)
  | keys (l : List Str)
  | notes (l : List (Str × Option M))
  | broken

variable {V M : Type}

/-- removal of a key -/
def tagPadDel (st : TagPadState V M) (k : Str) : Except PyErr Unit × TagPadState V M :=
  if k ∈ st.keys then
    (if st.note k = none ∧ (st.keys.getLast?.bind st.note) = none then .error .keyError else .ok (),
      ⟨(ixDel st.keys k).2, st.note, upd st.val k none⟩)
  else (.error .keyError, st)

/-- removal of these keys, up to the first that is reported as failed -/
def tagPadDels (st : TagPadState V M) : List Str → Except PyErr Unit × TagPadState V M
  | [] => (.ok (), st)
  | k :: t => match tagPadDel st k with
    | (.ok _, st') => tagPadDels st' t
    | (.error e, st') => (.error e, st')

/-- answer and new state; `enc` is how metadata are written -/
def tagPadAnswer (enc : M → Bytes) (st : TagPadState V M) : TagPadCall V M → TagPadRes V M × TagPadState V M
  | .set k v n eo => if k ∈ st.keys ∧ eo = false then (.done (.error .keyError), st)
      else (.done (.ok ()), ⟨if k ∈ st.keys then st.keys else st.keys ++ [k],
        fun x => if x = k then (if k ∈ st.keys then n.orElse fun _ => st.note k else n) else st.note x, upd st.val k (some v)⟩)
  | .get k => (.value (match st.val k with | some v => .ok v | none => .error .fileNotFound), st)
  | .note k => (.note (if k ∈ st.keys then
      (match st.note k with | some n => .ok (enc n) | none => .error .fileNotFound) else .error .keyError), st)
  | .del k => (.done (tagPadDel st k).1, (tagPadDel st k).2)
  | .keys => (.keys st.keys, st)
  | .notes => (.notes (st.keys.map fun k => (k, st.note k)), st)
  | .clear => (.done (tagPadDels st st.keys).1, (tagPadDels st st.keys).2)

/-- answers to a sequence of calls, and the state in the end -/
def tagPadPlay (enc : M → Bytes) : List (TagPadCall V M) → TagPadState V M → List (TagPadRes V M) × TagPadState V M
  | [], st => ([], st)
  | o :: t, st => ((tagPadAnswer enc st o).1 :: (tagPadPlay enc t (tagPadAnswer enc st o).2).1,
      (tagPadPlay enc t (tagPadAnswer enc st o).2).2)

end Verif.Spec
