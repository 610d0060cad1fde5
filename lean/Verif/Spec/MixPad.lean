import Verif.Spec.Index
import Verif.Spec.Notepad
/-!
# A notepad used both with and without an index

What the index lists and what there are values for are two things: clients without an index change only the values. Keys by their
text.
-/
namespace Verif.Spec
open Verif

structure MixState (V : Type) where
  listed : List Str
  val : Str → Option V

/-- a call; `ix` tells whether the client has an index -/
inductive MixCall (V : Type) where
  | set (ix : Bool) (k : Str) (v : V) (existsOk : Bool)
  | get (k : Str)
  | del (ix : Bool) (k : Str)
  | keys
  | items
  | clear

inductive MixRes (V : Type) where
  | done (r : Except PyErr Unit)
  | value (r : Except PyErr V)
  | keys (l : List Str)
  | items (r : Except PyErr (List (Str × V)))
  | broken

variable {V : Type}

/-- reading a key -/
def mixGet (st : MixState V) (k : Str) : Except PyErr V :=
  match st.val k with
  | some v => .ok v
  | none => .error .fileNotFound

/-- reading keys one after the other, up to the first that has no value -/
def mixItems (st : MixState V) : List Str → Except PyErr (List (Str × V))
  | [] => .ok []
  | k :: t => match mixGet st k, mixItems st t with
    | .error e, _ => .error e
    | .ok _, .error e => .error e
    | .ok v, .ok r => .ok ((k, v) :: r)

/-- `set`: a client with an index lists the key first, even if the value is then refused -/
def mixSet (st : MixState V) (ix : Bool) (k : Str) (v : V) (existsOk : Bool) : Except PyErr Unit × MixState V :=
  if existsOk = false ∧ ix = true ∧ k ∈ st.listed then (.error .keyError, st)
  else
    let l := if ix = true ∧ k ∉ st.listed then st.listed ++ [k] else st.listed
    if existsOk = false ∧ (st.val k).isSome = true then (.error .keyError, ⟨l, st.val⟩)
    else (.ok (), ⟨l, upd st.val k (some v)⟩)

/-- `del`: the value first, so that a key with no value stays listed, and one not listed loses its value and yet gives an error -/
def mixDel (st : MixState V) (ix : Bool) (k : Str) : Except PyErr Unit × MixState V :=
  if st.val k = none then (.error .keyError, st)
  else if ix = true then (if k ∈ st.listed then .ok () else .error .keyError, ⟨(ixDel st.listed k).2, upd st.val k none⟩)
  else (.ok (), ⟨st.listed, upd st.val k none⟩)

/-- removal of these keys by a client with an index, up to the first that fails -/
def mixDels (st : MixState V) : List Str → Except PyErr Unit × MixState V
  | [] => (.ok (), st)
  | k :: t => match mixDel st true k with
    | (.ok _, st') => mixDels st' t
    | (.error e, st') => (.error e, st')

/-- answer and new state -/
def mixAnswer (st : MixState V) : MixCall V → MixRes V × MixState V
  | .set ix k v eo => (.done (mixSet st ix k v eo).1, (mixSet st ix k v eo).2)
  | .get k => (.value (mixGet st k), st)
  | .del ix k => (.done (mixDel st ix k).1, (mixDel st ix k).2)
  | .keys => (.keys st.listed, st)
  | .items => (.items (mixItems st st.listed), st)
  | .clear => (.done (mixDels st st.listed).1, (mixDels st st.listed).2)

/-- answers to a sequence of calls, and the state in the end -/
def mixPlay : List (MixCall V) → MixState V → List (MixRes V) × MixState V
  | [], st => ([], st)
  | o :: t, st => ((mixAnswer st o).1 :: (mixPlay t (mixAnswer st o).2).1, (mixPlay t (mixAnswer st o).2).2)

/-- the same call by a client with an index -/
def MixCall.indexed : MixCall V → MixCall V
  | .set _ k v eo => .set true k v eo
  | .del _ k => .del true k
  | o => o

/-- a client without an index removes nothing, and sets only what is listed -/
def mixCareful : List (MixCall V) → MixState V → Prop
  | [], _ => True
  | o :: t, st => (match o with
      | .set ix k _ _ => ix = true ∨ k ∈ st.listed
      | .del ix _ => ix = true
      | _ => True) ∧ mixCareful t (mixAnswer st o).2

end Verif.Spec
