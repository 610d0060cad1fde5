import Verif.Py.Err
import Verif.Py.Str
/-!
# What a notepad is for: a dictionary shared by its clients

A notepad exists or does not. While it exists it maps key texts to values. `noteAnswer` says which answers to a call are
right, `noteNext` what the call does.
-/
namespace Verif.Spec
open Verif

/-- a call on a notepad, by one of its clients; keys by their text -/
inductive NoteCall (V : Type) where
  | create
  | join
  | set (client : Nat) (k : Str) (v : V) (existsOk : Bool)
  | get (client : Nat) (k : Str)
  | del (client : Nat) (k : Str)
  | keys (client : Nat)
  | items (client : Nat)
  | clear (client : Nat)
  | close (client : Nat)

/-- what a call gives its caller -/
inductive NoteRes (V : Type) where
  | done (r : Except PyErr Unit)
  | value (r : Except PyErr V)
  | listing (r : Except PyErr (List Str))
  | items (r : Except PyErr (List (Str × V)))
  | noClient
  | stuck

/-- the dictionary, if the notepad exists, and the number of client objects in use -/
structure NoteState (V : Type) where
  clients : Nat
  map : Option (Str → Option V)

variable {V : Type}

/-- a dictionary with one entry changed -/
def upd (m : Str → Option V) (k : Str) (v : Option V) : Str → Option V := fun x => if x = k then v else m x

/-- the client on whose object a call is made -/
def NoteCall.client? : NoteCall V → Option Nat
  | .create => none
  | .join => none
  | .set c _ _ _ => some c
  | .get c _ => some c
  | .del c _ => some c
  | .keys c => some c
  | .items c => some c
  | .clear c => some c
  | .close c => some c

/-- the call is made on an object that exists -/
def NoteState.has (st : NoteState V) (c : NoteCall V) : Bool :=
  match c.client? with
  | none => true
  | some n => decide (n < st.clients)

/-- what a call does to a notepad holding `m` -/
def mapNext (m : Str → Option V) : NoteCall V → Option (Str → Option V)
  | .set _ k v eo => if eo = false ∧ m k ≠ none then some m else some (upd m k (some v))
  | .del _ k => some (upd m k none)
  | .clear _ => some fun _ => none
  | .close _ => none
  | _ => some m

/-- what a call does; `close` ends the use of all client objects -/
def noteNext (st : NoteState V) (c : NoteCall V) : NoteState V :=
  if st.has c then
    match st.map, c with
    | none, .create => ⟨1, some fun _ => none⟩
    | none, _ => st
    | some m, .join => ⟨st.clients + 1, some m⟩
    | some m, .close n => ⟨0, mapNext m (.close n)⟩
    | some m, c => ⟨st.clients, mapNext m c⟩
  else st

/-- the right answers to a call on a notepad holding `m` -/
def mapAnswer (m : Str → Option V) : NoteCall V → NoteRes V → Prop
  | .create, r => r = .done (.error .fileExists)
  | .join, r => r = .done (.ok ())
  | .set _ k _ eo, r => r = .done (if eo = false ∧ m k ≠ none then .error .keyError else .ok ())
  | .get _ k, r => r = .value (match m k with | some v => .ok v | none => .error .fileNotFound)
  | .del _ k, r => r = .done (if m k = none then .error .keyError else .ok ())
  | .keys _, r => ∃ l, r = .listing (.ok l) ∧ l.Nodup ∧ ∀ k, k ∈ l ↔ m k ≠ none
  | .items _, r => ∃ l, r = .items (.ok l) ∧ (l.map Prod.fst).Nodup ∧ ∀ k v, (k, v) ∈ l ↔ m k = some v
  | .clear _, r => r = .done (.ok ())
  | .close _, r => r = .done (.ok ())

/-- the right answers to a call -/
def noteAnswer (st : NoteState V) (c : NoteCall V) (r : NoteRes V) : Prop :=
  if st.has c then
    match st.map, c with
    | none, .create => r = .done (.ok ())
    | none, .join => r = .done (.error .fileNotFound)
    | none, _ => False
    | some m, c => mapAnswer m c r
  else r = .noClient

/-- the answers `rs` to the calls `cs` are those of a dictionary -/
def answersOK : NoteState V → List (NoteCall V) → List (NoteRes V) → Prop
  | _, [], [] => True
  | st, c :: cs, r :: rs => noteAnswer st c r ∧ answersOK (noteNext st c) cs rs
  | _, _, _ => False

/-- the state a notepad is in after the calls `cs` -/
def noteEnd : NoteState V → List (NoteCall V) → NoteState V
  | st, [] => st
  | st, c :: cs => noteEnd (noteNext st c) cs

end Verif.Spec
