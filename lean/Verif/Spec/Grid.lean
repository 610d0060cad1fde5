import Verif.Spec.Notepad
/-!
# What a GridPaper is for: a dictionary of arrays, each in a block of fixed size

`size a` is the number of bytes of an array. The block of a key is as large as the first array stored under it.
-/
namespace Verif.Spec
open Verif

/-- a call on a GridPaper, by one of its clients; keys by their text -/
inductive GridCall (A : Type) where
  | create
  | join
  | set (client : Nat) (k : Str) (a : A)
  | get (client : Nat) (k : Str)
  | getD (client : Nat) (k : Str) (default : A)
  | del (client : Nat) (k : Str)
  | keys (client : Nat)
  | close (client : Nat)

/-- what a call gives its caller -/
inductive GridRes (A : Type) where
  | done (r : Except PyErr Unit)
  | value (r : Except PyErr A)
  | listing (r : Except PyErr (List Str))
  | noClient
  | stuck

/-- the arrays and the sizes of their blocks, if the GridPaper exists, and the number of client objects in use -/
structure GridState (A : Type) where
  clients : Nat
  map : Option (Str → Option (A × Nat))

variable {A : Type}

/-- the client on whose object a call is made -/
def GridCall.client? : GridCall A → Option Nat
  | .create => none
  | .join => none
  | .set c _ _ => some c
  | .get c _ => some c
  | .getD c _ _ => some c
  | .del c _ => some c
  | .keys c => some c
  | .close c => some c

/-- the call is made on an object that exists -/
def GridState.has (st : GridState A) (c : GridCall A) : Bool :=
  match c.client? with
  | none => true
  | some n => decide (n < st.clients)

/-- storing an array: it must fit into the block its key already has -/
def gridStore (size : A → Nat) (m : Str → Option (A × Nat)) (k : Str) (a : A) :
    Except PyErr Unit × (Str → Option (A × Nat)) :=
  match m k with
  | none => (.ok (), upd m k (some (a, size a)))
  | some (_, room) => if size a ≤ room then (.ok (), upd m k (some (a, room))) else (.error .typeError, m)

/-- what a call does to a GridPaper holding `m` -/
def gridMapNext (size : A → Nat) (m : Str → Option (A × Nat)) : GridCall A → Option (Str → Option (A × Nat))
  | .set _ k a => some (gridStore size m k a).2
  | .del _ k => some (upd m k none)
  | .close _ => none
  | _ => some m

/-- what a call does; `close` ends the use of all client objects -/
def gridNext (size : A → Nat) (st : GridState A) (c : GridCall A) : GridState A :=
  if st.has c then
    match st.map, c with
    | none, .create => ⟨1, some fun _ => none⟩
    | none, _ => st
    | some m, .join => ⟨st.clients + 1, some m⟩
    | some m, .close n => ⟨0, gridMapNext size m (.close n)⟩
    | some m, c => ⟨st.clients, gridMapNext size m c⟩
  else st

/-- the right answers to a call on a GridPaper holding `m` -/
def gridMapAnswer (size : A → Nat) (m : Str → Option (A × Nat)) : GridCall A → GridRes A → Prop
  | .create, r => r = .done (.error .fileExists)
  | .join, r => r = .done (.ok ())
  | .set _ k a, r => r = .done (gridStore size m k a).1
  | .get _ k, r => r = .value (match m k with | some (a, _) => .ok a | none => .error .keyError)
  | .getD _ k d, r => r = .value (match m k with | some (a, _) => .ok a | none => .ok d)
  | .del _ k, r => r = .done (if m k = none then .error .keyError else .ok ())
  | .keys _, r => ∃ l, r = .listing (.ok l) ∧ l.Nodup ∧ ∀ k, k ∈ l ↔ m k ≠ none
  | .close _, r => r = .done (.ok ())

/-- the right answers to a call -/
def gridAnswer (size : A → Nat) (st : GridState A) (c : GridCall A) (r : GridRes A) : Prop :=
  if st.has c then
    match st.map, c with
    | none, .create => r = .done (.ok ())
    | none, .join => r = .done (.error .fileNotFound)
    | none, _ => False
    | some m, c => gridMapAnswer size m c r
  else r = .noClient

/-- the answers `rs` to the calls `cs` are those of a dictionary of arrays -/
def gridAnswersOK (size : A → Nat) : GridState A → List (GridCall A) → List (GridRes A) → Prop
  | _, [], [] => True
  | st, c :: cs, r :: rs => gridAnswer size st c r ∧ gridAnswersOK size (gridNext size st c) cs rs
  | _, _, _ => False

/-- the state a GridPaper is in after the calls `cs` -/
def gridEnd (size : A → Nat) : GridState A → List (GridCall A) → GridState A
  | st, [] => st
  | st, c :: cs => gridEnd size (gridNext size st c) cs

end Verif.Spec
