import Verif.Model.PadClients
/-!
# What a notepad without an index is for

Keys have their text, and whether they are strings; `m` is a dictionary by text.
-/
namespace Verif.Spec
open Verif Verif.Model

/-- a call on a notepad with `index_type=FakeIndex` -/
inductive FakeCall (V : Type) where
  | open (create : Bool)
  | set (key : Key) (v : V) (existsOk : Bool)
  | get (key : Key)
  | getD (key : Key) (default : V)
  | del (key : Key)
  | keys
  | clear
  | close

/-- what it gives -/
inductive FakeRes (V : Type) where
  | done (r : Except PyErr Unit)
  | value (r : Except PyErr V)
  | keys (l : Option (List Str))
  | stuck

variable {V : Type}

/-- a string that begins with "index" -/
def startsIndex : Key → Bool
  | .str s => s.take 5 == ['i', 'n', 'd', 'e', 'x']
  | _ => false

/-- the string "index" or "index_lock" -/
def isIndexName : Key → Bool
  | .str s => s == "index".toList || s == "index_lock".toList
  | _ => false

/-- the answer: a dictionary's, but for the keys refused, a missing key (`FileNotFoundError`, default or not), and what needs a
list of the keys -/
def fakeAnswer (m : Str → Option V) : FakeCall V → FakeRes V
  | .open _ => .done (.ok ())
  | .set k _ eo => .done (if startsIndex k = true ∨ (eo = false ∧ (m k.text).isSome = true) then .error .keyError else .ok ())
  | .get k => .value (match m k.text with | some v => .ok v | none => .error .fileNotFound)
  | .getD k _ => .value (match m k.text with | some v => .ok v | none => .error .fileNotFound)
  | .del k => .done (if isIndexName k = true ∨ (m k.text).isSome = false then .error .keyError else .ok ())
  | .keys => .keys none
  | .clear => .done (.error .typeError)
  | .close => .done (.ok ())

/-- the dictionary afterwards; closing leaves everything -/
def fakeNext (m : Str → Option V) : FakeCall V → Str → Option V
  | .set k v eo => if startsIndex k = true ∨ (eo = false ∧ (m k.text).isSome = true) then m
      else fun x => if x = k.text then some v else m x
  | .del k => if isIndexName k = true then m else fun x => if x = k.text then none else m x
  | _ => m

/-- the dictionary after the calls -/
def fakeEnd (m : Str → Option V) : List (FakeCall V) → Str → Option V
  | [] => m
  | c :: cs => fakeEnd (fakeNext m c) cs

/-- the answers to the calls -/
def fakeAnswers (m : Str → Option V) : List (FakeCall V) → List (FakeRes V)
  | [] => []
  | c :: cs => fakeAnswer m c :: fakeAnswers (fakeNext m c) cs

/-! ## A process and its own keys -/

/-- one call; `nil` tells the value `None` -/
def plainStep (nil : V → Bool) (st : Str → Option V) : PadCall V → Except PyErr (PadOut V) × (Str → Option V)
  | .get k => (match st k.text with
      | none => .error .fileNotFound
      | some v => if nil v then .error .keyError else .ok (.val v), st)
  | .set k v eo => if eo = false ∧ (st k.text).isSome = true then (.error .keyError, st)
      else (.ok .done, fun x => if x = k.text then some v else st x)
  | .del k => if (st k.text).isSome = true then (.ok .done, fun x => if x = k.text then none else st x) else (.error .keyError, st)
  | .keys => (.ok (.keys none), st)

/-- calls one after the other, with these outcomes and in the end this dictionary -/
def PlainLegal (nil : V → Bool) : (Str → Option V) → List (PadCall V × Except PyErr (PadOut V)) → (Str → Option V) → Prop
  | st, [], st' => st' = st
  | st, (o, out) :: t, st' => out = (plainStep nil st o).1 ∧ PlainLegal nil (plainStep nil st o).2 t st'

end Verif.Spec
