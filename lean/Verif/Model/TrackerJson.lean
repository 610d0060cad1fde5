import Verif.Model.Json
import Verif.Model.Tracker
/-!
# The log file of a Tracker, as JSON

`Verif/Model/Tracker.lean` with the `json.dumps` of `Verif/Model/Json.lean`.
-/
namespace Verif.Model
open Verif
variable {F : Type}

/-- the numbers and strings `track` puts into a record -/
instance : Jval (PyVal F) := ⟨fun n => .int (n : Nat), fun s => .str (codes s)⟩

/-- a record of the history as a value -/
def recVal (r : LogRec (PyVal F)) : PyVal F := .dict (r.map fun p => (.str (codes p.1), p.2))

/-- tracker.py:33-37, 82-84: `self.log`; sorting puts `history` last -/
def docVal (d : LogDoc (PyVal F)) : PyVal F :=
  .dict [(.str (codes "name".toList), d.name), (.str (codes "init_timestamp".toList), d.initStamp),
    (.str (codes "write_timestamp".toList), d.writeStamp), (.str (codes "history".toList), .list (d.history.map recVal))]

/-- tracker.py:92 `json.dumps(self.log, indent=2).encode('utf-8')` -/
def jsonLog (FT : Floats F) (lim : Nat) : Dumps (PyVal F) := fun d =>
  (dumps FT lim (indented 2) 0 (docVal d)).map fun t => t.map Nat.toUInt8

/-- what a user does with the file: `json.loads` of its bytes -/
def readLog (FT : Floats F) (lim : Nat) (file : List UInt8) : Except PyErr (PyVal F) :=
  (jsonCodec FT lim).decode (file.map UInt8.toNat)

/-- Trackers used one after the other on the same file: name, time of creation, operations -/
abbrev Session (J : Type) := J × J × List (TrkOp J)

/-- the file after them (tracker.py:43: the file is found by name; it is not touched until a dump or clear) -/
def sessionsFile {J : Type} [Jval J] (dumps : Dumps J) : List (Session J) → Option (List UInt8) → Option (List UInt8)
  | [], f => f
  | s :: r, f => sessionsFile dumps r (trkRun dumps { name := s.1, initStamp := s.2.1, file := f } s.2.2).file

end Verif.Model
