import Verif.Py.Dict
import Verif.Py.Err
import Verif.Py.Str
/-!
# tracker.py: Tracker

`J` are the values of records; `Jval` says which of them are the numbers and strings that `track` puts in. `json.dumps` is
abstract and may raise (a value that is not serialisable). Time stamps are given to the operations. Not modelled: how the
target's name and the caller are found (51-56: they are given to the operation), metadata called `self` or `func` (which
Python refuses, 50, 69), other writers of the log file, failing
file operations other than `seek` in an empty file.
-/
namespace Verif.Model
open Verif

/-- the numbers and strings among the values -/
class Jval (J : Type) where
  ofNat : Nat → J
  ofStr : Str → J

/-- a record of the history -/
abbrev LogRec (J : Type) := Dict Str J

/-- what a dump writes: `self.log` -/
structure LogDoc (J : Type) where
  name : J
  initStamp : J
  writeStamp : J
  history : List (LogRec J)

/-- `json.dumps(log, indent=2).encode('utf-8')` -/
abbrev Dumps (J : Type) := LogDoc J → Except PyErr (List UInt8)

/-- a Tracker and its log file -/
structure Trk (J : Type) where
  name : J
  initStamp : J
  history : List (LogRec J) := []
  metadata : LogRec J := []
  counter : Nat := 1
  paused : Bool := false
  file : Option (List UInt8) := none

/-- keys of a record (59-62) -/
def kTarget : Str := "target".toList
def kCaller : Str := "caller".toList
def kLineno : Str := "lineno".toList
def kTrackcount : Str := "trackcount".toList

variable {J : Type} [Jval J]

/-- tracker.py:58-63, before the metadata -/
def baseRec (target caller : Str) (lineno count : Nat) : LogRec J :=
  [(kTarget, Jval.ofStr target), (kCaller, Jval.ofStr caller), (kLineno, Jval.ofNat lineno), (kTrackcount, Jval.ofNat count)]

/-- tracker.py:50-67 `track` -/
def track (t : Trk J) (target caller : Str) (lineno : Nat) (metadata : LogRec J) : Trk J :=
  { t with
    history := t.history ++ [((baseRec target caller lineno t.counter).update t.metadata).update metadata]
    counter := t.counter + 1 }

/-- tracker.py:69-70 `set_metadata` -/
def setMetadata (t : Trk J) (metadata : LogRec J) : Trk J := { t with metadata := t.metadata.update metadata }

/-- tracker.py:45-48 `clear` -/
def clear (t : Trk J) : Trk J := { t with file := none, history := [], counter := 1 }

/-- the log at a time (33-37, 82-84) -/
def logDoc (t : Trk J) (stamp : J) : LogDoc J := ⟨t.name, t.initStamp, stamp, t.history⟩

/-- what has been written before the document (85-91) -/
def writeHead : Option (List UInt8) → Except PyErr (List UInt8)
  | none => .ok [91]                                          -- "["
  | some [] => .error .osError                                -- seek(-1, SEEK_END) in an empty file
  | some (b :: l) => .ok ((b :: l).dropLast ++ [44, 10])      -- over the last byte: ",\n"

/-- tracker.py:79-93 `dump`: if `json.dumps` raises, what has been written stays -/
def dump (dumps : Dumps J) (t : Trk J) (stamp : J) : Except PyErr Unit × Trk J :=
  if t.paused then (.ok (), t)                                -- 80-81
  else match writeHead t.file with
    | .error e => (.error e, t)
    | .ok head => match dumps (logDoc t stamp) with           -- 92
      | .error e => (.error e, { t with file := some head })
      | .ok doc => (.ok (), { t with file := some (head ++ doc ++ [93]) })   -- 93

/-- what can be done to a Tracker -/
inductive TrkOp (J : Type) where
  | track (target caller : Str) (lineno : Nat) (metadata : LogRec J)
  | setMetadata (metadata : LogRec J)
  | pause (state : Bool)
  | dump (stamp : J)
  | clear

/-- an operation; what `dump` raises is put aside -/
def trkOp (dumps : Dumps J) (t : Trk J) : TrkOp J → Trk J
  | .track a b n m => track t a b n m
  | .setMetadata m => setMetadata t m
  | .pause s => { t with paused := s }
  | .dump st => (dump dumps t st).2
  | .clear => clear t

/-- a history of operations -/
def trkRun (dumps : Dumps J) (t : Trk J) (ops : List (TrkOp J)) : Trk J := ops.foldl (trkOp dumps) t

end Verif.Model
