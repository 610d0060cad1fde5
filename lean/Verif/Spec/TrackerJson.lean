import Verif.Spec.Tracker
import Verif.Model.TrackerJson
import Verif.Spec.Json
/-!
# The documents a Tracker dumps

Lists of operations have the most recent one first.
-/
namespace Verif.Spec
open Verif Verif.Model
variable {J : Type} [Jval J]

/-- the metadata set -/
def metaAfter : List (TrkOp J) → LogRec J
  | [] => []
  | .setMetadata m :: r => (metaAfter r).update m
  | _ :: r => metaAfter r

/-- the records since the last `clear` -/
def recordsAfter : List (TrkOp J) → List (LogRec J)
  | [] => []
  | .clear :: _ => []
  | .track target caller lineno m :: r =>
    recordsAfter r ++ [(Dict.update [("target".toList, Jval.ofStr target), ("caller".toList, Jval.ofStr caller),
      ("lineno".toList, Jval.ofNat lineno), ("trackcount".toList, Jval.ofNat (tracked r + 1))] (metaAfter r)).update m]
  | _ :: r => recordsAfter r

/-- whether it is paused -/
def pausedAfter : List (TrkOp J) → Bool
  | [] => false
  | .pause b :: _ => b
  | _ :: r => pausedAfter r

/-- the documents dumped since the last `clear` -/
def dumpedDocs (name init : J) : List (TrkOp J) → List (LogDoc J)
  | [] => []
  | .clear :: _ => []
  | .dump st :: r => if pausedAfter r then dumpedDocs name init r else dumpedDocs name init r ++ [⟨name, init, st, recordsAfter r⟩]
  | _ :: r => dumpedDocs name init r

/-- whether there was a `clear` -/
def cleared : List (TrkOp J) → Bool
  | [] => false
  | .clear :: _ => true
  | _ :: r => cleared r

/-- the documents that Trackers used one after the other leave in the file, after `docs` -/
def sessionDocs : List (Session J) → List (LogDoc J) → List (LogDoc J)
  | [], docs => docs
  | s :: r, docs =>
    sessionDocs r ((if cleared s.2.2.reverse then [] else docs) ++ dumpedDocs s.1 s.2.1 s.2.2.reverse)

variable {F : Type}

/-- what a document should be as a Python value: a dict of the name, the two times and the list of records, each a dict -/
def logValue (d : LogDoc (PyVal F)) : PyVal F :=
  let text (s : String) : PyVal F := .str (codes s.toList)
  .dict [(text "name", d.name), (text "init_timestamp", d.initStamp), (text "write_timestamp", d.writeStamp),
    (text "history", .list (d.history.map fun r => .dict (r.map fun p => (.str (codes p.1), p.2))))]

/-- keyword arguments: distinct names, values with a property -/
def RecOf (P : PyVal F → Prop) (r : LogRec (PyVal F)) : Prop := Dict.WF r ∧ ∀ p ∈ r, P p.2

/-- operations with values that have a property -/
def OpOf (P : PyVal F → Prop) : TrkOp (PyVal F) → Prop
  | .track _ _ lineno m => P (.int (lineno : Nat)) ∧ RecOf P m
  | .setMetadata m => RecOf P m
  | .pause _ => True
  | .dump st => P st
  | .clear => True

/-- a use of a Tracker with values that have a property -/
def SessionOf (P : PyVal F → Prop) (s : Session (PyVal F)) : Prop :=
  P s.1 ∧ P s.2.1 ∧ ∀ op ∈ s.2.2, OpOf P op

/-- a Python value that JSON can write -/
def Writable (lim : Nat) (v : PyVal F) : Prop := Proper v ∧ JsonAble lim v

/-- no dump raises, of any of the Trackers -/
def NoneRaises {J : Type} [Jval J] (dumps : Dumps J) : List (Session J) → Option (List UInt8) → Prop
  | [], _ => True
  | s :: r, f =>
    (∀ pre st post, s.2.2 = pre ++ .dump st :: post →
      (dump dumps (trkRun dumps { name := s.1, initStamp := s.2.1, file := f } pre) st).1 = .ok ()) ∧
    NoneRaises dumps r (trkRun dumps { name := s.1, initStamp := s.2.1, file := f } s.2.2).file

end Verif.Spec
