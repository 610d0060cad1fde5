import Verif.Py.Err
/-!
# tracker.py: Trackers of several processes that have the same log file

`Verif/Model/Tracker.lean` has `dump` in one step. Here it is what the operating system sees of it: a check, an open, a seek, and
writes, between which other processes go on. Files are inodes, so one that has been unlinked is still there for those who have it
open. The bytes go through Python's buffer: nothing is written before the buffer is full or the file closed, and how they come in
pieces is left to the schedule. Not modelled: a full disk, permissions, Windows.
-/
namespace Verif.Model
open Verif

/-- the log file's name may stand for an inode -/
structure Disk where
  path : Option Nat
  inode : Nat → List UInt8
  next : Nat

/-- the file's bytes -/
def Disk.file (d : Disk) : Option (List UInt8) := d.path.map d.inode

/-- bytes written at a position: a gap before it is filled with zeros -/
def writeAt (l : List UInt8) (pos : Nat) (bs : List UInt8) : List UInt8 :=
  (l ++ List.replicate (pos - l.length) 0).take pos ++ bs ++ l.drop (pos + bs.length)

/-- a change to an inode -/
def Disk.set (d : Disk) (i : Nat) (l : List UInt8) : Disk := { d with inode := fun j => if j = i then l else d.inode j }

/-- a process that dumps a log (what `json.dumps` made of it, or its exception) or clears it -/
inductive LogJob where
  | dump (doc : Except PyErr (List UInt8))
  | clear

/-- how far it is -/
inductive LogPc where
  | start
  | checked (there : Bool)
  | opened (inode : Nat)
  | writing (inode pos : Nat) (rest : List UInt8)
  | finished (r : Except PyErr Unit)

/-- tracker.py:87-93: all that is written after `head`, if `json.dumps` does not raise -/
def payload (head : List UInt8) : Except PyErr (List UInt8) → List UInt8
  | .ok doc => head ++ doc ++ [93]
  | .error _ => head

/-- how a dump ends -/
def dumpEnd : Except PyErr (List UInt8) → Except PyErr Unit
  | .ok _ => .ok ()
  | .error e => .error e

/-- one step of a dump (tracker.py:85-93), or a clear's `unlink` (46); `n` says how much is written -/
def logStep (d : Disk) (j : LogJob) (pc : LogPc) (n : Nat) : Disk × LogPc :=
  match j with
  | .clear => match pc with
    | .start => ({ d with path := none }, .finished (.ok ()))
    | pc => (d, pc)
  | .dump doc => match pc with
    | .start => (d, .checked d.path.isSome)                                       -- 85
    | .checked true => match d.path with                                          -- 86 "rb+"
      | none => (d, .finished (.error .fileNotFound))
      | some i => (d, .opened i)
    | .checked false => match d.path with                                         -- 86 "wb"
      | none => (⟨some d.next, fun j => if j = d.next then [] else d.inode j, d.next + 1⟩, .writing d.next 0 (payload [91] doc))
      | some i => (d.set i [], .writing i 0 (payload [91] doc))
    | .opened i => match d.inode i with                                           -- 88
      | [] => (d, .finished (.error .osError))
      | _ :: l => (d, .writing i l.length (payload [44, 10] doc))
    | .writing _ _ [] => (d, .finished (dumpEnd doc))
    | .writing i pos (b :: l) =>
      (d.set i (writeAt (d.inode i) pos ((b :: l).take (n + 1))), .writing i (pos + ((b :: l).take (n + 1)).length) ((b :: l).drop (n + 1)))
    | .finished r => (d, .finished r)

/-- processes at work -/
structure LogWorld where
  disk : Disk
  procs : List (LogJob × LogPc)

/-- a step of one of them -/
def LogWorld.step (w : LogWorld) (e : Nat × Nat) : LogWorld :=
  match w.procs[e.1]? with
  | none => w
  | some (j, pc) => ⟨(logStep w.disk j pc e.2).1, w.procs.set e.1 (j, (logStep w.disk j pc e.2).2)⟩

/-- a schedule: whose turn it is, and how much it writes -/
def LogWorld.run (w : LogWorld) (sched : List (Nat × Nat)) : LogWorld := sched.foldl LogWorld.step w

end Verif.Model
