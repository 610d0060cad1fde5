import Verif.Model.Tracker
/-!
# tracker.py: where a Tracker's log file is

`/repo/dustgoggles/tracker.py`, lines 38-43, with the parsing of CPython's `pathlib` (POSIX). Not modelled: `..` and symbolic
links (which only the operating system follows), the default directory (39), `mkdir` (42), bytes and names with
surrogates.
-/
namespace Verif.Model
open Verif

/-- a `PurePosixPath`: its root ("", "/" or "//") and its parts -/
structure PPath where
  root : Str
  parts : List Str
  deriving DecidableEq

/-- `str.split('/')` -/
def splitSlash : Str → List Str
  | [] => [[]]
  | c :: t =>
    if c = '/' then [] :: splitSlash t
    else match splitSlash t with
      | [] => [[c]]                            -- does not happen
      | w :: ws => (c :: w) :: ws

/-- pathlib's `splitroot`: the root of a string, and what follows -/
def splitRoot (s : Str) : Str × Str :=
  if s.head? = some '/' then
    let rel := s.dropWhile (· = '/')
    (if s.length - rel.length = 2 then ['/', '/'] else ['/'], rel)
  else ([], s)

/-- the parts of a string without a root: empty ones and "." are left out -/
def pathParts (rel : Str) : List Str := (splitSlash rel).filter fun x => x ≠ [] ∧ x ≠ ['.']

/-- `Path(directory, name)`: a name with a root of its own makes the directory be forgotten -/
def PPath.child (d : PPath) (name : Str) : PPath :=
  if (splitRoot name).1 = [] then ⟨d.root, d.parts ++ pathParts (splitRoot name).2⟩
  else ⟨(splitRoot name).1, pathParts (splitRoot name).2⟩

/-- tracker.py:40-41, 43: the file's name; `none` is the name `None` -/
def logName (identifier : Str) (name : Option Str) : Str :=
  (if identifier = [] then [] else identifier ++ ['_']) ++ name.getD "None".toList ++ ".json".toList

/-- tracker.py:43 `self.outpath` -/
def logPath (outdir : PPath) (identifier : Str) (name : Option Str) : PPath := outdir.child (logName identifier name)

/-- the log files of all Trackers -/
abbrev LogFiles := PPath → Option (List UInt8)

variable {ι J : Type} [DecidableEq ι] [Jval J]

/-- an operation on one of several Trackers with one disk (what is in the `file` of a Tracker does not count) -/
def fleetOp (dumps : Dumps J) (path : ι → PPath) (st : (ι → Trk J) × LogFiles) (x : ι × TrkOp J) : (ι → Trk J) × LogFiles :=
  let t := trkOp dumps { st.1 x.1 with file := st.2 (path x.1) } x.2
  (fun i => if i = x.1 then t else st.1 i, fun p => if p = path x.1 then t.file else st.2 p)

/-- a history of operations -/
def fleetRun (dumps : Dumps J) (path : ι → PPath) (st : (ι → Trk J) × LogFiles) (h : List (ι × TrkOp J)) :
    (ι → Trk J) × LogFiles := h.foldl (fleetOp dumps path) st

end Verif.Model
