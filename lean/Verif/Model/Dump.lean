import Verif.Model.Notepad
/-!
# `dump` and `close(dump=True)` of the notepads of `/repo/dustgoggles/codex/implements.py`

Files are kept apart from shared memory. One process at a time: a dump is run to its end.
-/
namespace Verif.Model
open Verif

/-- the files: content by path, as written in the program -/
abbrev Files := Str → Option Bytes

/-- `file.write(b)` in a file just opened for writing -/
def Files.put (d : Files) (f : Str) (b : Bytes) : Files := fun x => if x = f then some b else d x

/-- implements.py:797, 899: `f"{self.prefix}_{key}".replace(".", "_")` -/
def dumpName (pre key : Str) : Str := (padAddr pre key).map fun c => if c = '.' then '_' else c

/-- implements.py:795-800 `Notepad.dump(key, fn)` with the default `mode="wb"`. `opens f` is the exception that opening the
file `f` for writing raises, if any (a missing directory, say); opening empties the file. Simplification: writing does
not fail; different paths are different files. -/
def padDump (E : Env) (opens : Str → Option PyErr) (p : Pad) (key : Key) (fn : Option Str) (s : Store) (d : Files) :
    Outcome Unit × Store × Files :=
  let f := fn.getD (dumpName p.pre key.text)                                         -- 796-797
  match opens f with                                                                 -- 798
  | some e => (.err e, s, d)
  | none => match (fetchBlockBytes (padAddr p.pre key.text)).run E s with            -- 800, 649-650
    | (.ok b, s') => (.ok (), s', (d.put f []).put f b)
    | (.err e, s') => (.err e, s', d.put f [])
    | (.stuck, s') => (.stuck, s', d.put f [])

/-- implements.py:805-808 with `dump=True` -/
def padDumpDelAll (E : Env) (opens : Str → Option PyErr) (p : Pad) : List Str → Store → Files →
    Outcome Unit × Store × Files
  | [], s, d => (.ok (), s, d)
  | k :: t, s, d => match padDump E opens p (.str k) none s d with
    | (.ok (), s1, d1) => match (padDel E p (.str k)).run E s1 with
      | (.ok (), s2) => padDumpDelAll E opens p t s2 d1
      | (o, s2) => (o, s2, d1)
    | r => r

/-- implements.py:802-812 `Notepad.close(dump=True)`; an `AttributeError` is swallowed (810-811), such as that of `None.copy()`
with a `FakeIndex` -/
def padCloseDump (E : Env) (opens : Str → Option PyErr) (p : Pad) (s : Store) (d : Files) : Outcome Unit × Store × Files :=
  match p.index with
  | .fake => (.ok (), s, d)
  | .tag ix => match (indexUpdate E ix).run E s with
    | (.ok keys, s1) => match padDumpDelAll E opens p keys s1 d with
      | (.ok (), s2, d2) => match (indexClose ix).run E s2 with
        | (.err .attributeError, s3) => (.ok (), s3, d2)
        | (o, s3) => (o, s3, d2)
      | (.err .attributeError, s2, d2) => (.ok (), s2, d2)
      | r => r
    | (.err .attributeError, s1) => (.ok (), s1, d)
    | (.err e, s1) => (.err e, s1, d)
    | (.stuck, s1) => (.stuck, s1, d)

/-- implements.py:897-900 `GridPaper.dump(key, fn)`: the array is fetched before `tofile` opens the file -/
def gridDump (E : Env) (c : Codec ArrMeta) (nbytes : Str → List Nat → Nat) (opens : Str → Option PyErr) (g : Grid)
    (key : Key) (fn : Option Str) (s : Store) (d : Files) : Outcome Unit × Store × Files :=
  let f := fn.getD (dumpName g.pre key.text)
  match (gridGet E c nbytes g key).run E s with
  | (.ok a, s') => match opens f with
    | some e => (.err e, s', d)
    | none => (.ok (), s', d.put f a.data)
  | (.err e, s') => (.err e, s', d)
  | (.stuck, s') => (.stuck, s', d)

end Verif.Model
