import Verif.Model.Pool
import Verif.Model.Pickle
/-!
# structures.py: `MaybePool.map` of functions that change their arguments

`Model/Pool.lean` has functions of values. Here the arguments are objects: without a pool the function gets the caller's own,
in a worker it gets what was pickled and unpickled, one record at a time or a chunk at a time. The argument of a record is
one reference (the tuple of its `args` and its `kwargs`, pickled together in both cases). Left out: exceptions of the
function and keys (C17, C18), the moment at which the feeder thread of the pool pickles a task (the caller is taken not to
change the arguments meanwhile).
-/
namespace Verif.Model
open Verif

/-- a function: what it returns for an argument, and the objects after the call -/
abbrev PyFunc := PHeap → PRef → PRef × PHeap

/-- structures.py:379-383, 392-396 and 341-347, or 359-363: the calls one after another on the same objects -/
def callAll (f : PyFunc) : PHeap → List PRef → List PRef × PHeap
  | h, [] => ([], h)
  | h, a :: as =>
    let (r, h) := f h a
    let (rs, h) := callAll f h as
    (r :: rs, h)

/-- through the pipe to a worker, or back (`multiprocessing/connection.py`: `send` and `recv` pickle) -/
def sent (c : Codec (PHeap × PRef)) (v : PHeap × PRef) : Except PyErr (PHeap × PRef) := do
  let b ← c.encode v
  c.decode b

/-- structures.py:397, `apply_async(func, args, kwargs)` and what `get` of it gives -/
def poolCall (c : Codec (PHeap × PRef)) (f : PyFunc) (h : PHeap) (a : PRef) : Except PyErr (PHeap × PRef) := do
  let (h, a) ← sent c (h, a)
  let (r, h) := f h a
  sent c (h, r)

/-- a new list of these elements -/
def pyList (h : PHeap) (xs : List PRef) : PHeap × PRef := (h ++ [.list xs], .obj h.length)

/-- the elements of a list -/
def pyElems (v : PHeap × PRef) : List PRef :=
  match v.2 with
  | .obj a => match v.1[a]? with
    | some (.list xs) => xs
    | _ => []
  | _ => []

/-- structures.py:386-390 and 359-363, one chunk: its records go to the worker together and its results come back together.
`divide` gives iterators over lists, which are pickled with their lists. The dict of results is here a list. -/
def chunkCall (c : Codec (PHeap × PRef)) (f : PyFunc) (h : PHeap) (as : List PRef) : Except PyErr (List (PHeap × PRef)) := do
  let v ← sent c (pyList h as)
  let (rs, h) := callAll f v.1 (pyElems v)
  let w ← sent c (pyList h rs)
  .ok ((pyElems w).map fun r => (w.1, r))

/-- `threads=None`; a pool; a pool of `n` with `as_chunks=True` -/
inductive PoolMode where
  | serial | pool | chunks (n : Nat)
  deriving DecidableEq, Repr

/-- structures.py:374-390 and 409-423: the results in the order of the records, and the caller's objects after it. If a chunk
cannot be sent its error stands for each of its records here (in `get` it is under the name of the chunk, C18). -/
def mapObjects (c : Codec (PHeap × PRef)) (f : PyFunc) (h : PHeap) (as : List PRef) :
    PoolMode → List (Except PyErr (PHeap × PRef)) × PHeap
  | .serial => let (rs, h') := callAll f h as; (rs.map fun r => .ok (h', r), h')
  | .pool => (as.map (poolCall c f h), h)
  | .chunks n => ((divide n as).flatMap fun ch =>
      match chunkCall c f h ch with
      | .ok l => l.map .ok
      | .error e => ch.map fun _ => .error e, h)

end Verif.Model
