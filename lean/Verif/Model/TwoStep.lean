import Verif.Model.Memutilz
/-!
# Creating and opening a block in two steps each

`Verif/Model/Shm.lean` takes `SharedMemory(name, create=True, size=size)` and `SharedMemory(name)` as one operation each.
CPython 3.11 (`multiprocessing/shared_memory.py`, `SharedMemory.__init__`) makes a block with `shm_open(O_CREAT | O_EXCL)`,
which binds the name to a segment of size 0, and then gives it its size with `ftruncate`; it opens a block with `shm_open`,
and then maps it with `mmap`, which raises `ValueError("cannot mmap an empty file")` if the size is still 0. Here these
are taken apart: other processes may act, and the process may be killed, between the two. Still one operation: `ftruncate`
and the creator's own `mmap` (nobody else can tell them apart), and `fstat` and `mmap` of a process that opens a block
(`mmap` looks at the size again).
-/
namespace Verif.Model
open Verif
variable {α : Type}

/-- a process: between two operations; after the `shm_open` of a creation, with `ftruncate` to come; after the `shm_open`
of an opening, with `mmap` to come -/
inductive Proc (α : Type) where
  | run (p : Prog α)
  | sizing (h size : Nat) (k : Except PyErr Nat → Prog α)
  | mapping (h : Nat) (k : Except PyErr Nat → Prog α)

/-- after `shm_open(name, O_CREAT | O_EXCL)`: the name is bound to a new segment, which is empty -/
def Store.opened (s : Store) (n : Str) : Store :=
  { names := fun x => if x = n then some s.next else s.names x
    segs := fun i => if i = s.next then [] else s.segs i
    next := s.next + 1 }

/-- after `ftruncate(fd, size)` of an empty segment -/
def Store.sized (s : Store) (h size : Nat) : Store :=
  { s with segs := fun i => if i = h then List.replicate size 0 else s.segs i }

/-- one step of a process: `none` when it has ended -/
def Proc.step (E : Env) : Proc α → Store → Option (Proc α × Store)
  | .run (.op (.create n size) k), s =>
    if size = 0 then some (.run (k (.error .valueError)), s)
    else if E.okName n = false then some (.run (k (.error .osError)), s)
    else match s.names n with
      | some _ => some (.run (k (.error .fileExists)), s)
      | none => some (.sizing s.next size k, s.opened n)
  | .run (.op (.attach n) k), s =>
    if E.okName n = false then some (.run (k (.error .osError)), s)
    else match s.names n with
      | some i => some (.mapping i k, s)
      | none => some (.run (k (.error .fileNotFound)), s)
  | .run (.op o k), s => some (.run (k (o.step E s).1), (o.step E s).2)
  | .run _, _ => none
  | .sizing h size k, s => some (.run (k (.ok h)), s.sized h size)
  | .mapping h k, s => some (.run (k (if s.segs h = [] then .error .valueError else .ok h)), s)

/-- run the processes under a schedule, as `interleave` (Verif/Model/Shm.lean) does -/
def interleave2 (E : Env) : List Nat → List (Proc α) → Store → List (Proc α) × Store
  | [], ps, s => (ps, s)
  | i :: sched, ps, s => match ps[i]? with
    | none => interleave2 E sched ps s
    | some p => match p.step E s with
      | none => interleave2 E sched ps s
      | some (p', s') => interleave2 E sched (ps.set i p') s'

/-- the order in which the processes begin their operations: the schedule without the second halves -/
def begun (E : Env) : List Nat → List (Proc α) → Store → List Nat
  | [], _, _ => []
  | i :: sched, ps, s => match ps[i]? with
    | none => begun E sched ps s
    | some p => match p.step E s with
      | none => begun E sched ps s
      | some (p', s') => match p with
        | .run _ => i :: begun E sched (ps.set i p') s'
        | _ => begun E sched (ps.set i p') s'

end Verif.Model
