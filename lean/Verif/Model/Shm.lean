import Verif.Py.Err
import Verif.Py.Str
/-!
# POSIX shared memory as used through `multiprocessing.shared_memory.SharedMemory` (CPython 3.11, Linux)

The shared world is a name table and a table of segments. A `SharedMemory` object is a handle: the number of its
segment (its name is kept by the program that opened it). A segment stays usable through open handles after its name
has been unlinked. Simplifications, all with respect to CPython/Linux: creation is atomic (CPython does `shm_open`,
`ftruncate`, `mmap`; another process could see the segment with size 0 in between: `Verif/Model/TwoStep.lean` takes the
two apart); closing a handle and the resource
tracker have no effect on other handles; memory is never exhausted.

Programs are trees of primitive operations (`Prog`), so that the same program can be run sequentially, stopped at any
operation (crash), or interleaved with other programs.
-/
namespace Verif.Model
open Verif

/-- the shared world -/
structure Store where
  names : Str → Option Nat
  segs : Nat → Bytes
  next : Nat

/-- primitive operations -/
inductive Op where
  /-- `SharedMemory(name, create=True, size=size)` -/
  | create (name : Str) (size : Nat)
  /-- `SharedMemory(name)` -/
  | attach (name : Str)
  /-- `block.unlink()` of a block opened under this name -/
  | unlink (name : Str)
  /-- `block.buf.tobytes()` -/
  | read (h : Nat)
  /-- `block.buf[:] = data` -/
  | write (h : Nat) (data : Bytes)
  /-- `buf[: len(data)] = data`, the element-wise copy into an array that uses the front of the buffer -/
  | writeFront (h : Nat) (data : Bytes)

/-- result type of a primitive operation -/
def Op.Res : Op → Type
  | .create _ _ => Nat
  | .attach _ => Nat
  | .unlink _ => Unit
  | .read _ => Bytes
  | .write _ _ => Unit
  | .writeFront _ _ => Unit

/-- What the model leaves open about the platform: which names the OS accepts (`shm_open` rejects, with an `OSError`,
names containing `/`, over-long names, …), UTF-8, and `sha256(...).hexdigest()`. -/
structure Env where
  okName : Str → Bool
  utf8 : Str → Bytes
  utf8dec : Bytes → Option Str
  utf8_roundtrip : ∀ s, utf8dec (utf8 s) = some s
  utf8_nil : utf8 [] = []
  utf8dec_zeros : ∀ n, utf8dec (List.replicate n 0) = some (List.replicate n (Char.ofNat 0))
  sha : Bytes → Str

/-- semantics of a primitive operation (`SharedMemory.__init__`, `unlink`, slice assignment to a `memoryview`) -/
def Op.step (E : Env) : (o : Op) → Store → Except PyErr o.Res × Store
  | .create n size, s =>
    if size = 0 then (.error .valueError, s)
    else if E.okName n = false then (.error .osError, s)
    else match s.names n with
      | some _ => (.error .fileExists, s)
      | none => (.ok s.next,
          { names := fun x => if x = n then some s.next else s.names x
            segs := fun i => if i = s.next then List.replicate size 0 else s.segs i
            next := s.next + 1 })
  | .attach n, s =>
    if E.okName n = false then (.error .osError, s)
    else match s.names n with
      | some i => (.ok i, s)
      | none => (.error .fileNotFound, s)
  | .unlink n, s => match s.names n with
    | some _ => (.ok (), { s with names := fun x => if x = n then none else s.names x })
    | none => (.error .fileNotFound, s)
  | .read i, s => (.ok (s.segs i), s)
  | .write i b, s =>
    if b.length = (s.segs i).length then (.ok (), { s with segs := fun j => if j = i then b else s.segs j })
    else (.error .valueError, s)
  | .writeFront i b, s =>
    (.ok (), { s with segs := fun j => if j = i then b ++ (s.segs i).drop b.length else s.segs j })

/-- programs: trees of primitive operations, ending in a value, a raised exception, or `stuck` (a spin loop that has
used up its fuel) -/
inductive Prog (α : Type) where
  | ret (a : α)
  | raise (e : PyErr)
  | stuck
  | op (o : Op) (k : Except PyErr o.Res → Prog α)

namespace Prog
variable {α β : Type}

/-- sequencing: exceptions propagate -/
def bind : Prog α → (α → Prog β) → Prog β
  | .ret a, f => f a
  | .raise e, _ => .raise e
  | .stuck, _ => .stuck
  | .op o k, f => .op o fun r => bind (k r) f

instance : Monad Prog where
  pure := .ret
  bind := bind

/-- `try: p except Exception as e: h(e)` with all exceptions handed to the handler -/
def catch_ : Prog α → (PyErr → Prog α) → Prog α
  | .ret a, _ => .ret a
  | .raise e, h => h e
  | .stuck, _ => .stuck
  | .op o k, h => .op o fun r => catch_ (k r) h

/-- the outcome of a program as a value -/
def attempt (p : Prog α) : Prog (Except PyErr α) := catch_ (p.bind fun a => .ret (.ok a)) fun e => .ret (.error e)

/-- one primitive operation; an error is raised -/
def prim (o : Op) : Prog o.Res := .op o fun r => match r with
  | .ok v => .ret v
  | .error e => .raise e

def ofExcept : Except PyErr α → Prog α
  | .ok a => .ret a
  | .error e => .raise e
end Prog

/-- `SharedMemory(name, create=True, size=size)` -/
def create (n : Str) (size : Nat) : Prog Nat := Prog.prim (.create n size)
/-- `SharedMemory(name)` -/
def attach (n : Str) : Prog Nat := Prog.prim (.attach n)
/-- `block.unlink()` -/
def unlink (n : Str) : Prog Unit := Prog.prim (.unlink n)
/-- `block.buf.tobytes()` -/
def read (h : Nat) : Prog Bytes := Prog.prim (.read h)
/-- `block.buf[:] = data` -/
def write (h : Nat) (b : Bytes) : Prog Unit := Prog.prim (.write h b)
/-- element-wise copy to the front of the buffer -/
def writeFront (h : Nat) (b : Bytes) : Prog Unit := Prog.prim (.writeFront h b)
/-- `n.to_bytes(w, "little")` -/
def intBytes (w n : Nat) : Prog Bytes := if n < 256 ^ w then .ret (toLE w n) else .raise .overflowError

/-- outcome of a complete run -/
inductive Outcome (α : Type) where
  | ok (a : α)
  | err (e : PyErr)
  | stuck
  deriving DecidableEq

/-- run a program to its end, alone -/
def Prog.run {α : Type} (E : Env) : Prog α → Store → Outcome α × Store
  | .ret a, s => (.ok a, s)
  | .raise e, s => (.err e, s)
  | .stuck, s => (.stuck, s)
  | .op o k, s => Prog.run E (k (o.step E s).1) (o.step E s).2

/-- the store left behind by a process that is killed after `n` primitive operations of the program -/
def Prog.crash {α : Type} (E : Env) : Nat → Prog α → Store → Store
  | 0, _, s => s
  | n + 1, .op o k, s => Prog.crash E n (k (o.step E s).1) (o.step E s).2
  | _ + 1, .ret _, s => s
  | _ + 1, .raise _, s => s
  | _ + 1, .stuck, s => s

/-- one step of a program run among others: the remaining program, or `none` when it has ended -/
def Prog.step {α : Type} (E : Env) : Prog α → Store → Option (Prog α × Store)
  | .op o k, s => some (k (o.step E s).1, (o.step E s).2)
  | _, _ => none

/-- run the programs `ps` under a schedule (a list of indices; an index whose program has ended, or out of range, is
skipped): the programs that remain, and the store -/
def interleave {α : Type} (E : Env) : List Nat → List (Prog α) → Store → List (Prog α) × Store
  | [], ps, s => (ps, s)
  | i :: sched, ps, s => match ps[i]? with
    | none => interleave E sched ps s
    | some p => match p.step E s with
      | none => interleave E sched ps s
      | some (p', s') => interleave E sched (ps.set i p') s'

end Verif.Model
