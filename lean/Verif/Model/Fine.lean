import Verif.Model.PadClients
/-!
# Copies byte by byte

`Verif/Model/Shm.lean` takes a copy out of a block (`block.buf.tobytes()`) and into one (`block.buf[:] = data`) as one
operation. Here they are taken apart: other processes may act between any two bytes. A byte is written by writing the
data up to it, so the bytes before it are written again, with what they were given; this makes a difference only where two
processes write to one segment.
-/
namespace Verif.Model
open Verif
variable {α : Type}

/-- the remaining `n` bytes of a copy out of the block, of which `got` has been copied -/
def peeks (h : Nat) (k : Bytes → Prog α) : Nat → Bytes → Prog α
  | 0, got => k got
  | n + 1, got => .op (.read h) fun r => match r with
    | .ok b => peeks h k n (got ++ [b.getD got.length 0])
    | .error e => .raise e

/-- the remaining bytes of a copy into the block, of which `put` has been copied -/
def pokes (h : Nat) (k : Prog α) : Bytes → Bytes → Prog α
  | _, [] => k
  | put, x :: rest => .op (.writeFront h (put ++ [x])) fun _ => pokes h k (put ++ [x]) rest

/-- the program with its copies taken apart; the size is looked at first (`SharedMemory.size`, and CPython's comparison of
lengths in the assignment to a `memoryview`) -/
def Prog.fine : Prog α → Prog α
  | .ret a => .ret a
  | .raise e => .raise e
  | .stuck => .stuck
  | .op (.create n z) k => .op (.create n z) fun r => (k r).fine
  | .op (.attach n) k => .op (.attach n) fun r => (k r).fine
  | .op (.unlink n) k => .op (.unlink n) fun r => (k r).fine
  | .op (.read h) k => .op (.read h) fun r => match r with
    | .ok b => peeks h (fun c => (k (.ok c)).fine) b.length []
    | .error e => (k (.error e)).fine
  | .op (.write h b) k => .op (.read h) fun r => match r with
    | .ok c => if b.length = c.length then pokes h (k (.ok ())).fine [] b else (k (.error .valueError)).fine
    | .error e => (k (.error e)).fine
  | .op (.writeFront h b) k => pokes h (k (.ok ())).fine [] b

variable {V ρ : Type}

/-- a script's program, when the calls' programs are these -/
def PadScript.progOf (run : PadCall V → Prog (PadOut V)) : PadScript V ρ → Prog ρ
  | .ret r => .ret r
  | .raise e => .raise e
  | .call o k => (run o).attempt.bind fun r => (k r).progOf run

theorem PadScript.progOf_run (E : Env) (c : Codec V) (isNone : V → Bool) (p : Pad) (sc : PadScript V ρ) :
    sc.progOf (PadCall.run E c isNone p) = sc.prog E c isNone p := by
  induction sc with
  | ret r => rfl
  | raise e => rfl
  | call o k ih => simp only [PadScript.progOf, PadScript.prog, ih]

/-- after these calls with these outcomes, the script goes on like this -/
def PadScript.Reaches : PadScript V ρ → List (PadCall V × Except PyErr (PadOut V)) → PadScript V ρ → Prop
  | sc, [], sc' => sc' = sc
  | .call o k, (o', x) :: t, sc' => o = o' ∧ (k x).Reaches t sc'
  | .ret _, _ :: _, _ => False
  | .raise _, _ :: _, _ => False

/-- the call it makes next -/
def PadScript.next : PadScript V ρ → List (PadCall V)
  | .call o _ => [o]
  | _ => []

end Verif.Model
