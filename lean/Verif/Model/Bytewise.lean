import Verif.Model.Notepad
/-!
# Copies into and out of shared blocks, byte by byte

`Verif/Model/Fine.lean` does this for notepads, whose blocks are written by their makers only; a `Sticky` (implements.py:936-1004)
writes into blocks that are there, so here a byte is written by itself. Several processes use `Sticky` objects of one address, each
choosing its calls from the outcomes of its earlier ones.
-/
namespace Verif.Model
open Verif
variable {α V : Type}

/-- a primitive operation, or one byte of a copy out of a block or into one -/
inductive BOp where
  | op (o : Op)
  | peek (h i : Nat)
  | poke (h i x : Nat)

/-- result type -/
def BOp.Res : BOp → Type
  | .op o => o.Res
  | .peek _ _ => Nat
  | .poke _ _ _ => Unit

/-- semantics -/
def BOp.step (E : Env) : (o : BOp) → Store → Except PyErr o.Res × Store
  | .op o, s => o.step E s
  | .peek h i, s => (.ok ((s.segs h).getD i 0), s)
  | .poke h i x, s => (.ok (), { s with segs := fun j => if j = h then (s.segs h).set i x else s.segs j })

/-- programs of such operations -/
inductive BProg (α : Type) where
  | ret (a : α)
  | raise (e : PyErr)
  | stuck
  | op (o : BOp) (k : Except PyErr o.Res → BProg α)

/-- the program as it is: copies are not interrupted -/
def Prog.whole : Prog α → BProg α
  | .ret a => .ret a
  | .raise e => .raise e
  | .stuck => .stuck
  | .op o k => .op (.op o) fun r => (k r).whole

/-- the remaining `n` bytes of a copy out of the block, of which `got` has been copied -/
def bpeeks (h : Nat) (k : Bytes → BProg α) : Nat → Bytes → BProg α
  | 0, got => k got
  | n + 1, got => .op (.peek h got.length) fun r => match r with
    | .ok x => bpeeks h k n (got ++ ([x] : List Nat))
    | .error e => .raise e

/-- the remaining bytes of a copy into the block, the next one to place `i` -/
def bpokes (h : Nat) (k : BProg α) : Nat → Bytes → BProg α
  | _, [] => k
  | i, x :: rest => .op (.poke h i x) fun _ => bpokes h k (i + 1) rest

/-- the program with its copies taken apart; the size is looked at first (as in `Prog.fine`) -/
def Prog.bytewise : Prog α → BProg α
  | .ret a => .ret a
  | .raise e => .raise e
  | .stuck => .stuck
  | .op (.create n z) k => .op (.op (.create n z)) fun r => (k r).bytewise
  | .op (.attach n) k => .op (.op (.attach n)) fun r => (k r).bytewise
  | .op (.unlink n) k => .op (.op (.unlink n)) fun r => (k r).bytewise
  | .op (.read h) k => .op (.op (.read h)) fun r => match r with
    | .ok b => bpeeks h (fun c => (k (.ok c)).bytewise) (List.length b) []
    | .error e => (k (.error e)).bytewise
  | .op (.write h b) k => .op (.op (.read h)) fun r => match r with
    | .ok c => if b.length = List.length c then bpokes h (k (.ok ())).bytewise 0 b else (k (.error .valueError)).bytewise
    | .error e => (k (.error e)).bytewise
  | .op (.writeFront h b) k => bpokes h (k (.ok ())).bytewise 0 b

/-- calls on a `Sticky` -/
inductive StickyCall (V : Type) where
  | stick (v : V)
  | read (reread : Bool)
  | close
  deriving DecidableEq

/-- what they give -/
inductive StickyOut (V : Type) where
  | done
  | val (v : Option V)
  deriving DecidableEq

/-- a call; the object afterwards -/
def StickyCall.run (c : Codec V) (isNone : V → Bool) (n : Sticky V) : StickyCall V → Prog (StickyOut V × Sticky V)
  | .stick v => (stickyStick c isNone n v).bind fun n' => .ret (.done, n')
  | .read rr => (stickyRead c isNone n rr).bind fun r => .ret (.val r.1, r.2)
  | .close => (stickyClose n).bind fun _ => .ret (.done, n)

/-- calls that have ended, with their outcomes -/
abbrev StickyHist (V : Type) := List (StickyCall V × Except PyErr (StickyOut V))

/-- a process: how it chooses its next call, its object, the calls that have ended, and the one it is in -/
structure StickyProc (V : Type) where
  plan : StickyHist V → Option (StickyCall V)
  obj : Sticky V
  hist : StickyHist V := []
  now : Option (StickyCall V × BProg (StickyOut V × Sticky V)) := none

/-- one step of a process: a call is begun, an operation of it is done, or it has ended. `fine`: copies are taken apart -/
def noteStep (E : Env) (c : Codec V) (isNone : V → Bool) (fine : Bool) (p : StickyProc V) (s : Store) : StickyProc V × Store :=
  match p.now with
  | none => match p.plan p.hist with
    | none => (p, s)
    | some o => ({ p with now := some (o, if fine then (o.run c isNone p.obj).bytewise else (o.run c isNone p.obj).whole) }, s)
  | some (o, .ret (x, n)) => ({ p with obj := n, hist := p.hist ++ [(o, .ok x)], now := none }, s)
  | some (o, .raise e) => ({ p with hist := p.hist ++ [(o, .error e)], now := none }, s)
  | some (_, .stuck) => (p, s)
  | some (o, .op b k) => ({ p with now := some (o, k (b.step E s).1) }, (b.step E s).2)

/-- the processes under a schedule -/
def noteRun (E : Env) (c : Codec V) (isNone : V → Bool) (fine : Bool) : List Nat → List (StickyProc V) → Store → List (StickyProc V) × Store
  | [], ps, s => (ps, s)
  | i :: sched, ps, s => match ps[i]? with
    | none => noteRun E c isNone fine sched ps s
    | some p => noteRun E c isNone fine sched (ps.set i (noteStep E c isNone fine p s).1) (noteStep E c isNone fine p s).2

end Verif.Model
