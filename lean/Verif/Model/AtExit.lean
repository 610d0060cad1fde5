import Verif.Model.Notepad
/-!
# `cleanup_on_exit`

`/repo/dustgoggles/codex/implements.py`, lines 284-285, 493, 646-647, 812, 921, 946-947: `close` methods registered with
`atexit`. CPython calls what is registered last first; it goes on after an exception, which it prints; a function that
has been unregistered meanwhile is not called. Simplification: nothing else is registered, and the process ends
regularly (not by a signal, and not in a child of `multiprocessing`, which skips `atexit`).
-/
namespace Verif.Model
open Verif

/-- what can be closed at exit: an object of the program (numbered), or the index of a notepad -/
inductive ExitObj where
  | obj (n : Nat)
  | indexOf (n : Nat)
  deriving DecidableEq

/-- a registered `close`: whose, what it does, and what it unregisters when it gets to its end -/
structure AtExit where
  of : ExitObj
  call : Prog Unit
  unregisters : List ExitObj

/-- what happens at exit: the exceptions printed, whether the process hangs, the memory -/
structure Exited where
  printed : List PyErr
  hangs : Bool
  store : Store

/-- CPython's `atexit_callfuncs`, given what is registered, last first, and what has been unregistered -/
def runExit (E : Env) : List AtExit → List ExitObj → Store → Exited
  | [], _, s => ⟨[], false, s⟩
  | h :: t, gone, s =>
    if h.of ∈ gone then runExit E t gone s
    else match h.call.run E s with
      | (.ok (), s') => runExit E t (h.unregisters ++ gone) s'
      | (.err e, s') =>
        let r := runExit E t gone s'
        { r with printed := e :: r.printed }
      | (.stuck, s') => ⟨[], true, s'⟩

/-- exit of a process, given what has been registered, in order -/
def exitProcess (E : Env) (registered : List AtExit) (s : Store) : Exited := runExit E registered.reverse [] s

/-- what `Notepad(…, cleanup_on_exit=True)` registers (implements.py:633-638 with 284-285, then 646-647): the index's `close`,
which unregisters itself (493), then the notepad's, which unregisters both (809 with 493, 812). A `FakeIndex` registers
nothing (319-320), its `close` does nothing (331-332). -/
def padCleanup (E : Env) (n : Nat) (p : Pad) : List AtExit :=
  match p.index with
  | .tag ix => [⟨.indexOf n, indexClose ix, [.indexOf n]⟩, ⟨.obj n, padClose E p, [.indexOf n, .obj n]⟩]
  | .fake => [⟨.obj n, padClose E p, [.obj n]⟩]

/-- the same for a GridPaper (827-848, 915-921) -/
def gridCleanup (E : Env) (n : Nat) (g : Grid) : List AtExit :=
  [⟨.indexOf n, indexClose g.index, [.indexOf n]⟩, ⟨.obj n, gridClose E g, [.indexOf n, .obj n]⟩]

/-- `Sticky(…, cleanup_on_exit=True)` (946-947); its `close` (979-982) unregisters nothing -/
def stickyCleanup {V : Type} (n : Nat) (st : Sticky V) : List AtExit := [⟨.obj n, stickyClose st, []⟩]

end Verif.Model
