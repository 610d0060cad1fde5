import Verif.Model.Notepad
/-!
# The resource tracker, and `deactivate_shared_memory_resource_tracker` (`/repo/dustgoggles/codex/memutilz.py:57-98`)

CPython 3.11 on Linux. Every `SharedMemory(...)` that succeeds, creating or attaching, and every `unlink()` sends a line
of text to the process's resource tracker, a separate process that keeps a set of names and, when the last process
holding its pipe has ended, unlinks every name left in the set (`multiprocessing/resource_tracker.py`,
`multiprocessing/shared_memory.py`). The model adds this to the operations of `Verif/Model/Shm.lean`, so that every
program of the model can be run with it.

Simplifications: a message is handled at once (the tracker reads its pipe concurrently, but all messages of a process
are in the pipe before the process ends); a tracker not launched yet is a tracker with an empty set; only the set of
shared memory names is kept, that of semaphores is not; a line is not stripped of blanks (they can be there only if
a name contains a newline).
-/
namespace Verif.Model
open Verif

/-- what of a process matters here: the tracker it has launched or inherited, and whether
`resource_tracker.register`/`unregister` are the replacements of memutilz.py:84-95 -/
structure TProc where
  tracker : Nat
  patched : Bool

/-- "shared_memory" -/
def shmType : Str := "shared_memory".toList
def regWord : Str := "REGISTER".toList
def unregWord : Str := "UNREGISTER".toList

/-- `'{0}:{1}:{2}\n'.format(cmd, name, rtype)` -/
def trackerLine (cmd name rtype : Str) : Str := cmd ++ ':' :: (name ++ ':' :: (rtype ++ ['\n']))

/-- resource_tracker.py `ResourceTracker._send`: the text written to the pipe. `.encode('ascii')` raises
`UnicodeEncodeError`; a text over 512 bytes raises `ValueError` -/
def trackerSend (cmd name rtype : Str) : Except PyErr Str :=
  let msg := trackerLine cmd name rtype
  if msg.any (fun c => 128 ≤ c.toNat) then .error .unicodeEncode
  else if 512 < msg.length then .error .valueError
  else .ok msg

/-- `resource_tracker.register(name, rtype)` and `unregister(name, rtype)` as the process finds them: the original
methods, or memutilz.py:84-95, where `self` in lines 88 and 94 is not defined -/
def trackerCall (pr : TProc) (cmd name rtype : Str) : Except PyErr Str :=
  if pr.patched then
    if rtype = shmType then .ok []                                            -- 86-87, 92-93
    else .error .nameError                                                    -- 88, 94
  else trackerSend cmd name rtype

/-- memutilz.py:57-98 `deactivate_shared_memory_resource_tracker()` on `sys.platform` (`True` = Windows). The entry
deleted at 97-98 is that of this process; the tracker is another process and has its own table -/
def deactivate (windows : Bool) (pr : TProc) : TProc :=
  if windows then pr else { pr with patched := true }

/-- `line.split(':')` -/
def splitColons : Str → List Str
  | [] => [[]]
  | c :: t => if c = ':' then [] :: splitColons t
    else match splitColons t with
      | [] => [[c]]
      | w :: ws => (c :: w) :: ws

/-- one line in `resource_tracker.main`: the set of shared memory names. A line that does not have three parts, and
removing a name that is not there, raise inside a `try` that only reports them -/
def trackerEats (cache : List Str) (line : Str) : List Str :=
  match splitColons line with
  | [cmd, name, rtype] =>
    if rtype = shmType then
      if cmd = regWord then if name ∈ cache then cache else name :: cache
      else if cmd = unregWord then cache.filter (fun x => x ≠ name)
      else cache
    else cache
  | _ => cache

/-- `for line in f` -/
def trackerLines : Str → Str → List Str
  | acc, [] => if acc = [] then [] else [acc]
  | acc, c :: t => if c = '\n' then acc :: trackerLines [] t else trackerLines (acc ++ [c]) t

/-- what the tracker's set is after reading `text` -/
def trackerFeed (cache : List Str) (text : Str) : List Str := (trackerLines [] text).foldl trackerEats cache

/-- the call of the tracker an operation makes when it succeeds (`SharedMemory.__init__`, `unlink`), with the name the
OS sees -/
def Op.note : Op → Option (Str × Str)
  | .create n _ => some (regWord, '/' :: n)
  | .attach n => some (regWord, '/' :: n)
  | .unlink n => some (unregWord, '/' :: n)
  | _ => none

/-- an operation with its call of the tracker. If that call raises, the block has been created (or unlinked) all the
same -/
def trackedStep (E : Env) (pr : TProc) (o : Op) (w : Store × List Str) : Except PyErr o.Res × (Store × List Str) :=
  match o.step E w.1 with
  | (.error e, s) => (.error e, (s, w.2))
  | (.ok v, s) => match o.note with
    | none => (.ok v, (s, w.2))
    | some (cmd, n) => match trackerCall pr cmd n shmType with
      | .error e => (.error e, (s, w.2))
      | .ok text => (.ok v, (s, trackerFeed w.2 text))

/-- run a program in a process, with its tracker -/
def Prog.runIn {α : Type} (E : Env) (pr : TProc) : Prog α → Store × List Str → Outcome α × (Store × List Str)
  | .ret a, w => (.ok a, w)
  | .raise e, w => (.err e, w)
  | .stuck, w => (.stuck, w)
  | .op o k, w => Prog.runIn E pr (k (trackedStep E pr o w).1) (trackedStep E pr o w).2

/-- the end of `resource_tracker.main`: `shm_unlink` of every name left, failures reported only -/
def trackerCleanup (cache : List Str) (s : Store) : Store :=
  { s with names := fun x => if '/' :: x ∈ cache then none else s.names x }

/-- processes, their trackers' sets, and the shared memory. `seen` are all processes there have been (the numbers are
labels, not the OS's reused pids) -/
structure TWorld where
  store : Store
  caches : Nat → List Str
  procs : Nat → Option TProc
  seen : List Nat

/-- what happens in a system of processes -/
inductive TEvent where
  /-- process `p` starts, with tracker `t`, inheriting the replaced functions (fork of a process that has them) or not -/
  | start (p t : Nat) (inherits : Bool)
  /-- process `p` calls `deactivate_shared_memory_resource_tracker()` -/
  | deactivate (p : Nat)
  /-- process `p` does one operation on shared memory -/
  | act (p : Nat) (o : Op)
  /-- process `p` ends -/
  | exit (p : Nat)

/-- the set of tracker `t` replaced -/
def TWorld.withCache (w : TWorld) (t : Nat) (c : List Str) : TWorld :=
  { w with caches := fun t' => if t' = t then c else w.caches t' }

/-- is a process with tracker `t` running? (the tracker's pipe is open) -/
def TWorld.holds (w : TWorld) (t : Nat) : Bool :=
  w.seen.any fun q => ((w.procs q).map fun r => r.tracker == t).getD false

/-- process `p` is as given from now on -/
def TWorld.withProc (w : TWorld) (p : Nat) (pr : Option TProc) : TWorld :=
  { w with procs := fun q => if q = p then pr else w.procs q }

/-- the next state of the system; events of processes that are not running have no effect -/
def TEvent.step (E : Env) (w : TWorld) : TEvent → TWorld
  | .start p t inh =>
    if p ∈ w.seen then w
    else { w.withProc p (some ⟨t, inh⟩) with seen := p :: w.seen }
  | .deactivate p => w.withProc p ((w.procs p).map (Model.deactivate false))
  | .act p o => match w.procs p with
    | none => w
    | some pr =>
      { w.withCache pr.tracker (trackedStep E pr o (w.store, w.caches pr.tracker)).2.2 with
        store := (trackedStep E pr o (w.store, w.caches pr.tracker)).2.1 }
  | .exit p => match w.procs p with
    | none => w
    | some pr =>
      if (w.withProc p none).holds pr.tracker then w.withProc p none
      else { (w.withProc p none).withCache pr.tracker [] with
        store := trackerCleanup (w.caches pr.tracker) w.store }

/-- a history -/
def TWorld.after (E : Env) (w : TWorld) (evs : List TEvent) : TWorld := evs.foldl (TEvent.step E) w

/-- no process has run yet -/
def TWorld.fresh (s : Store) : TWorld := { store := s, caches := fun _ => [], procs := fun _ => none, seen := [] }

/-- a program of process `p`, run while the other processes rest -/
def TWorld.perform {α : Type} (E : Env) (w : TWorld) (p : Nat) (prog : Prog α) : Option (Outcome α × TWorld) :=
  (w.procs p).map fun pr =>
    ((prog.runIn E pr (w.store, w.caches pr.tracker)).1,
      { w.withCache pr.tracker (prog.runIn E pr (w.store, w.caches pr.tracker)).2.2 with
        store := (prog.runIn E pr (w.store, w.caches pr.tracker)).2.1 })

end Verif.Model
