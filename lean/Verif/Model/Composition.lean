import Verif.Py.Dict
import Verif.Py.Err
import Verif.Py.Str
import Verif.Model.Structures
/-!
# composition.py: Composition

Values passed along a pipeline form an abstract type `V` with a `None`. The functions of a pipeline may have side effects:
they act on a world holding the mutable lists and dicts that sends may write to, the tracker's log, and anything else
(`ext`). Not modelled: functions that change the Composition while it runs, `booleans` as argument positions
(they are the integers 0 and 1), slices as pointers, special runtime keywords (which the base class ignores, 264-271). Dicts and lists
shared between a Composition and its maker (`enumerate_as_mapping` does not copy mappings, composition.py:40-45) are in
`Model/CompHeap.lean`.
-/
namespace Verif.Model
open Verif

/-- a hashable: the name of a step, the key of an insert, the pointer of a send -/
inductive Name where
  | int (n : Int)
  | str (s : Str)
  | none
  | other (n : Nat)
  deriving DecidableEq

/-- a type of values containing Python's `None` -/
class PyNone (V : Type) where
  none : V

/-- what a tracker notes: the step (by number), the name it was filed under, the exception -/
structure TrackRec where
  target : Nat
  step : Option Name := .none
  failure : Option PyErr := .none
  deriving DecidableEq

/-- everything a function may change -/
structure World (V X : Type) where
  lists : Nat → List V
  nextList : Nat
  dicts : Nat → Dict Name V
  log : List TrackRec
  ext : X

/-- something that happens in the world, and gives a value or raises -/
abbrev Act (V X α : Type) := World V X → Except PyErr α × World V X

/-- a callable: positional arguments, keyword arguments -/
abbrev Fn (V X : Type) := List V → Dict Str V → Act V X V

/-- a step: a callable, which may also have the attributes `func`, `args`, `keywords` (as `functools.partial` objects do).
`ident` identifies the object. -/
structure Step (V X : Type) where
  ident : Nat
  call : Fn V X
  func : Option (Fn V X) := .none
  args : Option (List V) := .none
  keywords : Option (Dict Str V) := .none

/-- `functools.partial(f, *args, **keywords)` -/
def partialStep {V X : Type} (ident : Nat) (f : Fn V X) (args : List V) (keywords : Dict Str V) : Step V X where
  ident := ident
  call := fun a k => f (args ++ a) (keywords.update k)
  func := some f
  args := some args
  keywords := some keywords

/-- where a send goes: a step by its name (a string or an integer), a list, a dict, something with `write`, or an object
that is none of these -/
inductive Target (V X : Type) where
  | stepInt (n : Int)
  | stepStr (s : Str)
  | list (id : Nat)
  | dict (id : Nat)
  | writer (write : V → Act V X Unit)
  | inert

/-- the step a send goes to -/
def Target.step? {V X : Type} : Target V X → Option Name
  | .stepInt n => some (.int n)
  | .stepStr s => some (.str s)
  | _ => .none

/-- a send: `(pipe, target, pointer)` -/
structure Send (V X : Type) where
  pipe : Option (V → Act V X V)
  target : Option (Target V X)
  pointer : Name

/-- a Composition -/
structure Comp (V X : Type) where
  steps : Dict Name (Step V X)
  sends : Dict Name (List (Send V X)) := []
  inserts : Dict Name (Dict Name V) := []
  tracker : Option (TrackRec → Act V X Unit) := .none
  optional : Bool := false
  captures : Option (Dict Name Nat) := .none

variable {V X : Type}

/-- tracker.py:46-63 `Tracker.track`, as far as a Composition goes: a record is appended -/
def logTracker : TrackRec → Act V X Unit := fun r w => (.ok (), { w with log := w.log ++ [r] })

/-- tracker.py:14-15 `TrivialTracker.track` -/
def trivialTracker : TrackRec → Act V X Unit := fun _ w => (.ok (), w)

/-- composition.py:139-159 `add_send` -/
def addSend (c : Comp V X) (name : Name) (sd : Send V X) : Except PyErr (Comp V X) :=
  if sd.target.isNone && sd.pipe.isNone then .error .valueError                    -- 154-156
  else .ok { c with sends := c.sends.set name ((c.sends.get? name).getD [] ++ [sd]) }   -- 157-159

/-- composition.py:161-177 `add_insert` -/
def addInsert (c : Comp V X) (name key : Name) (value : V) : Comp V X :=
  { c with inserts := c.inserts.set name (((c.inserts.get? name).getD []).set key value) }

/-- composition.py:290-295 `_track_factory` -/
def trackPipe [PyNone V] (t : TrackRec → Act V X Unit) (name : Name) (step : Step V X) : V → Act V X V := fun _ w =>
  match t { target := step.ident, step := some name } w with
  | (.ok (), w') => (.ok PyNone.none, w')
  | (.error e, w') => (.error e, w')

/-- composition.py:77-83 `_add_track_send`, for a step that is there -/
def addTrackSend [PyNone V] (c : Comp V X) (name : Name) (step : Step V X) : Comp V X :=
  match c.tracker with
  | .none => c                                                                      -- 78-79
  | some t => match addSend c name { pipe := some (trackPipe t name step), target := .none, pointer := .none } with
    | .ok c' => c'
    | .error _ => c

/-- composition.py:73-75 `_add_track_sends` -/
def addTrackSends [PyNone V] (c : Comp V X) : Dict Name (Step V X) → Comp V X
  | [] => c
  | (n, s) :: t => addTrackSends (addTrackSend c n s) t

/-- `cytoolz.identity` -/
def identityStep (ident : Nat) : Step V X where
  ident := ident
  call := fun args kw w => match args, kw with
    | [v], [] => (.ok v, w)
    | _, _ => (.error .typeError, w)

/-- `steps=None` is one step, `identity` (38-39) -/
def stepsOrIdentity (ident : Nat) : SeqOrMap Name (Step V X) → SeqOrMap Name (Step V X)
  | .none => .iterable [identityStep ident]
  | s => s

/-- composition.py:21-49 `__init__` -/
def compInit [PyNone V] (steps : SeqOrMap Name (Step V X)) (sends : Dict Name (List (Send V X)))
    (inserts : Dict Name (Dict Name V)) (tracker : Option (TrackRec → Act V X Unit)) (optional : Bool) : Comp V X :=
  let c : Comp V X := { steps := enumerateAsMapping (fun n => .int n) (stepsOrIdentity 0 steps), sends, inserts, tracker, optional }
  addTrackSends c c.steps

/-- composition.py:62-71 `add_step` -/
def addStep [PyNone V] (c : Comp V X) (step : Step V X) (name : Option Name := .none) : Comp V X :=
  let n := name.getD (.int (c.steps.length + 1))                                    -- 68-69
  addTrackSend { c with steps := c.steps.set n step } n step                        -- 70-71

/-- composition.py:85-86 `reindex` -/
def reindex (c : Comp V X) : Comp V X :=
  { c with steps := (reindexMapping c.steps).map fun p => (.int p.1, p.2) }

/-- `target[pointer] = thing` for a list -/
def listSet (l : List V) (pointer : Name) (thing : V) : Except PyErr (List V) :=
  match pointer with
  | .int i =>
    if 0 ≤ i ∧ i < l.length then .ok (l.set i.toNat thing)
    else if i < 0 ∧ 0 ≤ i + l.length then .ok (l.set (i + l.length).toNat thing)
    else .error .indexError
  | _ => .error .typeError

/-- composition.py:183-194 `place_into` -/
def placeInto (c : Comp V X) (thing : V) (target : Target V X) (pointer : Name) (w : World V X) :
    Except PyErr Unit × Comp V X × World V X :=
  match target with
  | .stepInt n => (.ok (), addInsert c (.int n) pointer thing, w)                   -- 184-185
  | .stepStr s => (.ok (), addInsert c (.str s) pointer thing, w)
  | .list id => match pointer with
    | .none => (.ok (), c, { w with lists := fun i => if i = id then w.lists i ++ [thing] else w.lists i })   -- 187-188
    | p => match listSet (w.lists id) p thing with                                  -- 190
      | .ok l => (.ok (), c, { w with lists := fun i => if i = id then l else w.lists i })
      | .error e => (.error e, c, w)
  | .dict id =>                                                                     -- 191-192
    (.ok (), c, { w with dicts := fun i => if i = id then (w.dicts i).set pointer thing else w.dicts i })
  | .writer f => ((f thing w).1, c, (f thing w).2)                                  -- 193-194
  | .inert => (.ok (), c, w)

/-- one turn of the loop 113-121 -/
def performSend (c : Comp V X) (state : V) (sd : Send V X) (w : World V X) : Except PyErr Unit × Comp V X × World V X :=
  match sd.target, sd.pipe with
  | .none, .none => (.ok (), c, w)                                                  -- 115-116
  | .none, some p => match p state w with                                           -- 117
    | (.ok _, w') => (.ok (), c, w')
    | (.error e, w') => (.error e, c, w')
  | some t, .none => placeInto c state t sd.pointer w                               -- 118-119
  | some t, some p => match p state w with                                          -- 120-121
    | (.ok y, w') => placeInto c y t sd.pointer w'
    | (.error e, w') => (.error e, c, w')

/-- the loop 113-121 -/
def performSendList (c : Comp V X) (state : V) : List (Send V X) → World V X → Except PyErr Unit × Comp V X × World V X
  | [], w => (.ok (), c, w)
  | sd :: t, w => match performSend c state sd w with
    | (.ok (), c', w') => performSendList c' state t w'
    | (.error e, c', w') => (.error e, c', w')

/-- composition.py:104-121 `_perform_sends` -/
def performSends (c : Comp V X) (name : Name) (state : V) (w : World V X) : Except PyErr Unit × Comp V X × World V X :=
  performSendList c state ((c.sends.get? name).getD []) w

/-- the search of 200-202 from `n` on -/
def openFrom (args : Dict Int V) (n : Nat) : Nat → Nat
  | 0 => n
  | fuel + 1 => if (args.get? (n : Int)).isSome then openFrom args (n + 1) fuel else n

/-- the first open position (one of `0 … len(args)` is) -/
def opening (args : Dict Int V) : Nat := openFrom args 0 args.length

/-- insertion into a sorted list -/
def insertInt (x : Int) : List Int → List Int
  | [] => [x]
  | y :: t => if x ≤ y then x :: y :: t else y :: insertInt x t

/-- `sorted` of integers -/
def sortInts : List Int → List Int
  | [] => []
  | x :: t => insertInt x (sortInts t)

/-- composition.py:197-204 `_flow_signal` -/
def flowSignal (state : V) (args : Dict Int V) : List V :=
  let a := args.set (opening args : Int) state
  (sortInts a.keys).filterMap a.get?

/-- `keyfilter(lambda k: isinstance(k, int), insert)` (222) -/
def intArgs : Dict Name V → Dict Int V
  | [] => []
  | (.int n, v) :: t => (n, v) :: intArgs t
  | _ :: t => intArgs t

/-- `keyfilter(lambda k: isinstance(k, str), insert)` (223) -/
def strArgs : Dict Name V → Dict Str V
  | [] => []
  | (.str s, v) :: t => (s, v) :: strArgs t
  | _ :: t => strArgs t

/-- `enumerate_as_mapping(step.args)` (210) -/
def enumArgs (l : List V) : Dict Int V := l.mapIdx fun i v => ((i : Int), v)

/-- `f(state, **kwargs)` or `f(*self._flow_signal(state, args), **kwargs)` (213-215, 226-228) -/
def callWith (f : Fn V X) (state : V) (args : Dict Int V) (kwargs : Dict Str V) : Act V X V :=
  if args.length = 0 then f [state] kwargs else f (flowSignal state args) kwargs

/-- inserts over baked positional arguments (209-210) -/
def overArgs (step : Step V X) (args : Dict Int V) : Dict Int V :=
  match step.args with | some a => (enumArgs a).update args | .none => args

/-- inserts over baked keywords (211-212) -/
def overKeywords (step : Step V X) (kwargs : Dict Str V) : Dict Str V :=
  match step.keywords with | some k => k.update kwargs | .none => kwargs

/-- composition.py:206-215 `_call_partial_step` -/
def callPartialStep (f : Fn V X) (step : Step V X) (state : V) (args : Dict Int V) (kwargs : Dict Str V) : Act V X V :=
  callWith f state (overArgs step args) (overKeywords step kwargs)

/-- composition.py:217-228 `call_step`, for a step that is there -/
def callStep (c : Comp V X) (name : Name) (step : Step V X) (state : V) : Act V X V :=
  let insert := (c.inserts.get? name).getD []
  match step.func with
  | some f => callPartialStep f step state (intArgs insert) (strArgs insert)        -- 224-225
  | .none => callWith step.call state (intArgs insert) (strArgs insert)             -- 226-228

/-- composition.py:230-234 `_do_step` -/
def doStep (c : Comp V X) (name : Name) (step : Step V X) (state : V) (w : World V X) :
    Except PyErr V × Comp V X × World V X :=
  match callStep c name step state w with
  | (.error e, w') => (.error e, c, w')
  | (.ok v, w') => match performSends c name v w' with
    | (.ok (), c', w'') => (.ok v, c', w'')
    | (.error e, c', w'') => (.error e, c', w'')

/-- composition.py:236-241 `itercall`, run to its end: the states it yields, and the exception that ends it, if one does -/
def iterSteps (c : Comp V X) (state : V) : Dict Name (Step V X) → World V X → List V × Option PyErr × Comp V X × World V X
  | [], w => ([], .none, c, w)
  | (n, s) :: t, w => match doStep c n s state w with
    | (.error e, c', w') => ([], some e, c', w')
    | (.ok v, c', w') => match iterSteps c' v t w' with
      | (outs, r) => (v :: outs, r)

/-- composition.py:236-241 `itercall` -/
def itercall (c : Comp V X) (signal : V) (w : World V X) : List V × Option PyErr × Comp V X × World V X :=
  iterSteps c signal c.steps w

/-- an exception leaving a generator: `StopIteration` becomes `RuntimeError` (PEP 479) -/
def fromGenerator : PyErr → PyErr
  | .stopIteration => .runtimeError
  | e => e

/-- composition.py:243-260 `execute` -/
def execute [PyNone V] (c : Comp V X) (signal : V) (w : World V X) : Except PyErr V × Comp V X × World V X :=
  match itercall c signal w with
  | (outs, .none, c', w') => (.ok (outs.getLast?.getD PyNone.none), c', w')         -- 248-251
  | (outs, some e, c', w') =>
    if (fromGenerator e).isException then                                           -- 252
      let finish : Except PyErr V := if c.optional then .ok PyNone.none else .error (fromGenerator e)   -- 258-260
      match c.tracker, c.steps[outs.length]? with                                   -- 253-257
      | .none, _ => (finish, c', w')
      | some _, .none => (.error .indexError, c', w')
      | some t, some (_, s) => match t { target := s.ident, failure := some (fromGenerator e) } w' with
        | (.ok (), w'') => (finish, c', w'')
        | (.error e', w'') => (.error e', c', w'')
    else (.error e, c', w')

/-- composition.py:129-137 `add_capture` of a new list -/
def addCapture [PyNone V] (c : Comp V X) (name : Name) (w : World V X) : Comp V X × World V X :=
  let w' : World V X := { w with
    lists := fun i => if i = w.nextList then [PyNone.none] else w.lists i
    nextList := w.nextList + 1 }
  match addSend c name { pipe := .none, target := some (.list w.nextList), pointer := .int 0 } with
  | .ok c' => (c', w')
  | .error _ => (c, w')

/-- the loop of `add_captures`; the names and lists so far -/
def addCapturesLoop [PyNone V] (c : Comp V X) : List Name → Dict Name Nat → World V X → Comp V X × World V X
  | [], caps, w => ({ c with captures := some caps }, w)
  | n :: t, caps, w =>
    let r := addCapture c n w
    addCapturesLoop r.1 t (caps ++ [(n, w.nextList)]) r.2

/-- composition.py:123-127 `add_captures` -/
def addCaptures [PyNone V] (c : Comp V X) (w : World V X) : Comp V X × World V X :=
  addCapturesLoop c c.steps.keys [] w

end Verif.Model
