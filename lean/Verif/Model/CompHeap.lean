import Verif.Model.Composition
/-!
# composition.py: Compositions as objects, and what they share

`Model/Composition.lean` has Compositions as values. Here their steps, sends and inserts are objects: `enumerate_as_mapping`
(structures.py:106-111) returns a mapping as it is, so a Composition and its maker, or several Compositions, may have them
in common (composition.py:40, 44-45). Not modelled: functions that change a Composition while one runs; a dict that is
both an insert and the target of a send.
-/
namespace Verif.Model
open Verif

/-- dicts (numbered) from names to mutable objects (numbered): `sends`, whose values are lists, and `inserts`, whose values
are dicts -/
structure Boxes (A : Type) where
  dicts : Nat → Dict Name Nat
  box : Nat → A
  nextDict : Nat
  nextBox : Nat

variable {A V X : Type}

/-- what a dict of objects shows -/
def Boxes.view (H : Boxes A) (d : Nat) : Dict Name A := (H.dicts d).map fun p => (p.1, H.box p.2)

/-- `if name not in d: d[name] = init`, then a change of the object `d[name]` (composition.py:157-159, 174-176) -/
def Boxes.touch (init : A) (g : A → A) (H : Boxes A) (d : Nat) (name : Name) : Boxes A :=
  match (H.dicts d).get? name with
  | some b => { H with box := fun i => if i = b then g (H.box b) else H.box i }
  | none => { H with
      dicts := fun i => if i = d then (H.dicts d).set name H.nextBox else H.dicts i
      box := fun i => if i = H.nextBox then g init else H.box i
      nextBox := H.nextBox + 1 }

/-- a new dict -/
def Boxes.alloc (H : Boxes A) (entries : Dict Name Nat) : Nat × Boxes A :=
  (H.nextDict, { H with dicts := fun i => if i = H.nextDict then entries else H.dicts i, nextDict := H.nextDict + 1 })

/-- the objects of Compositions -/
structure CHeap (V X : Type) where
  steps : Nat → Dict Name (Step V X)
  nextSteps : Nat
  sends : Boxes (List (Send V X))
  inserts : Boxes (Dict Name V)

/-- a Composition -/
structure CObj (V X : Type) where
  steps : Nat
  sends : Nat
  inserts : Nat
  tracker : Option (TrackRec → Act V X Unit) := .none
  optional : Bool := false

/-- the Composition as a value -/
def CHeap.view (h : CHeap V X) (o : CObj V X) : Comp V X :=
  { steps := h.steps o.steps, sends := h.sends.view o.sends, inserts := h.inserts.view o.inserts, tracker := o.tracker
    optional := o.optional }

/-- composition.py:139-159 `add_send` -/
def addSendH (h : CHeap V X) (o : CObj V X) (name : Name) (sd : Send V X) : Except PyErr (CHeap V X) :=
  if sd.target.isNone && sd.pipe.isNone then .error .valueError
  else .ok { h with sends := h.sends.touch [] (· ++ [sd]) o.sends name }

/-- composition.py:161-176 `add_insert` -/
def addInsertH (h : CHeap V X) (o : CObj V X) (name key : Name) (value : V) : CHeap V X :=
  { h with inserts := h.inserts.touch [] (fun d => d.set key value) o.inserts name }

/-- composition.py:77-83 `_add_track_send` -/
def addTrackSendH [PyNone V] (h : CHeap V X) (o : CObj V X) (name : Name) (step : Step V X) : CHeap V X :=
  match o.tracker with
  | .none => h
  | some t => match addSendH h o name { pipe := some (trackPipe t name step), target := .none, pointer := .none } with
    | .ok h' => h'
    | .error _ => h

/-- composition.py:73-75 `_add_track_sends` -/
def addTrackSendsH [PyNone V] (h : CHeap V X) (o : CObj V X) : Dict Name (Step V X) → CHeap V X
  | [] => h
  | (n, s) :: t => addTrackSendsH (addTrackSendH h o n s) o t

/-- composition.py:62-71 `add_step` -/
def addStepH [PyNone V] (h : CHeap V X) (o : CObj V X) (step : Step V X) (name : Option Name := .none) : CHeap V X :=
  let n := name.getD (.int ((h.steps o.steps).length + 1))
  addTrackSendH { h with steps := fun i => if i = o.steps then (h.steps o.steps).set n step else h.steps i } o n step

/-- composition.py:85-86 `reindex`: the steps go into a new dict -/
def reindexH (h : CHeap V X) (o : CObj V X) : CObj V X × CHeap V X :=
  ({ o with steps := h.nextSteps },
    { h with
      steps := fun i => if i = h.nextSteps then (reindexMapping (h.steps o.steps)).map fun p => (.int p.1, p.2) else h.steps i
      nextSteps := h.nextSteps + 1 })

/-- composition.py:183-194 `place_into`; targets other than steps have nothing to do with the Composition -/
def placeIntoH (h : CHeap V X) (o : CObj V X) (thing : V) (target : Target V X) (pointer : Name) (w : World V X) :
    Except PyErr Unit × CHeap V X × World V X :=
  match target.step? with
  | some b => (.ok (), addInsertH h o b pointer thing, w)
  | .none => match placeInto { steps := [] } thing target pointer w with
    | (r, _, w') => (r, h, w')

/-- one turn of the loop 113-121 -/
def performSendH (h : CHeap V X) (o : CObj V X) (state : V) (sd : Send V X) (w : World V X) :
    Except PyErr Unit × CHeap V X × World V X :=
  match sd.target, sd.pipe with
  | .none, .none => (.ok (), h, w)
  | .none, some p => match p state w with
    | (.ok _, w') => (.ok (), h, w')
    | (.error e, w') => (.error e, h, w')
  | some t, .none => placeIntoH h o state t sd.pointer w
  | some t, some p => match p state w with
    | (.ok y, w') => placeIntoH h o y t sd.pointer w'
    | (.error e, w') => (.error e, h, w')

/-- the loop 113-121 -/
def performSendListH (h : CHeap V X) (o : CObj V X) (state : V) : List (Send V X) → World V X →
    Except PyErr Unit × CHeap V X × World V X
  | [], w => (.ok (), h, w)
  | sd :: t, w => match performSendH h o state sd w with
    | (.ok (), h', w') => performSendListH h' o state t w'
    | (.error e, h', w') => (.error e, h', w')

/-- composition.py:217-234 `call_step` (which changes nothing of the Composition), `_perform_sends`, `_do_step` -/
def doStepH (h : CHeap V X) (o : CObj V X) (name : Name) (step : Step V X) (state : V) (w : World V X) :
    Except PyErr V × CHeap V X × World V X :=
  match callStep (h.view o) name step state w with
  | (.error e, w') => (.error e, h, w')
  | (.ok v, w') => match performSendListH h o v (((h.view o).sends.get? name).getD []) w' with
    | (.ok (), h', w'') => (.ok v, h', w'')
    | (.error e, h', w'') => (.error e, h', w'')

/-- composition.py:236-241 `itercall` -/
def iterStepsH (h : CHeap V X) (o : CObj V X) (state : V) : Dict Name (Step V X) → World V X →
    List V × Option PyErr × CHeap V X × World V X
  | [], w => ([], .none, h, w)
  | (n, s) :: t, w => match doStepH h o n s state w with
    | (.error e, h', w') => ([], some e, h', w')
    | (.ok v, h', w') => match iterStepsH h' o v t w' with
      | (outs, r) => (v :: outs, r)

/-- composition.py:243-260 `execute` -/
def executeH [PyNone V] (h : CHeap V X) (o : CObj V X) (signal : V) (w : World V X) : Except PyErr V × CHeap V X × World V X :=
  match iterStepsH h o signal (h.steps o.steps) w with
  | (outs, .none, h', w') => (.ok (outs.getLast?.getD PyNone.none), h', w')
  | (outs, some e, h', w') =>
    if (fromGenerator e).isException then
      let finish : Except PyErr V := if o.optional then .ok PyNone.none else .error (fromGenerator e)
      match o.tracker, (h.steps o.steps)[outs.length]? with
      | .none, _ => (finish, h', w')
      | some _, .none => (.error .indexError, h', w')
      | some t, some (_, s) => match t { target := s.ident, failure := some (fromGenerator e) } w' with
        | (.ok (), w'') => (finish, h', w'')
        | (.error e', w'') => (.error e', h', w'')
    else (.error e, h', w')

/-- an argument of `Composition(…)`: `None`, a mapping (an object), or a sequence of `B` -/
inductive ObjArg (B : Type) where
  | none
  | mapping (id : Nat)
  | sequence (l : List B)

/-- composition.py:44-45: `enumerate_as_mapping(sends)`, `enumerate_as_mapping(inserts)`: a mapping is taken as it is, the
objects in a sequence are taken as they are -/
def Boxes.take (H : Boxes A) : ObjArg Nat → Nat × Boxes A
  | .none => H.alloc []
  | .mapping id => (id, H)
  | .sequence l => H.alloc (l.zipIdx.map fun x => (.int x.2, x.1))

/-- composition.py:38-40: the steps -/
def takeSteps (h : CHeap V X) : ObjArg (Step V X) → Nat × CHeap V X
  | .mapping id => (id, h)
  | .none => (h.nextSteps, { h with
      steps := fun i => if i = h.nextSteps then enumerateAsMapping (fun n => .int n) (stepsOrIdentity 0 .none) else h.steps i
      nextSteps := h.nextSteps + 1 })
  | .sequence l => (h.nextSteps, { h with
      steps := fun i => if i = h.nextSteps then enumerateAsMapping (fun n => .int n) (.iterable l) else h.steps i
      nextSteps := h.nextSteps + 1 })

/-- composition.py:21-49 `Composition(steps, sends, inserts, tracker=…, optional=…)` -/
def makeComp [PyNone V] (h : CHeap V X) (steps : ObjArg (Step V X)) (sends inserts : ObjArg Nat)
    (tracker : Option (TrackRec → Act V X Unit)) (optional : Bool) : CObj V X × CHeap V X :=
  let s := takeSteps h steps
  let b := s.2.sends.take sends
  let i := s.2.inserts.take inserts
  let o : CObj V X := ⟨s.1, b.1, i.1, tracker, optional⟩
  let h' : CHeap V X := { s.2 with sends := b.2, inserts := i.2 }
  (o, addTrackSendsH h' o (h'.steps o.steps))

/-- what can be done with a Composition -/
inductive COp (V X : Type) where
  | addStep (step : Step V X) (name : Option Name)
  | addSend (name : Name) (sd : Send V X)
  | addInsert (name key : Name) (value : V)
  | reindex
  | run (signal : V)

/-- an operation on a Composition as a value -/
def compOp [PyNone V] (op : COp V X) (c : Comp V X) (w : World V X) : Except PyErr V × Comp V X × World V X :=
  match op with
  | .addStep s n => (.ok PyNone.none, addStep c s n, w)
  | .addSend n sd => match addSend c n sd with
    | .ok c' => (.ok PyNone.none, c', w)
    | .error e => (.error e, c, w)
  | .addInsert n k v => (.ok PyNone.none, addInsert c n k v, w)
  | .reindex => (.ok PyNone.none, reindex c, w)
  | .run v => execute c v w

/-- an operation on a Composition as an object -/
def objOp [PyNone V] (op : COp V X) (o : CObj V X) (h : CHeap V X) (w : World V X) :
    Except PyErr V × CObj V X × CHeap V X × World V X :=
  match op with
  | .addStep s n => (.ok PyNone.none, o, addStepH h o s n, w)
  | .addSend n sd => match addSendH h o n sd with
    | .ok h' => (.ok PyNone.none, o, h', w)
    | .error e => (.error e, o, h, w)
  | .addInsert n k v => (.ok PyNone.none, o, addInsertH h o n k v, w)
  | .reindex => (.ok PyNone.none, (reindexH h o).1, (reindexH h o).2, w)
  | .run v => match executeH h o v w with
    | (r, h', w') => (r, o, h', w')

variable {ι : Type} [DecidableEq ι]

/-- a history of operations on several Compositions as values: what each gave -/
def valuesRun [PyNone V] : (ι → Comp V X) → List (ι × COp V X) → World V X →
    List (Except PyErr V) × (ι → Comp V X) × World V X
  | cs, [], w => ([], cs, w)
  | cs, (i, op) :: t, w => match compOp op (cs i) w with
    | (r, c', w') => match valuesRun (fun j => if j = i then c' else cs j) t w' with
      | (rs, x) => (r :: rs, x)

/-- the same on Compositions as objects -/
def objectsRun [PyNone V] : (ι → CObj V X) → CHeap V X → List (ι × COp V X) → World V X →
    List (Except PyErr V) × (ι → CObj V X) × CHeap V X × World V X
  | os, h, [], w => ([], os, h, w)
  | os, h, (i, op) :: t, w => match objOp op (os i) h w with
    | (r, o', h', w') => match objectsRun (fun j => if j = i then o' else os j) h' t w' with
      | (rs, x) => (r :: rs, x)

end Verif.Model
