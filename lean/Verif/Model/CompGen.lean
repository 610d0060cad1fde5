import Verif.Model.CompTrack
/-!
# composition.py: a Composition that is iterated over and edited between outputs

`itercall` is a generator function (235-241): nothing happens until the first `next`; then an iterator over the keys of the
mapping of steps is made (Objects/dictobject.c: `dictiter_iternextkey`). Each further `next` looks whether the mapping has
as many keys as it had then, and raises `RuntimeError` if not, even if no key is left. Keys are never removed by methods of
Composition, and setting a key that is there does not move it, so the keys that come are those at the first `next`.
`reindex` puts another mapping in place; the iterator stays with the old one, which nobody changes from then on (code that
has kept `composition.steps` could; it is not modelled), while `call_step` looks names up in the new one. Steps and sends
that edit the Composition they are in are not modelled.
-/
namespace Verif.Model
open Verif
variable {V X : Type}

/-- what `itercall` returns -/
inductive CompGen (V : Type) where
  /-- `next` has not been called -/
  | fresh (signal : V)
  /-- number of keys at the first `next`; number of keys the mapping had when it was replaced, if it has been; names to come;
  the last output -/
  | running (size : Nat) (lost : Option Nat) (rest : List Name) (state : V)
  /-- it has returned or raised -/
  | over

/-- what `next` gives -/
inductive GenOut (V : Type) where
  | yields (v : V)
  | stops
  | raises (e : PyErr)

/-- `next` of a generator that has begun: the loop of composition.py:238-241 from one `yield` to the next -/
def genResume (size : Nat) (lost : Option Nat) (rest : List Name) (state : V) (c : Comp V X) (w : World V X) :
    GenOut V × CompGen V × Comp V X × World V X :=
  if lost.getD c.steps.length ≠ size then (.raises .runtimeError, .over, c, w)      -- dictionary changed size
  else match rest with
    | [] => (.stops, .over, c, w)
    | n :: t => match c.steps.get? n with                                           -- 214
      | none => (.raises .keyError, .over, c, w)
      | some s => match doStep c n s state w with                                   -- 240
        | (.ok y, c', w') => (.yields y, .running size lost t y, c', w')            -- 241
        | (.error e, c', w') => (.raises (fromGenerator e), .over, c', w')

/-- `next` -/
def genNext (g : CompGen V) (c : Comp V X) (w : World V X) : GenOut V × CompGen V × Comp V X × World V X :=
  match g with
  | .fresh v => genResume c.steps.length none c.steps.keys v c w                    -- 235-239
  | .running size lost rest state => genResume size lost rest state c w
  | .over => (.stops, .over, c, w)

/-- `reindex` as seen by a generator: it keeps the mapping that was there -/
def CompGen.lose (size : Nat) : CompGen V → CompGen V
  | .running s none rest state => .running s (some size) rest state
  | g => g

/-- a Composition and the generators made from it -/
structure GenState (V X : Type) where
  comp : Comp V X
  world : World V X
  gens : List (CompGen V)

/-- calling `itercall`, calling `next`, and editing -/
inductive GenOp (V X : Type) where
  | start (signal : V)
  | next (i : Nat)
  | edit (e : CompEdit V X)

/-- one of these; the output, for `next` -/
def genStep [PyNone V] (S : GenState V X) : GenOp V X → Option (GenOut V) × GenState V X
  | .start v => (none, { S with gens := S.gens ++ [.fresh v] })
  | .next i => match S.gens[i]? with
    | none => (none, S)
    | some g => match genNext g S.comp S.world with
      | (o, g', c, w) => (some o, ⟨c, w, S.gens.set i g'⟩)
  | .edit .reindex => (none, { S with comp := reindex S.comp, gens := S.gens.map (CompGen.lose S.comp.steps.length) })
  | .edit e => match editComp (S.comp, S.world) e with
    | (c, w) => (none, { S with comp := c, world := w })

/-- one after another, with the outputs -/
def genRun [PyNone V] : List (GenOp V X) → GenState V X → List (Option (GenOut V)) × GenState V X
  | [], S => ([], S)
  | op :: t, S => match genStep S op with
    | (o, S') => match genRun t S' with
      | (os, S'') => (o :: os, S'')

end Verif.Model
