import Verif.Model.CompTrack
/-!
# composition.py: steps that edit the Composition they are in

A step may hold a reference to its own Composition, and call `add_step`, `add_send`, `add_insert`, `add_captures`, `track` or
`reindex` on it when it is called. What it does is given by a plan: for a step and the state it is called with, a list of
edits, done before the step returns or raises. The loop of `itercall` goes over the keys of the mapping of steps that was there at
the beginning: each turn looks whether that mapping has as many keys as it had then (Objects/dictobject.c:
`dictiter_iternextkey`), and raises `RuntimeError` if not, even if no key is left; `reindex` puts another mapping in place, and the
old one is not changed from then on. Steps that run their own Composition are not modelled (`CompEdit.run` in a plan stands
for a run in which no step edits).
-/
namespace Verif.Model
open Verif
variable {V X : Type}

/-- what a step does to its own Composition when it is called with a state -/
abbrev SelfPlan (V X : Type) := Step V X → V → List (CompEdit V X)

/-- the number of keys of the mapping that is iterated over, if it has been replaced -/
def lostBy [PyNone V] (cw : Comp V X × World V X) (lost : Option Nat) : List (CompEdit V X) → Option Nat
  | [] => lost
  | .reindex :: t => lostBy (editComp cw .reindex) (some (lost.getD cw.1.steps.length)) t
  | e :: t => lostBy (editComp cw e) lost t

/-- composition.py:230-234 `_do_step`, with what the step does to the Composition: `step` and `insert` have been looked up before
(218), sends are looked up after (111) -/
def selfDo [PyNone V] (plan : SelfPlan V X) (c : Comp V X) (n : Name) (s : Step V X) (state : V) (w : World V X) :
    Except PyErr V × Comp V X × World V X :=
  match callStep c n s state w with
  | (.error e, w') => (.error e, editsComp (plan s state) (c, w'))
  | (.ok v, w') => match editsComp (plan s state) (c, w') with
    | (c1, w1) => match performSends c1 n v w1 with
      | (.ok (), c2, w2) => (.ok v, c2, w2)
      | (.error e, c2, w2) => (.error e, c2, w2)

/-- composition.py:238-241, the loop: number of keys at the beginning, that of the mapping if it has been replaced, names to
come -/
def selfIter [PyNone V] (plan : SelfPlan V X) (size : Nat) (lost : Option Nat) (c : Comp V X) (state : V) :
    List Name → World V X → List V × Option PyErr × Comp V X × World V X
  | [], w => if lost.getD c.steps.length ≠ size then ([], some .runtimeError, c, w) else ([], none, c, w)
  | n :: t, w =>
    if lost.getD c.steps.length ≠ size then ([], some .runtimeError, c, w)          -- dictionary changed size
    else match c.steps.get? n with                                                  -- 218
      | none => ([], some .keyError, c, w)
      | some s => match selfDo plan c n s state w with                              -- 240
        | (.error e, c', w') => ([], some e, c', w')
        | (.ok v, c', w') =>
          match selfIter plan size (lostBy (c, (callStep c n s state w).2) lost (plan s state)) c' v t w' with
          | (outs, r) => (v :: outs, r)

/-- composition.py:243-260 `execute`: tracker, steps and `optional` are those at the end -/
def selfExecute [PyNone V] (plan : SelfPlan V X) (c : Comp V X) (signal : V) (w : World V X) : Except PyErr V × Comp V X × World V X :=
  match selfIter plan c.steps.length none c signal c.steps.keys w with
  | (outs, none, c', w') => (.ok (outs.getLast?.getD PyNone.none), c', w')          -- 248-251
  | (outs, some e, c', w') =>
    if (fromGenerator e).isException then                                           -- 252
      match c'.tracker, c'.steps[outs.length]? with                                 -- 253-257
      | none, _ => (if c'.optional then .ok PyNone.none else .error (fromGenerator e), c', w')
      | some _, none => (.error .indexError, c', w')
      | some t, some (_, s) => match t { target := s.ident, failure := some (fromGenerator e) } w' with
        | (.ok (), w'') => (if c'.optional then .ok PyNone.none else .error (fromGenerator e), c', w'')
        | (.error e', w'') => (.error e', c', w'')
    else (.error e, c', w')

end Verif.Model
