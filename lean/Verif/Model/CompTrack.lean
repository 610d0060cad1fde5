import Verif.Model.Composition
/-!
# composition.py: tracking a Composition that is edited

What is done to a Composition between runs. `track()` (51-55) gives it a `Tracker` if it has none; the tracker's records go
to the log of the world.
-/
namespace Verif.Model
open Verif
variable {V X : Type}

/-- composition.py:51-55 `track` -/
def trackOn [PyNone V] (c : Comp V X) : Comp V X :=
  match c.tracker with
  | some _ => c                                                                     -- 52-53
  | .none => addTrackSends { c with tracker := some logTracker } c.steps            -- 54-55

/-- what may be done to a Composition -/
inductive CompEdit (V X : Type) where
  | addStep (s : Step V X) (name : Option Name)
  | addSend (name : Name) (sd : Send V X)
  | addInsert (name key : Name) (value : V)
  | reindex
  | track
  | captures
  | run (signal : V)

/-- doing it; what a run returns or raises is put aside, and so is the `ValueError` of a send to nowhere -/
def editComp [PyNone V] (cw : Comp V X × World V X) : CompEdit V X → Comp V X × World V X
  | .addStep s name => (addStep cw.1 s name, cw.2)
  | .addSend name sd => match addSend cw.1 name sd with
    | .ok c => (c, cw.2)
    | .error _ => cw
  | .addInsert name key value => (addInsert cw.1 name key value, cw.2)
  | .reindex => (reindex cw.1, cw.2)
  | .track => (trackOn cw.1, cw.2)
  | .captures => addCaptures cw.1 cw.2
  | .run v => (execute cw.1 v cw.2).2

/-- one after another -/
def editsComp [PyNone V] (edits : List (CompEdit V X)) (cw : Comp V X × World V X) : Comp V X × World V X := edits.foldl editComp cw

end Verif.Model
