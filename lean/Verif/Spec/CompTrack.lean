import Verif.Model.CompTrack
/-!
# What is noted of the steps of a Composition

A filing: the steps and their functions in order, whether the Composition has a tracker, and for each name the functions
that have been filed under it.
-/
namespace Verif.Spec
open Verif Verif.Model
variable {V X : Type}

structure Filing where
  steps : Dict Name Nat
  on : Bool
  filed : Name → List Nat

/-- a function is filed under a name, if there is a tracker -/
def Filing.file (F : Filing) (n : Name) (i : Nat) : Filing :=
  if F.on then { F with filed := fun m => if m = n then F.filed m ++ [i] else F.filed m } else F

/-- all steps are filed -/
def Filing.fileAll (F : Filing) (l : Dict Name Nat) : Filing := l.foldl (fun G p => G.file p.1 p.2) F

/-- a new Composition -/
def Filing.start (steps : Dict Name Nat) (on : Bool) : Filing := Filing.fileAll { steps, on, filed := fun _ => [] } steps

/-- the name of a step that is added -/
def Filing.nameFor (F : Filing) (name : Option Name) : Name := name.getD (.int (F.steps.length + 1))

/-- an edit -/
def Filing.edit (F : Filing) : CompEdit V X → Filing
  | .addStep s name => Filing.file { F with steps := F.steps.set (F.nameFor name) s.ident } (F.nameFor name) s.ident
  | .reindex => { F with steps := F.steps.mapIdx fun i p => (.int i, p.2) }
  | .track => if F.on then F else Filing.fileAll { F with on := true } F.steps
  | _ => F

/-- edits one after another -/
def Filing.edits (F : Filing) (es : List (CompEdit V X)) : Filing := es.foldl Filing.edit F

/-- the records made of a step when it has run -/
def Filing.records (F : Filing) (n : Name) : List TrackRec := (F.filed n).map fun i => { target := i, step := some n }

/-- a function that writes nothing to the log -/
def QuietFn (f : Fn V X) : Prop := ∀ args kw w, (f args kw w).2.log = w.log

/-- a step that writes nothing to the log -/
def QuietStep (s : Step V X) : Prop := QuietFn s.call ∧ ∀ f, s.func = some f → QuietFn f

/-- a send that writes nothing to the log -/
def QuietSend (sd : Send V X) : Prop :=
  (∀ p, sd.pipe = some p → ∀ v w, (p v w).2.log = w.log) ∧
    ∀ f, sd.target = some (.writer f) → ∀ v w, (f v w).2.log = w.log

/-- an edit that brings in nothing that writes to the log -/
def QuietEdit : CompEdit V X → Prop
  | .addStep s _ => QuietStep s
  | .addSend _ sd => QuietSend sd
  | _ => True

/-- an edit that adds a step under a new name, if it adds one, and does not rename steps -/
def Filing.Careful (F : Filing) : CompEdit V X → Prop
  | .addStep _ name => F.nameFor name ∉ F.steps.keys
  | .reindex => False
  | _ => True

/-- all edits are careful when they are made -/
def Filing.AllCareful : Filing → List (CompEdit V X) → Prop
  | _, [] => True
  | F, e :: es => F.Careful e ∧ (F.edit e).AllCareful es

end Verif.Spec
