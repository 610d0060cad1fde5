import Verif.Model.SharedLog
import Verif.Spec.Tracker
/-!
# Dumps to one file
-/
namespace Verif.Spec
open Verif Verif.Model

/-- the processes work one after the other -/
def Serial (sched : List (Nat × Nat)) : Prop := sched.Pairwise fun a b => a.1 ≤ b.1

/-- all have ended, none by an exception -/
def AllDone (w : LogWorld) : Prop := ∀ p ∈ w.procs, p.2 = .finished (.ok ())

/-- all have ended -/
def AllEnded (w : LogWorld) : Prop := ∀ p ∈ w.procs, ∃ r, p.2 = .finished r

/-- processes about to dump these documents -/
def dumping (docs : List (List UInt8)) : List (LogJob × LogPc) := docs.map fun d => (.dump (.ok d), .start)

end Verif.Spec
