import Verif.Model.Pool
/-!
# The progress of a `MaybePool`

`/repo/dustgoggles/structures.py`, lines 354-356, 425-446. Workers make results ready while the counters are being
computed: `ready t k` says whether the `AsyncResult` under the key `k` is ready at the time `t` (once it is, it stays so:
`multiprocessing.pool.AsyncResult` sets an event that nobody clears). A counter asks one result after the other; it is given
the times at which it asks.
-/
namespace Verif.Model
open Verif

variable {K V : Type} [DecidableEq K]

/-- `v.ready()` at a time: `MaybeResult` (354-356), `AsyncResult` -/
def Res.readyAt (ready : Nat → K → Bool) (t : Nat) (k : K) : Res K V → Bool
  | .inline _ => true
  | .async _ => ready t k
  | .chunk _ => ready t k

/-- structures.py:437-438 `results_ready()`; the times are those of the questions, in order -/
def Pool.resultsReady (ready : Nat → K → Bool) (p : Pool K V) (times : List Nat) : List (K × Bool) :=
  (p.results.zip times).map fun x => (x.1.1, x.1.2.readyAt ready x.2 x.1.1)

/-- structures.py:425-427 `n_ready` -/
def Pool.nReady (ready : Nat → K → Bool) (p : Pool K V) (times : List Nat) : Nat :=
  ((p.results.zip times).filter fun x => x.1.2.readyAt ready x.2 x.1.1).length

/-- structures.py:429-431 `n_results` -/
def Pool.nResults (p : Pool K V) : Nat := p.results.length

/-- structures.py:433-435 `n_running` -/
def Pool.nRunning (ready : Nat → K → Bool) (p : Pool K V) (times : List Nat) : Int :=
  (p.nResults : Int) - (p.nReady ready times : Int)

/-- structures.py:440-441 `ready()`: it stops asking at the first that is not ready -/
def Pool.allReady (ready : Nat → K → Bool) (p : Pool K V) (times : List Nat) : Bool :=
  (p.results.zip times).all fun x => x.1.2.readyAt ready x.2 x.1.1

/-- structures.py:443-446 `terminate` -/
def Pool.terminate (p : Pool K V) : Pool K V := { p with results := [] }

end Verif.Model
