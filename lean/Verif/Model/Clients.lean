import Verif.Model.Index
/-!
# Clients of a lock

Not part of /repo: the programs of the users of `SlidingLock` (implements.py:154-249), as sequences of calls
`with SlidingLock(name): body` and of code outside the lock, each chosen from the results so far. Every exception is
handed on as a result, but for the `OverflowError` of the lock itself (implements.py:237), which ends the client.
-/
namespace Verif.Model
open Verif

/-- a client: `call` runs the body `c` under the lock, `free` runs code outside it; it may end with an
exception -/
inductive Cl (κ α β ρ : Type) where
  | ret (r : ρ)
  | raise (e : PyErr)
  | call (fuel : Nat) (c : κ) (k : Except PyErr α → Cl κ α β ρ)
  | free (p : Prog β) (k : Except PyErr β → Cl κ α β ρ)

/-- an `OverflowError` -/
def isOverflow {α : Type} : Except PyErr α → Bool
  | .error .overflowError => true
  | _ => false

/-- what follows a call -/
def afterCall {α ρ : Type} (f : Except PyErr α → Prog ρ) (r : Except PyErr α) : Prog ρ :=
  if isOverflow r then .raise .overflowError else f r

/-- the program of a client of the lock `name` -/
def Cl.prog {κ α β ρ : Type} (name : Str) (bodies : κ → Prog α) : Cl κ α β ρ → Prog ρ
  | .ret r => .ret r
  | .raise e => .raise e
  | .call fuel c k => (withLock (.sliding fuel) name (bodies c)).attempt.bind (afterCall fun r => (k r).prog name bodies)
  | .free p k => p.attempt.bind fun r => (k r).prog name bodies

end Verif.Model

namespace Verif.Model
open Verif

/-- calls on a `TagIndex`: `add(key, exists_ok)` (implements.py:413-438) and `remove(key)`, `del index[key]`
(implements.py:445-484) -/
inductive KOp where
  | add (key : Key) (existsOk : Bool)
  | del (key : Key)

def KOp.key : KOp → Key
  | .add k _ => k
  | .del k => k

/-- the call, with the position of the key as result -/
def KOp.run (E : Env) (fuel : Nat) (ix : Index) : KOp → Prog Nat
  | .add k eo => indexAdd E (.sliding fuel) ix k eo
  | .del k => (indexDel E (.sliding fuel) ix k).bind fun p => .ret p.1

/-- a process that uses an index: each call is chosen from the outcomes of the earlier ones (exceptions included: they
may be caught); it ends with a result or an exception of its own -/
inductive IxScript (ρ : Type) where
  | ret (r : ρ)
  | raise (e : PyErr)
  | call (o : KOp) (k : Except PyErr Nat → IxScript ρ)

/-- its program; an `OverflowError` of the lock (implements.py:237) ends it -/
def IxScript.prog {ρ : Type} (E : Env) (fuel : Nat) (ix : Index) : IxScript ρ → Prog ρ
  | .ret r => .ret r
  | .raise e => .raise e
  | .call o k => (o.run E fuel ix).attempt.bind (afterCall fun r => (k r).prog E fuel ix)

/-- the script makes these calls with these outcomes, and ends with this result -/
def IxScript.Follows {ρ : Type} : IxScript ρ → List (KOp × Except PyErr Nat) → ρ → Prop
  | .ret r, [], r' => r = r'
  | .call o k, (o', x) :: t, r => o = o' ∧ (k x).Follows t r
  | _, _, _ => False

/-- every call that the script may make -/
def IxScript.Uses {ρ : Type} (ok : KOp → Prop) : IxScript ρ → Prop
  | .ret _ => True
  | .raise _ => True
  | .call o k => ok o ∧ ∀ r, (k r).Uses ok

end Verif.Model
