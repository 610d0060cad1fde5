import Verif.Model.Clients
/-!
# Clients of a TagIndex that list its keys

Not part of /repo: the programs of processes that add keys to one `TagIndex`, remove them, and list them
(implements.py:391-395, which takes no lock), as sequences of calls, each chosen from the outcomes of the earlier ones.
-/
namespace Verif.Model
open Verif

/-- calls on a `TagIndex` -/
inductive LsCall where
  | op (o : KOp)                                     -- `index.add(key)`, `index.remove(key)`
  | keys                                             -- `index.update(); index.keys`

/-- what they give -/
inductive LsOut where
  | pos (n : Nat)
  | keys (l : List Str)

/-- the call -/
def LsCall.run (E : Env) (fuel : Nat) (ix : Index) : LsCall → Prog LsOut
  | .op o => (o.run E fuel ix).bind fun n => .ret (.pos n)
  | .keys => (indexUpdate E ix).bind fun l => .ret (.keys l)

/-- a process that uses an index: each call is chosen from the outcomes of the earlier ones (exceptions included: they
may be caught); it ends with a result or an exception of its own -/
inductive LsScript (ρ : Type) where
  | ret (r : ρ)
  | raise (e : PyErr)
  | call (o : LsCall) (k : Except PyErr LsOut → LsScript ρ)

variable {ρ : Type}

/-- its program; an `OverflowError`, as of the lock (implements.py:237), ends it -/
def LsScript.run (E : Env) (fuel : Nat) (ix : Index) : LsScript ρ → Prog ρ
  | .ret r => .ret r
  | .raise e => .raise e
  | .call o k => (o.run E fuel ix).attempt.bind (afterCall fun r => (k r).run E fuel ix)

/-- the script makes these calls with these outcomes, and ends with this result -/
def LsScript.Follows : LsScript ρ → List (LsCall × Except PyErr LsOut) → ρ → Prop
  | .ret r, [], r' => r = r'
  | .call o k, (o', x) :: t, r => o = o' ∧ (k x).Follows t r
  | _, _, _ => False

/-- every call that the script may make, but for listing the keys, is one that `ok` allows -/
def LsScript.Uses (ok : KOp → Prop) : LsScript ρ → Prop
  | .ret _ => True
  | .raise _ => True
  | .call (.op o) k => ok o ∧ ∀ r, (k r).Uses ok
  | .call .keys k => ∀ r, (k r).Uses ok

end Verif.Model
