import Verif.Model.Notepad
import Verif.Model.Clients
/-!
# Clients of a GridPaper

Not part of /repo: the programs of processes that use one `GridPaper` (implements.py:819-925), as sequences of calls, each
chosen from the outcomes of the earlier ones. `del` is not among the calls: on a GridPaper with a lock it never returns
(`MetaTagIndex.__delitem__` enters the lock of the index twice, implements.py:584-586), see C56.
-/
namespace Verif.Model
open Verif

/-- calls on a GridPaper -/
inductive GpCall where
  | get (key : Key)                                  -- `gp[key]`
  | set (key : Key) (a : Arr)                        -- `gp[key] = a`
  | keys                                             -- `gp.update_index()`, `gp.keys()`

/-- what they give -/
inductive GpOut where
  | val (a : Arr)
  | done
  | keys (l : List Str)

/-- the call -/
def GpCall.run (E : Env) (c : Codec ArrMeta) (nbytes : Str → List Nat → Nat) (g : Grid) : GpCall → Prog GpOut
  | .get k => (gridGet E c nbytes g k).bind fun a => .ret (.val a)
  | .set k a => (gridSet E c g k a true).bind fun _ => .ret .done
  | .keys => (indexUpdate E g.index).bind fun l => .ret (.keys l)

/-- a process that uses a GridPaper: each call is chosen from the outcomes of the earlier ones (exceptions included: they
may be caught); it ends with a result or an exception of its own -/
inductive GpScript (ρ : Type) where
  | ret (r : ρ)
  | raise (e : PyErr)
  | call (o : GpCall) (k : Except PyErr GpOut → GpScript ρ)

variable {ρ : Type}

/-- its program; an `OverflowError`, as of the lock (implements.py:237), ends it -/
def GpScript.run (E : Env) (c : Codec ArrMeta) (nbytes : Str → List Nat → Nat) (g : Grid) : GpScript ρ → Prog ρ
  | .ret r => .ret r
  | .raise e => .raise e
  | .call o k => (o.run E c nbytes g).attempt.bind (afterCall fun r => (k r).run E c nbytes g)

/-- the script makes these calls with these outcomes, and ends with this result -/
def GpScript.Follows : GpScript ρ → List (GpCall × Except PyErr GpOut) → ρ → Prop
  | .ret r, [], r' => r = r'
  | .call o k, (o', x) :: t, r => o = o' ∧ (k x).Follows t r
  | _, _, _ => False

/-- every key that the script may read is one that `rd` allows, and every array that it may set is one that `wr` allows
there; it may list the keys -/
def GpScript.Uses (rd : Key → Prop) (wr : Key → Arr → Prop) : GpScript ρ → Prop
  | .ret _ => True
  | .raise _ => True
  | .call (.get key) k => rd key ∧ ∀ r, (k r).Uses rd wr
  | .call (.set key a) k => wr key a ∧ ∀ r, (k r).Uses rd wr
  | .call .keys k => ∀ r, (k r).Uses rd wr

end Verif.Model
