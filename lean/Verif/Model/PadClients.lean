import Verif.Model.Notepad
/-!
# Clients of a notepad

Not part of /repo: the programs of processes that use one `Notepad` (implements.py:725-816), as sequences of calls, each
chosen from the outcomes of the earlier ones.
-/
namespace Verif.Model
open Verif

/-- calls on a notepad -/
inductive PadCall (V : Type) where
  | get (key : Key)                                  -- `np[key]`
  | set (key : Key) (v : V) (existsOk : Bool)        -- `np.set(key, v, exists_ok=existsOk)`
  | del (key : Key)                                  -- `del np[key]`
  | keys                                             -- `np.keys()`

/-- what they give -/
inductive PadOut (V : Type) where
  | val (v : V)
  | done
  | keys (l : Option (List Str))

variable {V ρ : Type}

/-- the call -/
def PadCall.run (E : Env) (c : Codec V) (isNone : V → Bool) (p : Pad) : PadCall V → Prog (PadOut V)
  | .get k => (padGet c isNone p k).bind fun v => .ret (.val v)
  | .set k v eo => (padSet E c p k v eo).bind fun _ => .ret .done
  | .del k => (padDel E p k).bind fun _ => .ret .done
  | .keys => (padKeys E p).bind fun l => .ret (.keys l)

/-- a process that uses a notepad: each call is chosen from the outcomes of the earlier ones (exceptions included: they
may be caught); it ends with a result or an exception of its own -/
inductive PadScript (V ρ : Type) where
  | ret (r : ρ)
  | raise (e : PyErr)
  | call (o : PadCall V) (k : Except PyErr (PadOut V) → PadScript V ρ)

/-- its program -/
def PadScript.prog (E : Env) (c : Codec V) (isNone : V → Bool) (p : Pad) : PadScript V ρ → Prog ρ
  | .ret r => .ret r
  | .raise e => .raise e
  | .call o k => (o.run E c isNone p).attempt.bind fun r => (k r).prog E c isNone p

/-- the script makes these calls with these outcomes, and ends with this result -/
def PadScript.Follows : PadScript V ρ → List (PadCall V × Except PyErr (PadOut V)) → ρ → Prop
  | .ret r, [], r' => r = r'
  | .call o k, (o', x) :: t, r => o = o' ∧ (k x).Follows t r
  | _, _, _ => False

/-- the keys a call names -/
def PadCall.On (own : Str → Prop) : PadCall V → Prop
  | .get k => own k.text
  | .set k _ _ => own k.text
  | .del k => own k.text
  | .keys => True

/-- every call that the script may make names keys in `own` -/
def PadScript.On (own : Str → Prop) : PadScript V ρ → Prop
  | .ret _ => True
  | .raise _ => True
  | .call o k => o.On own ∧ ∀ r, (k r).On own

end Verif.Model
