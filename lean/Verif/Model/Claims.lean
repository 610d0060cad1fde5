import Verif.Model.PadClients
import Verif.Model.Clients
/-!
# Processes that claim keys of a notepad

Not part of /repo: processes that use `Notepad.set(key, value, exists_ok=False)` (implements.py:761-776) to claim a key and
`del notepad[key]` (implements.py:778-785) to give it up.
-/
namespace Verif.Model
open Verif

variable {V ρ : Type}

/-- the program of a process that uses a notepad (`PadScript`, Verif/Model/PadClients.lean), but for one thing: an
`OverflowError`, as of the lock (implements.py:237), ends it -/
def PadScript.run (E : Env) (c : Codec V) (isNone : V → Bool) (p : Pad) : PadScript V ρ → Prog ρ
  | .ret r => .ret r
  | .raise e => .raise e
  | .call o k => (o.run E c isNone p).attempt.bind (afterCall fun r => (k r).run E c isNone p)

/-- The process plays by the rules: it claims keys that are `ok`, with values that are `good`, replaces the values of
keys it has claimed only, gives up keys it has claimed only; it may read any key, and list the keys. `held` are the keys
it has claimed so far and not given up. -/
def PadScript.Plays (ok : Key → Prop) (good : V → Prop) : PadScript V ρ → (Str → Prop) → Prop
  | .ret _, _ => True
  | .raise _, _ => True
  | .call (.get _) k, held => ∀ r, (k r).Plays ok good held
  | .call .keys k, held => ∀ r, (k r).Plays ok good held
  | .call (.set key v false) k, held => ok key ∧ good v ∧ (∀ x, (k (.ok x)).Plays ok good (fun x => x = key.text ∨ held x)) ∧
      ∀ e, (k (.error e)).Plays ok good held
  | .call (.set key v true) k, held => ok key ∧ held key.text ∧ good v ∧ ∀ r, (k r).Plays ok good held
  | .call (.del key) k, held => ok key ∧ held key.text ∧ ∀ r, (k r).Plays ok good (fun x => x ≠ key.text ∧ held x)

end Verif.Model
