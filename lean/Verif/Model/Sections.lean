import Verif.Model.Claims
/-!
# Processes that claim a key of a notepad in order to use others

Not part of /repo: processes that use a key of a `Notepad` as a mutex. They claim it with `set(key, value, exists_ok=False)`
(implements.py:761-776), read and replace the values of the keys it guards, and give it up with `del notepad[key]`
(implements.py:778-785).
-/
namespace Verif.Model
open Verif

variable {V ρ : Type}

/-- The process plays by the rules: it claims keys that are `ok`, with values that are `good`, gives up keys it has claimed
only, and replaces the values of keys it has claimed and of those that `guard` maps to a key it has claimed; it may read any
key, and list the keys. `held` are the keys it has claimed so far and not given up. -/
def PadScript.PlaysBy (guard : Str → Option Str) (ok : Key → Prop) (good : V → Prop) : PadScript V ρ → (Str → Prop) → Prop
  | .ret _, _ => True
  | .raise _, _ => True
  | .call (.get _) k, held => ∀ r, (k r).PlaysBy guard ok good held
  | .call .keys k, held => ∀ r, (k r).PlaysBy guard ok good held
  | .call (.set key v false) k, held => ok key ∧ good v ∧
      (∀ x, (k (.ok x)).PlaysBy guard ok good (fun x => x = key.text ∨ held x)) ∧ ∀ e, (k (.error e)).PlaysBy guard ok good held
  | .call (.set key v true) k, held => ok key ∧ (held key.text ∨ ∃ m, guard key.text = some m ∧ held m) ∧ good v ∧
      ∀ r, (k r).PlaysBy guard ok good held
  | .call (.del key) k, held => ok key ∧ held key.text ∧ ∀ r, (k r).PlaysBy guard ok good (fun x => x ≠ key.text ∧ held x)

end Verif.Model
