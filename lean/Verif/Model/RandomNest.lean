import Verif.Model.Nested
/-!
# `random_nested_dict`

`/repo/dustgoggles/test_utils/core.py`, lines 14-64. The random generator is an oracle: the outcome of every call of
`RNG` is given by a number in a `Pick` or an `Iter`, and the theorems hold for all of them.
-/
namespace Verif.Model
open Verif
variable {A : Type} [DecidableEq A]

/-- test_utils/core.py:15-28: a member `t` of `types` or `keytypes`. `objHashable` is `isinstance(t, Hashable)`, which
is about the object `t` itself (true of every class, whose metaclass defines `__hash__`); `sample bits` is
`randval(t)` when the random generator produces `bits`, with the exception if it raises one (`TypeError` at 28 if `t` is
not callable, anything if `t` is a callable of the user's). Simplification: no object is shared between two samples. -/
structure Gen (A : Type) where
  objHashable : Bool
  sample : Nat → Except PyErr (Val A)

/-- `RNG.choice(seq)`: the element at a random index, `IndexError` for an empty sequence -/
def rngChoice {α : Type} (l : List α) (ix : Nat) : Except PyErr α :=
  match l[ix % l.length]? with
  | some x => .ok x
  | none => .error .indexError

/-- `randval(RNG.choice(gens))` (core.py:37, 62, 63) -/
def randOf (gens : List (Gen A)) (ix bits : Nat) : Except PyErr (Val A) := do
  (← rngChoice gens ix).sample bits

/-- a generated value as a dictionary key: `none` if it is unhashable (a mutable mapping, or an atom which `hash`
rejects, such as a list) -/
def asKey (hash : A → Bool) : Val A → Option A
  | .atom a => if hash a then some a else none
  | .map _ _ => none

/-- `cytoolz.get_in(keys, nest)`: the value found and the state of `nest` afterwards (looking up a missing key of a
`NestingDict` creates it), `none` for the default `None`, returned if some lookup raises `KeyError`, `IndexError` or
`TypeError` (the key is unhashable, or the path runs into something that cannot be looked up in). Simplification: an
atom cannot be looked up in; a string or tuple can, by an integer key, but what is found there has neither `.items()`
nor item assignment, so that the callers (32-34, 61-63) raise the same exceptions as for `None`. -/
def getIn (hash : A → Bool) (keys : List (Val A)) (nest : Val A) : Option (Val A × Val A) :=
  match keys.mapM (asKey hash) with
  | none => none
  | some ks => match getPathND ks nest with
    | .ok r => some r
    | .error _ => none

/-- the random outcomes used by one call of `pick_key_at_level`: whether `RNG.random() > branch_weight`, the index drawn
by `RNG.choice(nestkeys)`, the index drawn by `RNG.choice(hashables)` and what `randval` draws -/
structure Pick where
  coin : Bool
  nestIx : Nat
  typeIx : Nat
  bits : Nat

/-- core.py:31-40 `pick_key_at_level`: the key picked and the state of the mapping afterwards -/
def pickKey (hash : A → Bool) (keytypes : List (Gen A)) (p : Pick) (keys : List (Val A)) (nest : Val A) :
    Except PyErr (Val A × Val A) :=
  match getIn hash keys nest with
  | some (.map _ items, nest') =>
    let nestkeys := (items.filter fun kv => isNesting kv.2).map Prod.fst
    if nestkeys.length = 0 || p.coin then (randOf keytypes p.typeIx p.bits).map fun k => (k, nest')
    else (rngChoice nestkeys p.nestIx).map fun k => (.atom k, nest')
  | _ => .error .attributeError

/-- core.py:57-60: the loop that picks the keys -/
def pickKeys (hash : A → Bool) (keytypes : List (Gen A)) :
    List Pick → List (Val A) → Val A → Except PyErr (List (Val A) × Val A)
  | [], keys, nest => .ok (keys, nest)
  | p :: ps, keys, nest => do
    let (k, nest') ← pickKey hash keytypes p keys nest
    pickKeys hash keytypes ps (keys ++ [k]) nest'

/-- the random outcomes used by one round of the loop 54-63: the index drawn by `RNG.choice(levels)`, the picks, and the
type and bits drawn for the key and for the value -/
structure Iter where
  level : Nat
  picks : Nat → Pick
  keyType : Nat
  keyBits : Nat
  valType : Nat
  valBits : Nat

/-- core.py:55-63: one round. The value is drawn first (the right-hand side of an assignment is evaluated first), then
the target is looked up, then the key is drawn, then the assignment happens. -/
def nestRound (hash : A → Bool) (maxdepth : Nat) (types keytypes : List (Gen A)) (it : Iter) (nest : Val A) :
    Except PyErr (Val A) := do
  let level ← rngChoice (List.range maxdepth) it.level
  let (keys, nest') ← pickKeys hash keytypes ((List.range level).map it.picks) [] nest
  let v ← randOf types it.valType it.valBits
  let target := getIn hash keys nest'
  let k ← randOf keytypes it.keyType it.keyBits
  match target, keys.mapM (asKey hash), asKey hash k with
  | some (_, nest''), some ks, some k' => match setPathND (ks ++ [k']) v nest'' with
    | .ok nest3 => .ok nest3
    | .error _ => .error .typeError
  | _, _, _ => .error .typeError

/-- core.py:54-63: the loop over `range(quantity)` -/
def nestRounds (hash : A → Bool) (maxdepth : Nat) (types keytypes : List (Gen A)) :
    List Iter → Val A → Except PyErr (Val A)
  | [], nest => .ok nest
  | it :: its, nest => do
    nestRounds hash maxdepth types keytypes its (← nestRound hash maxdepth types keytypes it nest)

/-- core.py:52-53: the default of `keytypes` -/
def defaultKeytypes (types : List (Gen A)) : List (Gen A) := types.filter fun t => t.objHashable

/-- core.py:43-64 `random_nested_dict(len(its), maxdepth, types, keytypes)`; `fuel` is the recursion depth available to
`todict` (a `RecursionError` is a `RuntimeError`) -/
def randomNestedDict (hash : A → Bool) (fuel maxdepth : Nat) (types : List (Gen A))
    (keytypes : Option (List (Gen A))) (its : List Iter) : Except PyErr (Val A) := do
  let nest ← nestRounds hash maxdepth types (keytypes.getD (defaultKeytypes types)) its (.map .nesting [])
  match todict fuel nest with
  | some (r, _) => .ok r
  | none => .error .runtimeError

end Verif.Model
