import Verif.Model.Nested
/-!
# structures.py:268-279 `dig_and_edit` with functions that raise

As `digAndEdit` in `Verif/Model/Nested.lean`, but the filter and the setter may raise; the state of the mapping is kept then.
-/
namespace Verif.Model
open Verif
variable {A : Type} [DecidableEq A]

/-- structures.py:274 `tuple(filter(splat(filter_func), mapping.items()))`: a `StopIteration` of `filter_func` is one of the
`filter` object, which ends the tuple -/
def matchesX (f : A → Val A → Except PyErr Bool) : List (A × Val A) → Except PyErr (List (A × Val A))
  | [] => .ok []
  | (k, v) :: r => match f k v with
    | .error .stopIteration => .ok []
    | .error e => .error e
    | .ok b => match matchesX f r with
      | .error e => .error e
      | .ok ms => .ok (if b then (k, v) :: ms else ms)

/-- the loop of structures.py:275-276 over the matches: the mapping and the exception that has ended the loop -/
def setAllX (s : A → Val A → Except PyErr (Val A)) (l : List (A × Val A)) : List (A × Val A) → List (A × Val A) × Option PyErr
  | [] => (l, none)
  | (k, v) :: ms => match s k v with
    | .error e => (l, some e)
    | .ok w => setAllX s (Dict.set l k w) ms

/-- the loop of structures.py:277-278 over the values that are mappings -/
def nestsX (mt : Tag → Bool) (dig : Val A → Option (Val A × Option PyErr)) :
    List (A × Val A) → Option (List (A × Val A) × Option PyErr)
  | [] => some ([], none)
  | (k, v) :: r =>
    if v.isA mt then
      match dig v with
      | none => none
      | some (w, some e) => some ((k, w) :: r, some e)
      | some (w, none) => (nestsX mt dig r).map fun x => ((k, w) :: x.1, x.2)
    else (nestsX mt dig r).map fun x => ((k, v) :: x.1, x.2)

/-- structures.py:268-279 `dig_and_edit`: the state of the mapping afterwards, and the exception that was raised. `none`: the
recursion is deeper than the number allows. Something without `items` raises `AttributeError`. -/
def digEditX (f : A → Val A → Except PyErr Bool) (s : A → Val A → Except PyErr (Val A)) (mt : Tag → Bool) :
    Nat → Val A → Option (Val A × Option PyErr)
  | 0, _ => none
  | _ + 1, .atom a => some (.atom a, some .attributeError)
  | n + 1, .map t l => match matchesX f l with
    | .error e => some (.map t l, some e)
    | .ok ms => match setAllX s l ms with
      | (l', some e) => some (.map t l', some e)
      | (l', none) => (nestsX mt (digEditX f s mt n) l').map fun x => (.map t x.1, x.2)

end Verif.Model
