import Verif.Model.Func
import Verif.Py.Val
/-!
# `gmap`, `triggerize` (func.py) and `get_from_all` (structures.py)
-/
namespace Verif.Model
open Verif

/-- one step of a `map` object over several iterators: an element of each, in order; `none` at the first that is
exhausted. What was taken from those before it is lost. -/
def pullAll {α : Type} : List (List α) → Option (List α) × List (List α)
  | [] => (some [], [])
  | [] :: r => (none, [] :: r)
  | (x :: xs) :: r => ((pullAll r).1.map (x :: ·), xs :: (pullAll r).2)

/-- what a call of `gmap` does: its result, the argument tuples `func` was called with, and what is left of the
iterators -/
structure Gmapped (α β : Type) where
  result : Except PyErr (List β)
  calls : List (List α)
  left : List (List α)

/-- `tuple(map(func, first, *rest))`: a `StopIteration` of `func` is one of the `map` object, which ends the tuple -/
def mapLoop {α β : Type} (f : List α → Except PyErr β) : List α → List (List α) → Gmapped α β
  | [], rest => ⟨.ok [], [], [] :: rest⟩
  | x :: xs, rest => match pullAll rest with
    | (none, rest') => ⟨.ok [], [], xs :: rest'⟩
    | (some ys, rest') => match f (x :: ys) with
      | .error .stopIteration => ⟨.ok [], [x :: ys], xs :: rest'⟩
      | .error e => ⟨.error e, [x :: ys], xs :: rest'⟩
      | .ok y =>
        let r := mapLoop f xs rest'
        ⟨r.result.map (y :: ·), (x :: ys) :: r.calls, r.left⟩

/-- func.py:96-111 `gmap(func, *iterables)` with the default `mapper` and `evaluator` (or `evaluator=list`); without
iterables `map` raises `TypeError`. The iterators are independent of each other and finite (simplification: not the same
iterator twice). -/
def gmap {α β : Type} (f : List α → Except PyErr β) : List (List α) → Gmapped α β
  | [] => ⟨.error .typeError, [], []⟩
  | first :: rest => mapLoop f first rest

/-- func.py:33-44 `triggerize(niladic_function)(deferred_state)` -/
def triggerize {σ α : Type} (g : Except PyErr α) (deferredState : σ) : Except PyErr σ := g.map fun _ => deferredState

/-- what `get_from_all` may be given: a mapping of things, or another iterable of them -/
inductive Gettables (A : Type) where
  | mapping (items : List (A × Val A))
  | seq (l : List (Val A))

/-- `methodcaller("get", key, default)(v)`: a mapping has it; an atom (simplification: any) has not -/
def getOr {A : Type} [DecidableEq A] (key : A) (default : Val A) : Val A → Except PyErr (Val A)
  | .map _ l => .ok ((Dict.get? l key).getD default)
  | .atom _ => .error .attributeError

/-- structures.py:125-133 `get_from_all` -/
def getFromAll {A : Type} [DecidableEq A] (key : A) (mappings : Gettables A) (default : Val A) :
    Except PyErr (List (Val A)) :=
  let view := match mappings with
    | .mapping items => items.map Prod.snd
    | .seq l => l
  view.mapM (getOr key default)

end Verif.Model
