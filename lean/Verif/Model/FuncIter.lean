import Verif.Model.Func
/-!
# func.py: `are_in` with iterators

`/repo/dustgoggles/func.py`, lines 47-58. The docstring says "iterable"; an iterator can be gone through once only. Not modelled:
iterators that raise, or that do not end.
-/
namespace Verif.Model
open Verif
variable {α : Type}

/-- `operator.contains(iterator, x)` for an iterator with these elements left: they are taken up to and including the first
that is equal to `x`; the answer, and what is left -/
def searchIter (eq : α → α → Bool) (x : α) : List α → Bool × List α
  | [] => (false, [])
  | y :: t => if eq y x then (true, t) else searchIter eq x t

/-- func.py:57 `map(inclusion, items)`, drawn to its end: the answers, and what is left of the container -/
def searchAll (eq : α → α → Bool) : List α → List α → List Bool × List α
  | [], c => ([], c)
  | x :: t, c => ((searchIter eq x c).1 :: (searchAll eq t (searchIter eq x c).2).1, (searchAll eq t (searchIter eq x c).2).2)

/-- func.py:54-57 `are_in(items, oper)(container)` with an iterator as container, and what is left of it. `operator.and_` and
`operator.or_` have both operands evaluated: `reduce` goes on to the last item. -/
def areInIter (eq : α → α → Bool) (items : List α) (oper : Bool → Bool → Bool) (c : List α) : Except PyErr Bool × List α :=
  (reduce oper (searchAll eq items c).1, (searchAll eq items c).2)

/-- func.py:47-58 `f = are_in(items, oper)` with an iterator of `items`, and then `f(container)` for each of these
containers, given as `inn`. What is left of `items` is kept in the closure of `f`. -/
def areInCalls (oper : Bool → Bool → Bool) : List α → List (α → Bool) → List (Except PyErr Bool)
  | _, [] => []
  | items, inn :: t => areIn items oper inn :: areInCalls oper [] t      -- reduce draws all items (57)

end Verif.Model
