import Verif.Py.Err
/-!
# Model of `/repo/dustgoggles/func.py`
-/
namespace Verif.Model
open Verif

/-- `functools.reduce(op, l)` without initial value -/
def reduce {α : Type} (op : α → α → α) : List α → Except PyErr α
  | [] => .error .typeError
  | x :: xs => .ok (xs.foldl op x)

/-- func.py:47-58 `are_in(items, oper)(container)`; `inn x` is `x in container`, which is assumed not to raise. -/
def areIn {α : Type} (items : List α) (oper : Bool → Bool → Bool) (inn : α → Bool) : Except PyErr Bool :=
  reduce oper (items.map inn)

/-- func.py:70-71 `intersection`; a `set` is represented by a list without repetitions (its order is not observable) -/
def intersection {α : Type} [DecidableEq α] (its : List (List α)) : Except PyErr (List α) :=
  reduce (fun a b => a.filter (· ∈ b)) (its.map List.eraseDups)

/-- func.py:74-78 `disjoint` -/
def disjoint {α : Type} [DecidableEq α] (its : List (List α)) : Except PyErr (List (List α)) := do
  let shared ← intersection its
  .ok (its.map fun l => l.filter fun x => x ∉ shared)

/-- outcome of a call together with the exceptions handed to the callback so far -/
abbrev Logged (α : Type) := Except PyErr α × List PyErr

/-- func.py:133-144 `optionalize(func, exc_callback)(*args)`. `f` is the outcome of the call of `func`; `cb e` says
whether the callback raises. The log lists the exceptions the callback was called with; the result is `none` for
`None`. -/
def optionalize {α : Type} (f : Except PyErr α) (cb : PyErr → Except PyErr Unit) : Logged (Option α) :=
  match f with
  | .ok v => (.ok (some v), [])
  | .error .keyboardInterrupt => (.error .keyboardInterrupt, [])       -- 139-140
  | .error e =>
    if e.isException then
      match cb e with                                                  -- 141-142
      | .ok () => (.ok none, [e])
      | .error e' => (.error e', [e])
    else (.error e, [])

/-- Python's `l[:n]` for an integer `n` -/
def sliceTo {α : Type} (l : List α) (n : Int) : List α :=
  if 0 ≤ n then l.take n.toNat else l.take (l.length - (-n).toNat)

/-- func.py:122-130 `argstop(func, arg_count, unpack)(*args, **kwargs)`: the positional arguments `func` is called with.
`asSeq v` gives the elements of `v` if it can be sliced (and its slice unpacked). Keyword arguments are passed on as
they are. -/
def argstop {V : Type} (asSeq : V → Option (List V)) (argCount : Int) (unpack : Bool) (args : List V) :
    Except PyErr (List V) :=
  match args, unpack with
  | [x], true => match asSeq x with
    | some l => .ok (sliceTo l argCount)
    | none => .error .typeError
  | _, _ => .ok (sliceTo args argCount)

/-- func.py:12-21 `catch_interaction` -/
def catchInteraction {V : Type} (noninteractive : Bool) (default : V) (call : Except PyErr V) : Except PyErr V :=
  if noninteractive then .ok default else call

/-- func.py:24-25 `naturals()`: the `i`-th element produced, `accumulate(repeat(1), add)` -/
def naturals : Nat → Nat
  | 0 => 1
  | i + 1 => naturals i + 1

/-- func.py:114-119 `filtern`: the first element satisfying the predicate, else `StopIteration` -/
def filtern {α : Type} (p : α → Bool) (l : List α) : Except PyErr α :=
  match l.filter p with
  | [] => .error .stopIteration
  | x :: _ => .ok x

end Verif.Model
