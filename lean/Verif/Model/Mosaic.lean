import Verif.Py.Err
import Mathlib.Order.Defs.LinearOrder
/-!
# mosaic.py: reading and sorting parquet files by ranges of a column

A file is its row groups, each a list of rows; a row has a value of the column in question, or none (null, and NaN, which
compares with nothing). Values and bounds are of one linearly ordered type: pyarrow's comparison of an integer column with
a floating-point bound, which converts the column to `double`, is taken to be exact. Not modelled: schemas and write options,
the `columns` argument (which `read_between` ignores), printing.
-/
namespace Verif.Model
open Verif

variable {V R : Type} [LinearOrder V]

/-- a record of `parquet_metadata_records` (mosaic.py:23-34), for the column: `None` for a group without values -/
structure GroupRec (V : Type) where
  min : Option V
  max : Option V
  rowGroup : Nat

/-- 104: is the group read? Comparing `None` raises `TypeError`. -/
def wanted (lo hi : V) (r : GroupRec V) : Except PyErr Bool :=
  match r.min with
  | none => .error .typeError
  | some a => if hi < a then .ok false else match r.max with
    | none => .error .typeError
    | some b => .ok (!decide (b < lo))

/-- 102-105 -/
def boundRecords (lo hi : V) : List (GroupRec V) → Except PyErr (List (GroupRec V))
  | [] => .ok []
  | r :: t => match wanted lo hi r with
    | .error e => .error e
    | .ok w => match boundRecords lo hi t with
      | .error e => .error e
      | .ok l => .ok (if w then r :: l else l)

/-- `pac.less(..., hi)`; a null is not taken -/
def lessThan (hi : V) : Option V → Bool
  | some v => decide (v < hi)
  | none => false

/-- `pac.greater_equal(..., lo)` -/
def atLeast (lo : V) : Option V → Bool
  | some v => decide (lo ≤ v)
  | none => false

/-- 112-119: the groups are read and filtered, and put one after another -/
def readGroups (file : List (List R)) (val : R → Option V) (lo hi : V) : List (GroupRec V) → Except PyErr (List R)
  | [] => .ok []
  | r :: t => match file[r.rowGroup]? with
    | none => .error (.user 0)
    | some g => match readGroups file val lo hi t with
      | .error e => .error e
      | .ok l => .ok (((g.filter fun x => lessThan hi (val x)).filter fun x => atLeast lo (val x)) ++ l)

/-- mosaic.py:95-119 `read_between` -/
def readBetween (file : List (List R)) (val : R → Option V) (lo hi : V) (recs : List (GroupRec V)) :
    Except PyErr (Option (List R)) :=
  match boundRecords lo hi recs with
  | .error e => .error e
  | .ok [] => .ok none                                                      -- 108-109
  | .ok (r :: t) => match readGroups file val lo hi (r :: t) with
    | .error e => .error e
    | .ok l => .ok (some l)

/-- numpy's arithmetic: `np.linspace(a, b, n)`, `x + 1` -/
structure Arith (V : Type) where
  linspace : V → V → Nat → List V
  addOne : V → V

/-- the greatest of the maxima (152); `max` of nothing raises `ValueError`, `None` among them `TypeError` (if it is the only
one, from `np.linspace`) -/
def maxRec : List (GroupRec V) → Except PyErr V
  | [] => .error .valueError
  | [r] => match r.max with
    | none => .error .typeError
    | some b => .ok b
  | r :: t => match r.max, maxRec t with
    | some b, .ok c => .ok (if b < c then c else b)
    | none, _ => .error .typeError
    | _, .error e => .error e

/-- the least of the minima (153) -/
def minRec : List (GroupRec V) → Except PyErr V
  | [] => .error .valueError
  | [r] => match r.min with
    | none => .error .typeError
    | some b => .ok b
  | r :: t => match r.min, minRec t with
    | some b, .ok c => .ok (if c < b then c else b)
    | none, _ => .error .typeError
    | _, .error e => .error e

/-- `windows[-1] = (windows[-1][0], windows[-1][1] + 1)` (155) -/
def bumpLast (f : V → V) : List (V × V) → List (V × V)
  | [] => []
  | [w] => [(w.1, f w.2)]
  | w :: t => w :: bumpLast f t

/-- 154: consecutive pairs. With fewer than two elements `windowed` fills up with `None`, and 155 raises `TypeError`. -/
def windowsOf (ar : Arith V) (lo hi : V) (n : Nat) : Except PyErr (List (V × V)) :=
  let g := ar.linspace lo hi n
  if g.length < 2 then .error .typeError else .ok (bumpLast ar.addOne (g.zip g.tail))

/-- the loop 157-171: what is written for the windows, in order -/
def writeWindows (file : List (List R)) (val : R → Option V) (recs : List (GroupRec V)) (sortBy : List R → List R)
    (process : List R → List R) : List (V × V) → Except PyErr (List R)
  | [] => .ok []
  | w :: t => match readBetween file val w.1 w.2 recs with
    | .error e => .error e
    | .ok r => match writeWindows file val recs sortBy process t with
      | .error e => .error e
      | .ok l => .ok (match r with
        | none => l                                                         -- 161-162
        | some [] => l                                                      -- 163-164
        | some (x :: y) => process (sortBy (x :: y)) ++ l)                  -- 167-170

/-- mosaic.py:122-173 `sort_chunked`: the rows of the file it writes. `sortBy` is `Table.sort_by` for the column and
direction. -/
def sortChunked (ar : Arith V) (file : List (List R)) (val : R → Option V) (recs : List (GroupRec V))
    (sortBy process : List R → List R) (nChunks : Nat) : Except PyErr (List R) :=
  match maxRec recs with
  | .error e => .error e
  | .ok mx => match minRec recs with
    | .error e => .error e
    | .ok mn => match windowsOf ar mn mx nChunks with
      | .error e => .error e
      | .ok ws => writeWindows file val recs sortBy process ws

end Verif.Model
