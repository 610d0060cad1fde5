import Verif.Py.Dict
import Verif.Py.Err
import Verif.Py.Str
/-!
# pivot.py: downcasting, duplicate columns, constants, splitting

A DataFrame is its columns, each a label and its cells from top to bottom, and its row labels. Abstract: cells, their
equality (not reflexive on nulls) and nullness, numpy's casts and errors for floating-point arrays. Not modelled: dtypes
of frames (a row taken from a frame upcasts its cells), cells that are lists (pivot.py:88-98), the index and name handling of
pandas Series in `_maybeseries`.
-/
namespace Verif.Model
open Verif

/-! ## Integer arrays -/

/-- a numpy integer dtype -/
structure IntType where
  signed : Bool
  bits : Nat
  deriving DecidableEq

/-- `np.iinfo(dt).min` -/
def IntType.min (t : IntType) : Int := if t.signed then -(2 ^ (t.bits - 1)) else 0

/-- `np.iinfo(dt).max` -/
def IntType.max (t : IntType) : Int := if t.signed then 2 ^ (t.bits - 1) - 1 else 2 ^ t.bits - 1

/-- pivot.py:148-155 `check_in_dtype_bounds`, for integers -/
def inIntBounds (amin amax : Int) (t : IntType) : Bool := decide (t.min ≤ amin) && decide (amax ≤ t.max)

/-- `arr.astype(dt)` between integer dtypes: modulo `2 ^ bits` -/
def castInt (t : IntType) (x : Int) : Int := (x - t.min) % 2 ^ t.bits + t.min

/-- `arr.min()`, `arr.max()` -/
def minOf : Int → List Int → Int
  | a, [] => a
  | a, b :: t => minOf (if b < a then b else a) t

def maxOf : Int → List Int → Int
  | a, [] => a
  | a, b :: t => maxOf (if a < b then b else a) t

/-- the first of these depths that will do (172-176) -/
def firstDepth (signed : Bool) (amin amax : Int) : List Nat → Option IntType
  | [] => none
  | d :: t => if inIntBounds amin amax ⟨signed, d⟩ then some ⟨signed, d⟩ else firstDepth signed amin amax t

/-- pivot.py:165-177 `_downcast_int_array`: the dtype and the cast array. `min` of an empty array raises `ValueError`. -/
def downcastInt : List Int → Except PyErr (IntType × List Int)
  | [] => .error .valueError
  | a :: l =>
    let amin := minOf a l
    let amax := maxOf a l
    match firstDepth (decide (amin < 0)) amin amax [8, 16, 32, 64] with     -- 171-176
    | some t => .ok (t, (a :: l).map (castInt t))
    | none => .error .typeError                                             -- 177

/-! ## Floating-point arrays -/

/-- a dtype `downcast` may try -/
inductive NumType where
  | uint (bits : Nat)
  | int (bits : Nat)
  | float (bits : Nat)
  deriving DecidableEq

def NumType.isFloat : NumType → Bool
  | .float _ => true
  | _ => false

/-- what numpy makes of an array of dtype `float<bits>` (or `bool`, with 8): whether it has elements that are not finite;
finite ones; finite ones that are not zero; whether the finite ones are within the bounds of a dtype; the cast of those that
are not zero to a dtype, which may raise (a `RuntimeWarning`, made an error by 231-233) or give the absolute and the relative
error. `gt` is `>`. -/
structure FloatArr (E : Type) where
  bits : Nat
  hasNonfinite : Bool
  hasFinite : Bool
  hasNonzero : Bool
  inBounds : NumType → Bool
  cast : NumType → Except PyErr (E × E)
  gt : E → E → Bool
  zero : E

/-- what `downcast` returns: the dict with the dtype of `recast`, and the errors; or an array without the dict (212) -/
inductive Downcast (E : Type) where
  | recast (t : NumType) (aerr rerr : E)
  | unchanged (aerr rerr : E)
  | bare (t : NumType)
  deriving DecidableEq

/-- `product(('uint', 'int', 'float'), (8, 16, 32, 64, 128))` (216-218) -/
def searchOrder : List NumType :=
  [8, 16, 32, 64, 128].map .uint ++ [8, 16, 32, 64, 128].map .int ++ [8, 16, 32, 64, 128].map .float

/-- the clauses 222-227 -/
def skipped (hasNonfinite nillable : Bool) : NumType → Bool
  | .uint b => b == 128 || (hasNonfinite && !nillable)
  | .int b => b == 128 || (hasNonfinite && !nillable)
  | .float b => b == 8

variable {E : Type}

/-- the loop 216-245 -/
def searchTypes (a : FloatArr E) (atol rtol : E) (nillable : Bool) : List NumType → Except PyErr (Downcast E)
  | [] => .error .typeError                                                 -- 245
  | t :: r =>
    if t = .float a.bits then .ok (.unchanged a.zero a.zero)                -- 220-221
    else if skipped a.hasNonfinite nillable t then searchTypes a atol rtol nillable r
    else if a.inBounds t = false then searchTypes a atol rtol nillable r    -- 229-230
    else match a.cast t with
      | .error e => .error e                                                -- 231-233
      | .ok (aerr, rerr) =>
        if a.gt aerr atol then searchTypes a atol rtol nillable r           -- 235-236
        else if a.gt rerr rtol then searchTypes a atol rtol nillable r      -- 237-238
        else if !t.isFloat && a.hasNonfinite then .error .attributeError    -- 239-243: `.capitalize` is not called
        else .ok (.recast t aerr rerr)                                      -- 244

/-- pivot.py:180-245 `downcast`, for arrays that are neither integer nor complex, datetime or object arrays -/
def downcast (a : FloatArr E) (atol rtol : E) (pandas nillable : Bool) : Except PyErr (Downcast E) :=
  if nillable && !pandas then .error .typeError                             -- 191-192
  else if !a.hasFinite then .ok (.unchanged a.zero a.zero)                  -- 203-205
  else if !a.hasNonzero && !a.hasNonfinite then .ok (.recast (.uint 8) a.zero a.zero)   -- 209-210
  else if !a.hasNonzero && !nillable then .ok (.bare (.float 16))           -- 211-212
  else if !a.hasNonzero then .error .typeError                              -- 213-214: numpy does not know `UInt8Dtype`
  else searchTypes a atol rtol nillable searchOrder

/-! ## Frames -/

variable {N C : Type} [DecidableEq N]

/-- a frame: row labels, columns -/
structure Frame (N C : Type) where
  index : List N
  columns : List (N × List C)

/-- `df.columns.duplicated()`: true where the label has occurred before -/
def duplicated : List N → List N → List Bool
  | _, [] => []
  | seen, n :: t => decide (n ∈ seen) :: duplicated (n :: seen) t

/-- elements where the mask is true -/
def select {α : Type} : List α → List Bool → List α
  | a :: t, true :: m => a :: select t m
  | _ :: t, false :: m => select t m
  | _, _ => []

/-- pivot.py:44-56 `check_and_drop_duplicate_columns`. `eq` is `==` of cells. -/
def dropDuplicates (eq : C → C → Bool) (f : Frame N C) : Except PyErr (Frame N C) :=
  let names := f.columns.map Prod.fst
  let dup := duplicated [] names
  let extra := select names dup                                             -- 49
  if extra.isEmpty then .ok f                                               -- 50-51
  else if extra.all fun n => f.columns.all fun c => !decide (c.1 = n) || c.2.all fun x => eq x x   -- 52-55
    then .ok { f with columns := select f.columns (dup.map not) }           -- 56
  else .error .valueError

/-- 85-86: is the line (a column, or a row) constant? -/
def isConstant (isNull : C → Bool) (eq : C → C → Bool) (dropna : Bool) (l : List C) : Bool :=
  let s := if dropna then l.filter (!isNull ·) else l
  match s with
  | [] => true
  | x :: t => (x :: t).all fun y => eq y x

/-- the row at a place -/
def Frame.row (f : Frame N C) (i : Nat) : List C := f.columns.filterMap fun c => c.2[i]?

/-- the rows, with their labels -/
def Frame.rows (f : Frame N C) : List (N × List C) := f.index.mapIdx fun i n => (n, f.row i)

/-- only the rows where the mask is true -/
def Frame.takeRows (f : Frame N C) (m : List Bool) : Frame N C :=
  ⟨select f.index m, f.columns.map fun c => (c.1, select c.2 m)⟩

/-- the first cell of each column -/
def firstCells (cols : List (N × List C)) : Dict N C := cols.filterMap fun c => c.2.head?.map fun x => (c.1, x)

/-- `df.iloc[0].to_dict()` -/
def Frame.firstRow (f : Frame N C) : Except PyErr (Dict N C) :=
  if f.index.isEmpty then .error .indexError
  else .ok (firstCells f.columns)

/-- what `extract_constants` returns: constants as a frame or as a dict, and the frame -/
structure Extracted (N C : Type) where
  constants : Frame N C ⊕ Dict N C
  rest : Frame N C

/-- pivot.py:59-109 `extract_constants`, for distinct labels; `byRows` is `how="rows"` -/
def extractConstants (isNull : C → Bool) (eq : C → C → Bool) (f : Frame N C) (toDict dropConstants byRows dropna : Bool) :
    Except PyErr (Extracted N C) :=
  let mask := if byRows then f.columns.map fun c => isConstant isNull eq dropna c.2          -- 83-87
    else f.rows.map fun r => isConstant isNull eq dropna r.2
  let constants : Frame N C := if byRows then { f with columns := select f.columns mask } else f.takeRows mask   -- 99-104
  let variables : Frame N C := if byRows then { f with columns := select f.columns (mask.map not) }
    else f.takeRows (mask.map not)
  let rest := if dropConstants then variables else f
  if toDict then match constants.firstRow with                                               -- 105-106
    | .error e => .error e
    | .ok d => .ok ⟨.inr d, rest⟩
  else .ok ⟨.inl constants, rest⟩

/-- the value a label has in a predicate; none raises (`IndexingError`, a subclass of `Exception`) -/
def predAt (pred : List (N × Bool)) (n : N) : Except PyErr Bool :=
  match Dict.get? pred n with
  | some b => .ok b
  | none => .error (.user 0)

/-- the mask `df.loc[predicate]` uses: the predicate itself if its labels are those of the frame, else aligned by label -/
def alignMask (index : List N) (pred : List (N × Bool)) : Except PyErr (List Bool) :=
  if pred.map Prod.fst = index then .ok (pred.map Prod.snd)
  else index.mapM (predAt pred)

/-- pivot.py:112-115 `split_on`, for a boolean predicate -/
def splitOn (f : Frame N C) (pred : List (N × Bool)) : Except PyErr (Frame N C × Frame N C) :=
  match alignMask f.index pred with
  | .error e => .error e
  | .ok m => match alignMask f.index (pred.map fun p => (p.1, !p.2)) with
    | .error e => .error e
    | .ok m' => .ok (f.takeRows m, f.takeRows m')

end Verif.Model
