import Mathlib.Data.Int.Log
import Mathlib.Data.Rat.Floor
import Mathlib.Algebra.Order.Floor.Ring
import Verif.Model.Pivot
/-!
# IEEE numbers, as numpy casts and subtracts them

Finite numbers are rationals. What `downcast` asks of numpy (`FloatArr` in `Verif/Model/Pivot.lean`) is given here for arrays of
dtype `float64`: casts truncate to integers and round to narrower formats (to nearest, ties to even), differences and quotients
are rounded to `float64`. Not modelled: signed zero, arrays of dtype `float32`, `float16` and `float128` (for these numpy rounds
the tolerances too).
-/
namespace Verif.Model
open Verif

/-- a binary format: `m * 2 ^ e` with `|m| < 2 ^ prec` and `emin ≤ e ≤ emax` -/
structure Fmt where
  prec : Nat
  emin : Int
  emax : Int

/-- `float16`, `float32`, `float64` -/
def f16 : Fmt := ⟨11, -24, 5⟩
def f32 : Fmt := ⟨24, -149, 104⟩
def f64 : Fmt := ⟨53, -1074, 971⟩

/-- the largest number (`np.finfo(dt).max`) -/
def Fmt.max (F : Fmt) : ℚ := (2 ^ F.prec - 1) * 2 ^ F.emax

/-- the nearest integer, of two the even one -/
def roundEven (q : ℚ) : ℤ :=
  if q - ⌊q⌋ < 1 / 2 then ⌊q⌋
  else if 1 / 2 < q - ⌊q⌋ then ⌊q⌋ + 1
  else if ⌊q⌋ % 2 = 0 then ⌊q⌋ else ⌊q⌋ + 1

/-- exponent of the last place of the numbers of the format near `q` -/
def Fmt.exp (F : Fmt) (q : ℚ) : ℤ := Max.max F.emin (Int.log 2 |q| + 1 - F.prec)

/-- rounding to the format, within its range -/
def Fmt.round (F : Fmt) (q : ℚ) : ℚ := roundEven (q / 2 ^ F.exp q) * 2 ^ F.exp q

/-- integer part -/
def truncQ (q : ℚ) : ℤ := if 0 ≤ q then ⌊q⌋ else ⌈q⌉

/-- `x.astype(dtype)` of one finite number: out of range is a `RuntimeWarning`, which pivot.py:231-232 makes an error.
(Numbers a little above the largest of a narrower format would round down to it, but pivot.py:229 keeps them away.) -/
def castOne : NumType → ℚ → Except PyErr ℚ
  | .uint b, x => if 0 ≤ truncQ x ∧ truncQ x < 2 ^ b then .ok (truncQ x) else .error (.user 0)
  | .int b, x => if -(2 ^ (b - 1)) ≤ truncQ x ∧ truncQ x < 2 ^ (b - 1) then .ok (truncQ x) else .error (.user 0)
  | .float b, x =>
    if b = 16 then (if |x| ≤ f16.max then .ok (f16.round x) else .error (.user 0))
    else if b = 32 then (if |x| ≤ f32.max then .ok (f32.round x) else .error (.user 0))
    else .ok x

/-- `arr.astype(dtype)` of the finite elements -/
def castAll (t : NumType) (l : List ℚ) : Except PyErr (List ℚ) := l.mapM (castOne t)

/-- `np.nanmax`, of numbers that are not negative -/
def maxQ : List ℚ → ℚ
  | [] => 0
  | a :: t => Max.max a (maxQ t)

/-- pivot.py:234 `np.abs(arr_nzero - recast)` -/
def offsetsOf (l r : List ℚ) : List ℚ := (l.zip r).map fun p => |f64.round (p.1 - p.2)|

/-- pivot.py:235, 237: the greatest absolute and relative errors -/
def errorsOf (l r : List ℚ) : ℚ × ℚ :=
  (maxQ (offsetsOf l r), maxQ (((offsetsOf l r).zip l).map fun p => |f64.round (p.1 / p.2)|))

/-- what `downcast` asks about an array of dtype `float64`: `l` its finite elements. How bounds are compared (148-155) is left
open. -/
def f64Arr (l : List ℚ) (hasNonfinite : Bool) (inBounds : NumType → Bool) : FloatArr ℚ where
  bits := 64
  hasNonfinite := hasNonfinite
  hasFinite := !l.isEmpty
  hasNonzero := l.any (· != 0)                                     -- 207-208
  inBounds := inBounds
  cast t := match castAll t (l.filter (· != 0)) with               -- 233
    | .error e => .error e
    | .ok r => .ok (errorsOf (l.filter (· != 0)) r)
  gt a b := decide (b < a)
  zero := 0

end Verif.Model
