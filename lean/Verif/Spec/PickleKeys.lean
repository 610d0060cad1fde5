import Verif.Spec.Pickle
/-!
# When Python holds two dict keys for one
-/
namespace Verif.Spec
open Verif Verif.Model

/-- a number times `2 ^ 1075`, which makes every finite double whole: `True` is 1 and `False` is 0; a double is its sign, its
53 bits of significand and its exponent -/
def numScaled : PRef → Option Int
  | .bool b => some ((if b then 1 else 0) * 2 ^ 1075)
  | .int i => some (i * 2 ^ 1075)
  | .float x =>
    let e := x.toNat / 2 ^ 52 % 2 ^ 11
    let f := x.toNat % 2 ^ 52
    let sgn : Int := if x.toNat < 2 ^ 63 then 1 else -1
    if e = 2047 then none
    else if e = 0 then some (sgn * (f * 2 ^ 1 : Nat))
    else some (sgn * ((2 ^ 52 + f) * 2 ^ e : Nat))
  | _ => none

/-- an infinity -/
def IsInf (x : BitVec 64) : Prop := x.toNat / 2 ^ 52 % 2 ^ 11 = 2047 ∧ x.toNat % 2 ^ 52 = 0

/-- the elements of a tuple; the empty one has no address -/
def tupleOf (h : PHeap) : PRef → Option (List PRef)
  | .unit => some []
  | .obj a => match h[a]? with
    | some (.tuple xs) => some xs
    | _ => none
  | _ => none

mutual
/-- `==` on what can be a dict key: numbers by value, whatever their types, strings and bytes by contents, tuples by their
elements, `None` -/
inductive KeyEq (h : PHeap) : PRef → PRef → Prop
  | none : KeyEq h .none .none
  | num {r s : PRef} {q : Int} : numScaled r = some q → numScaled s = some q → KeyEq h r s
  | inf {x : BitVec 64} : IsInf x → KeyEq h (.float x) (.float x)
  | str {a b : Nat} {t : Text} : h[a]? = some (.str t) → h[b]? = some (.str t) → KeyEq h (.obj a) (.obj b)
  | bytes {a b : Nat} {t : Bytes} : h[a]? = some (.bytes t) → h[b]? = some (.bytes t) → KeyEq h (.obj a) (.obj b)
  | tuple {r s : PRef} {xs ys : List PRef} : tupleOf h r = some xs → tupleOf h s = some ys → KeysEq h xs ys → KeyEq h r s
inductive KeysEq (h : PHeap) : List PRef → List PRef → Prop
  | nil : KeysEq h [] []
  | cons {x y : PRef} {xs ys : List PRef} : KeyEq h x y → KeysEq h xs ys → KeysEq h (x :: xs) (y :: ys)
end

end Verif.Spec
