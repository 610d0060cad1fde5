import Verif.Model.Json
/-!
# The metadata of arrays, as JSON

implements.py:524-528: a `MetaTagIndex` stores its values with the JSON codec; codecs.py:151-163: `remember_array` reads
the metadata of an array from the stored bytes.
-/
namespace Verif.Model
open Verif
variable {F : Type}

/-- codecs.py:141-146: the metadata dict; `array.shape` is a tuple -/
def metaVal (m : ArrMeta) : PyVal F :=
  .dict [(.str (codes "name".toList), .str (codes m.name)), (.str (codes "dtype".toList), .str (codes m.dtype)),
    (.str (codes "shape".toList), .tuple (m.shape.map fun n => .int (n : Nat))), (.str (codes "size".toList), .int m.size)]

/-- `metadata[key]` -/
def item (key : Text) : List (PyVal F × PyVal F) → Except PyErr (PyVal F)
  | [] => .error .keyError
  | (.str k, v) :: r => if k = key then .ok v else item key r
  | _ :: r => item key r

/-- a value used as a block's name or as a dtype -/
def asStr : PyVal F → Except PyErr Str
  | .str s => .ok (chars s)
  | _ => .error .typeError

/-- a value used as a length: negative dimensions are refused by numpy -/
def asLen : PyVal F → Except PyErr Nat
  | .int i => if i < 0 then .error .valueError else .ok i.toNat
  | _ => .error .typeError

def asLens : List (PyVal F) → Except PyErr (List Nat)
  | [] => .ok []
  | v :: r => do
    let n ← asLen v
    let ns ← asLens r
    .ok (n :: ns)

/-- a value used as a shape -/
def asShape : PyVal F → Except PyErr (List Nat)
  | .list l => asLens l
  | .tuple l => asLens l
  | _ => .error .typeError

/-- codecs.py:154-160: the items `remember_array` uses. (It does not use `size`; that is read here so that the metadata
that came back can be compared with those that went in.) -/
def metaOfVal : PyVal F → Except PyErr ArrMeta
  | .dict d => do
    let name ← asStr (← item (codes "name".toList) d)
    let shape ← asShape (← item (codes "shape".toList) d)
    let dtype ← asStr (← item (codes "dtype".toList) d)
    let size ← asLen (← item (codes "size".toList) d)
    .ok ⟨name, dtype, shape, size⟩
  | _ => .error .typeError

/-- implements.py:524-528 and codecs.py:141-163: metadata stored by a `MetaTagIndex` and read by `remember_array` -/
def jsonMeta (FT : Floats F) (lim : Nat) : Codec ArrMeta where
  encode m := (jsonCodec FT lim).encode (metaVal m)
  decode b := do metaOfVal (← (jsonCodec FT lim).decode b)

end Verif.Model
