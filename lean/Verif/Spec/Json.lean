import Verif.Py.Lit
/-!
# What JSON keeps of a value
-/
namespace Verif.Spec
open Verif
variable {F : Type}

/-- the first half of a surrogate pair -/
def high (c : Nat) : Prop := 0xD800 ≤ c ∧ c ≤ 0xDBFF
/-- the second half of a surrogate pair -/
def low (c : Nat) : Prop := 0xDC00 ≤ c ∧ c ≤ 0xDFFF

instance (c : Nat) : Decidable (high c) := inferInstanceAs (Decidable (_ ∧ _))
instance (c : Nat) : Decidable (low c) := inferInstanceAs (Decidable (_ ∧ _))

/-- the character of a surrogate pair -/
def pairChar (h l : Nat) : Nat := 0x10000 + ((h - 0xD800) * 0x400 + (l - 0xDC00))

/-- a text with every surrogate pair made one character -/
def joined : Text → Text
  | [] => []
  | [c] => [c]
  | a :: b :: r => if high a ∧ low b then pairChar a b :: joined r else a :: joined (b :: r)

/-- no first half of a surrogate pair directly before a second half -/
def NoPair : Text → Prop
  | [] => True
  | [_] => True
  | a :: b :: r => ¬ (high a ∧ low b) ∧ NoPair (b :: r)

/-- a finite float's text: an optional minus, a whole number without leading zeros, a fraction or an exponent or both -/
def IsFloatText (t : Text) : Prop :=
  ∃ neg int frac exp : Text, t = neg ++ int ++ frac ++ exp ∧ (neg = [] ∨ neg = [45]) ∧
    (int = [48] ∨ ∃ c d, int = c :: d ∧ 49 ≤ c ∧ c ≤ 57 ∧ ∀ x ∈ d, isDigit x = true) ∧
    (frac = [] ∨ ∃ d, frac = 46 :: d ∧ d ≠ [] ∧ ∀ x ∈ d, isDigit x = true) ∧
    (exp = [] ∨ ∃ e sg d, exp = e :: (sg ++ d) ∧ (e = 101 ∨ e = 69) ∧ (sg = [] ∨ sg = [43] ∨ sg = [45]) ∧ d ≠ [] ∧
      ∀ x ∈ d, isDigit x = true) ∧
    (frac ≠ [] ∨ exp ≠ [])

/-- what is trusted of floats: `repr` writes such a text, and `float` reads it back -/
structure FloatsOK (FT : Floats F) : Prop where
  text : ∀ f, IsFloatText (FT.repr f)
  back : ∀ f, FT.read (FT.repr f) = f

/-- the decimal text of an integer -/
def decInt (i : Int) : Text := if i < 0 then 45 :: decNat i.natAbs else decNat i.natAbs

/-- the string that stands for a key -/
def keyString (FT : Floats F) : PyVal F → Text
  | .str s => s
  | .int i => decInt i
  | .bool b => if b then codes "true".toList else codes "false".toList
  | .none => codes "null".toList
  | .float (.fin f) => FT.repr f
  | .float .nan => codes "NaN".toList
  | .float .inf => codes "Infinity".toList
  | .float .negInf => codes "-Infinity".toList
  | _ => []

/-- equal keys merged: each stays at its first place and has its last value -/
def merged {α : Type} : List (Text × α) → List (Text × α)
  | [] => []
  | (k, v) :: r => (k, (Dict.get? (merged r) k).getD v) :: (merged r).filter (fun p => p.1 ≠ k)

mutual
/-- what comes back: tuples are lists, keys are strings, items whose keys have the same string are merged, surrogate
pairs are joined -/
def jsonImage (FT : Floats F) : PyVal F → PyVal F
  | .str s => .str (joined s)
  | .list l => .list (jsonImages FT l)
  | .tuple l => .list (jsonImages FT l)
  | .dict d => .dict ((merged (jsonPairs FT d)).map fun p => (.str p.1, p.2))
  | .none => .none
  | .bool b => .bool b
  | .int i => .int i
  | .float x => .float x
  | .bytes b => .bytes b
  | .set l => .set l
  | .other n => .other n
def jsonImages (FT : Floats F) : List (PyVal F) → List (PyVal F)
  | [] => []
  | v :: r => jsonImage FT v :: jsonImages FT r
def jsonPairs (FT : Floats F) : List (PyVal F × PyVal F) → List (Text × PyVal F)
  | [] => []
  | (k, v) :: r => (joined (keyString FT k), jsonImage FT v) :: jsonPairs FT r
end

/-- an integer that can be written: at most `lim` digits (0 is no limit) -/
def Short (lim : Nat) (i : Int) : Prop := lim = 0 ∨ (decNat i.natAbs).length ≤ lim

/-- the keys JSON can write -/
def JsonKey (lim : Nat) : PyVal F → Prop
  | .str _ => True
  | .float _ => True
  | .bool _ => True
  | .none => True
  | .int i => Short lim i
  | _ => False

mutual
/-- the values JSON can write -/
def JsonAble (lim : Nat) : PyVal F → Prop
  | .none => True
  | .bool _ => True
  | .float _ => True
  | .str _ => True
  | .int i => Short lim i
  | .list l => JsonAbles lim l
  | .tuple l => JsonAbles lim l
  | .dict d => JsonAbleItems lim d
  | .bytes _ => False
  | .set _ => False
  | .other _ => False
def JsonAbles (lim : Nat) : List (PyVal F) → Prop
  | [] => True
  | v :: r => JsonAble lim v ∧ JsonAbles lim r
def JsonAbleItems (lim : Nat) : List (PyVal F × PyVal F) → Prop
  | [] => True
  | (k, v) :: r => JsonKey lim k ∧ JsonAble lim v ∧ JsonAbleItems lim r
end

/-- a key that stays what it is -/
def StableKey : PyVal F → Prop
  | .str s => NoPair s
  | _ => False

mutual
/-- "stable through JSON serialization": no tuples, only strings as keys, no surrogate pairs -/
def JsonStable : PyVal F → Prop
  | .none => True
  | .bool _ => True
  | .float _ => True
  | .int _ => True
  | .str s => NoPair s
  | .list l => JsonStables l
  | .dict d => JsonStableItems d
  | .tuple _ => False
  | .bytes _ => False
  | .set _ => False
  | .other _ => False
def JsonStables : List (PyVal F) → Prop
  | [] => True
  | v :: r => JsonStable v ∧ JsonStables r
def JsonStableItems : List (PyVal F × PyVal F) → Prop
  | [] => True
  | (k, v) :: r => StableKey k ∧ JsonStable v ∧ JsonStableItems r
end

/-- code points are below 0x110000 -/
def TextOK (t : Text) : Prop := ∀ c ∈ t, c < 0x110000

mutual
/-- what is true of every Python value: code points are below 0x110000, the keys of a dict are distinct -/
def Proper : PyVal F → Prop
  | .str s => TextOK s
  | .list l => Propers l
  | .tuple l => Propers l
  | .set l => Propers l
  | .dict d => (d.map Prod.fst).Nodup ∧ ProperItems d
  | .none => True
  | .bool _ => True
  | .float _ => True
  | .int _ => True
  | .bytes _ => True
  | .other _ => True
def Propers : List (PyVal F) → Prop
  | [] => True
  | v :: r => Proper v ∧ Propers r
def ProperItems : List (PyVal F × PyVal F) → Prop
  | [] => True
  | (k, v) :: r => Proper k ∧ Proper v ∧ ProperItems r
end

end Verif.Spec
