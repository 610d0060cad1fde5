import Verif.Py.PyLits
import Verif.Py.Utf8
import Verif.Spec.Json
/-!
# What the AST codec keeps of a value
-/
namespace Verif.Spec
open Verif
variable {F : Type}

/-- what is trusted of literals: `repr` of a finite float is a numeral with a fraction or an exponent, which reads back as the
float (a negative one as the negative of what follows the minus); printable characters are
code points and no surrogates -/
structure LitsOK (E : PyLits F) : Prop where
  text : ∀ f, IsFloatText (E.repr f)
  pos : ∀ f, (E.repr f).head? ≠ some 45 → E.read (E.repr f) = .fin f
  neg : ∀ f t, E.repr f = 45 :: t → ∃ g, E.read t = .fin g ∧ E.neg g = f
  printable : ∀ c, E.printable c = true → c < 0x110000 ∧ isSurrogate c = false

/-- no surrogates -/
def NoSurrogate (t : Text) : Prop := ∀ c ∈ t, isSurrogate c = false

mutual
/-- every integer can be written, and every object of another type has a text that can be encoded -/
def Showable (E : PyLits F) : PyVal F → Prop
  | .int i => Short E.digits i
  | .list l => ShowableAll E l
  | .tuple l => ShowableAll E l
  | .set l => ShowableAll E l
  | .dict d => ShowableItems E d
  | .other n => NoSurrogate (E.shown n)
  | .none => True
  | .bool _ => True
  | .float _ => True
  | .str _ => True
  | .bytes _ => True
def ShowableAll (E : PyLits F) : List (PyVal F) → Prop
  | [] => True
  | v :: r => Showable E v ∧ ShowableAll E r
def ShowableItems (E : PyLits F) : List (PyVal F × PyVal F) → Prop
  | [] => True
  | (k, v) :: r => Showable E k ∧ Showable E v ∧ ShowableItems E r
end

/-- a string is encoded itself, of any other value its `repr` -/
def Encodable (E : PyLits F) : PyVal F → Prop
  | .str s => NoSurrogate s
  | v => Showable E v

mutual
/-- values that can be elements of sets and keys of dicts -/
def CanHash : PyVal F → Prop
  | .list _ => False
  | .set _ => False
  | .dict _ => False
  | .tuple l => CanHashAll l
  | .none => True
  | .bool _ => True
  | .int _ => True
  | .float _ => True
  | .str _ => True
  | .bytes _ => True
  | .other _ => True
def CanHashAll : List (PyVal F) → Prop
  | [] => True
  | v :: r => CanHash v ∧ CanHashAll r
end

mutual
/-- what is true of every value made of built-in types: code points are below 0x110000, bytes below 256, the elements of a set
and the keys of a dict are hashable and no two of them equal -/
def Sound (E : PyLits F) : PyVal F → Prop
  | .str s => TextOK s
  | .bytes b => ∀ x ∈ b, x < 256
  | .list l => Sounds E l
  | .tuple l => Sounds E l
  | .set l => (∀ x ∈ l, CanHash x) ∧ l.Pairwise (fun x y => E.same x y = false) ∧ Sounds E l
  | .dict d => (∀ p ∈ d, CanHash p.1) ∧ d.Pairwise (fun p q => E.same p.1 q.1 = false) ∧ SoundItems E d
  | .other _ => False
  | .none => True
  | .bool _ => True
  | .int _ => True
  | .float _ => True
def Sounds (E : PyLits F) : List (PyVal F) → Prop
  | [] => True
  | v :: r => Sound E v ∧ Sounds E r
def SoundItems (E : PyLits F) : List (PyVal F × PyVal F) → Prop
  | [] => True
  | (k, v) :: r => Sound E k ∧ Sound E v ∧ SoundItems E r
end

mutual
/-- no nan and no infinity, at any depth -/
def AllFinite : PyVal F → Prop
  | .float (.fin _) => True
  | .float _ => False
  | .list l => AllFinites l
  | .tuple l => AllFinites l
  | .set l => AllFinites l
  | .dict d => AllFiniteItems d
  | .none => True
  | .bool _ => True
  | .int _ => True
  | .str _ => True
  | .bytes _ => True
  | .other _ => True
def AllFinites : List (PyVal F) → Prop
  | [] => True
  | v :: r => AllFinite v ∧ AllFinites r
def AllFiniteItems : List (PyVal F × PyVal F) → Prop
  | [] => True
  | (k, v) :: r => AllFinite k ∧ AllFinite v ∧ AllFiniteItems r
end

mutual
/-- how deep containers are nested; an empty one counts -/
def depth : PyVal F → Nat
  | .list l => depths l + 1
  | .tuple l => depths l + 1
  | .set l => depths l + 1
  | .dict d => depthItems d + 1
  | .none => 0
  | .bool _ => 0
  | .int _ => 0
  | .float _ => 0
  | .str _ => 0
  | .bytes _ => 0
  | .other _ => 0
def depths : List (PyVal F) → Nat
  | [] => 0
  | v :: r => max (depth v) (depths r)
def depthItems : List (PyVal F × PyVal F) → Nat
  | [] => 0
  | (k, v) :: r => max (depth k) (max (depth v) (depthItems r))
end

/-- not a string -/
def NotStr : PyVal F → Prop
  | .str _ => False
  | _ => True

/-- a letter of an ASCII identifier -/
def Letter (c : Nat) : Prop := 65 ≤ c ∧ c ≤ 90 ∨ 97 ≤ c ∧ c ≤ 122 ∨ c = 95

/-- Python's keywords -/
def pyWords : List String :=
  ["False", "None", "True", "and", "as", "assert", "async", "await", "break", "class", "continue", "def", "del", "elif", "else",
   "except", "finally", "for", "from", "global", "if", "import", "in", "is", "lambda", "nonlocal", "not", "or", "pass", "raise",
   "return", "try", "while", "with", "yield"]

/-- a text that is an ASCII identifier and no keyword -/
def IsWord (t : Text) : Prop :=
  ∃ c r, t = c :: r ∧ Letter c ∧ (∀ x ∈ r, Letter x ∨ 48 ≤ x ∧ x ≤ 57) ∧ ∀ w ∈ pyWords, t ≠ codes w.toList

end Verif.Spec
