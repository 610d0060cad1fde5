import Verif.Py.Utf8
import Verif.Py.PyLits
import Verif.Model.Json
/-!
# Model of the AST codec, `/repo/dustgoggles/codex/codecs.py:33-47`

`encode` is `str(value).encode()` and `decode` is `ast.literal_eval(blob.decode())`. Modelled after CPython 3.11: `repr` of the
built-in types, the part of Python's grammar in which these texts are (and words, and brackets around them), and
`ast.literal_eval` (`Lib/ast.py:54-110`). What `literal_eval` does with a text outside that part is abstract
(`PyLits.elsewhere`): the theorems hold whatever it does. Simplifications: no recursion limit other than `PyLits.nesting`; the
elements of a decoded set are in the order of the text.
-/
namespace Verif.Model
open Verif

variable {F : Type}

/-! ## `repr` -/

def hex2 (n : Nat) : Text := [hexDigit (n / 16 % 16), hexDigit (n % 16)]

/-- `Objects/unicodeobject.c unicode_repr`, one character between quotes `q` -/
def escChar (printable : Nat → Bool) (q c : Nat) : Text :=
  if c = q ∨ c = 92 then [92, c]
  else if c = 9 then [92, 116]
  else if c = 10 then [92, 110]
  else if c = 13 then [92, 114]
  else if c < 32 ∨ c = 127 then 92 :: 120 :: hex2 c
  else if c < 127 then [c]
  else if printable c then [c]
  else if c < 256 then 92 :: 120 :: hex2 c
  else if c < 65536 then 92 :: 117 :: hex4 c
  else 92 :: 85 :: (hex4 (c / 65536) ++ hex4 (c % 65536))

/-- the quotes: double ones if there are single ones inside and no double ones -/
def quoteOf (s : Text) : Nat := if s.contains 39 && !s.contains 34 then 34 else 39

/-- `repr` of a `str` -/
def strRepr (printable : Nat → Bool) (s : Text) : Text :=
  quoteOf s :: (s.flatMap (escChar printable (quoteOf s)) ++ [quoteOf s])

/-- `repr` of a `bytes` object (`Objects/bytesobject.c PyBytes_Repr`): as of a `str` without printable characters above 127 -/
def bytesRepr (b : Bytes) : Text := 98 :: strRepr (fun _ => false) b

def noneText : Text := codes "None".toList
def pyTrue : Text := codes "True".toList
def pyFalse : Text := codes "False".toList
def nanText : Text := codes "nan".toList
def infText : Text := codes "inf".toList
def setText : Text := codes "set".toList

mutual
/-- `repr(value)` -/
def pyRepr (E : PyLits F) : PyVal F → Except PyErr Text
  | .none => .ok noneText
  | .bool true => .ok pyTrue
  | .bool false => .ok pyFalse
  | .int i => intText E.digits i
  | .float (.fin f) => .ok (E.repr f)
  | .float .nan => .ok nanText
  | .float .inf => .ok infText
  | .float .negInf => .ok (45 :: infText)
  | .str s => .ok (strRepr E.printable s)
  | .bytes b => .ok (bytesRepr b)
  | .list [] => .ok [91, 93]
  | .list (v :: r) => do
    let a ← pyRepr E v
    let b ← reprRest E r
    .ok (91 :: (a ++ (b ++ [93])))
  | .tuple [] => .ok [40, 41]
  | .tuple (v :: r) => do
    let a ← pyRepr E v
    let b ← reprRest E r
    .ok (40 :: (a ++ ((if r.isEmpty then [44] else b) ++ [41])))
  | .set [] => .ok (setText ++ [40, 41])
  | .set (v :: r) => do
    let a ← pyRepr E v
    let b ← reprRest E r
    .ok (123 :: (a ++ (b ++ [125])))
  | .dict [] => .ok [123, 125]
  | .dict ((k, v) :: r) => do
    let k ← pyRepr E k
    let a ← pyRepr E v
    let b ← reprItems E r
    .ok (123 :: (k ++ 58 :: 32 :: (a ++ (b ++ [125]))))
  | .other n => .ok (E.shown n)
/-- the elements after the first -/
def reprRest (E : PyLits F) : List (PyVal F) → Except PyErr Text
  | [] => .ok []
  | v :: r => do
    let a ← pyRepr E v
    let b ← reprRest E r
    .ok (44 :: 32 :: (a ++ b))
/-- the items after the first -/
def reprItems (E : PyLits F) : List (PyVal F × PyVal F) → Except PyErr Text
  | [] => .ok []
  | (k, v) :: r => do
    let k ← pyRepr E k
    let a ← pyRepr E v
    let b ← reprItems E r
    .ok (44 :: 32 :: (k ++ 58 :: 32 :: (a ++ b)))
end

/-- `str(value)`: of a string the string itself -/
def pyStr (E : PyLits F) : PyVal F → Except PyErr Text
  | .str s => .ok s
  | v => pyRepr E v

/-! ## the grammar -/

/-- expressions -/
inductive Expr (F : Type) where
  | const (v : PyVal F)
  | name (t : Text)
  | neg (e : Expr F)
  | list (l : List (Expr F))
  | tuple (l : List (Expr F))
  | set (l : List (Expr F))
  | dict (l : List (Expr F × Expr F))
  | call (f : Text)

/-- two hexadecimal digits -/
def xXX : Text → Option (Nat × Text)
  | a :: b :: r => do
    let a ← hexVal a
    let b ← hexVal b
    some (a * 16 + b, r)
  | _ => none

/-- the characters of a string literal up to the quote `q`. Left out: octal and named escapes, `\a \b \f \v`, unknown escapes,
continued lines, control characters -/
def unescape (bytes : Bool) (q : Nat) : Nat → Text → Option (Text × Text)
  | 0, _ => none
  | _ + 1, [] => none
  | f + 1, c :: r =>
    if c = q then some ([], r)
    else if c = 92 then
      match r with
      | [] => none
      | e :: r1 =>
        if e = 92 ∨ e = 39 ∨ e = 34 then (unescape bytes q f r1).map fun p => (e :: p.1, p.2)
        else if e = 116 then (unescape bytes q f r1).map fun p => (9 :: p.1, p.2)
        else if e = 110 then (unescape bytes q f r1).map fun p => (10 :: p.1, p.2)
        else if e = 114 then (unescape bytes q f r1).map fun p => (13 :: p.1, p.2)
        else if e = 120 then
          match xXX r1 with
          | none => none
          | some (n, r2) => (unescape bytes q f r2).map fun p => (n :: p.1, p.2)
        else if bytes then none
        else if e = 117 then
          match uXXXX r1 with
          | none => none
          | some (n, r2) => (unescape bytes q f r2).map fun p => (n :: p.1, p.2)
        else if e = 85 then
          match uXXXX r1 with
          | none => none
          | some (n, r2) =>
            match uXXXX r2 with
            | none => none
            | some (m, r3) =>
              if n * 65536 + m < 0x110000 then (unescape bytes q f r3).map fun p => ((n * 65536 + m) :: p.1, p.2) else none
        else none
    else if c < 32 ∨ c = 127 ∨ (bytes ∧ 127 < c) then none
    else (unescape bytes q f r).map fun p => (c :: p.1, p.2)

/-- a string literal after its first quote; literals in triple quotes are left out -/
def parseStr (bytes : Bool) (q : Nat) (r : Text) : Option (Text × Text) :=
  if r.take 2 = [q, q] then none else unescape bytes q (r.length + 1) r

/-- an unsigned numeral. Left out: other bases, `_`, `1.`, `.5`, imaginary numbers -/
def parseNumber (E : PyLits F) (t : Text) : Option (PyVal F × Text) :=
  match scanInt t with
  | none => none
  | some (i, r) =>
    let (fr, r1) := scanFrac r
    let (ex, r2) := scanExp r1
    if fr ≠ [] ∨ ex ≠ [] then some (.float (E.read (i ++ fr ++ ex)), r2)
    else if E.digits ≠ 0 ∧ E.digits < i.length then none
    else some (.int (textNat i : Nat), r2)

def identStart (c : Nat) : Bool := (65 ≤ c && c ≤ 90) || (97 ≤ c && c ≤ 122) || c == 95
def identChar (c : Nat) : Bool := identStart c || isDigit c

/-- Python's keywords other than the three constants -/
def keywords : List Text :=
  ["and", "as", "assert", "async", "await", "break", "class", "continue", "def", "del", "elif", "else", "except", "finally",
   "for", "from", "global", "if", "import", "in", "is", "lambda", "nonlocal", "not", "or", "pass", "raise", "return", "try",
   "while", "with", "yield"].map fun s => codes s.toList

/-- a word: a constant, a call `f()`, or a name -/
def wordExpr (lv : Nat) (w r : Text) : Option (Expr F × Text) :=
  if w = noneText then some (.const .none, r)
  else if w = pyTrue then some (.const (.bool true), r)
  else if w = pyFalse then some (.const (.bool false), r)
  else if w ∈ keywords then none
  else if r.take 2 = [40, 41] then (if lv = 0 then none else some (.call w, r.drop 2))
  else some (.name w, r)

mutual
/-- an expression: literals, words, `-` and an expression, displays. The numbers are a bound of the steps, and the number of
brackets that may still be opened. White space is as `repr` makes it; all else is left out -/
def parseExpr (E : PyLits F) : Nat → Nat → Text → Option (Expr F × Text)
  | 0, _, _ => none
  | _ + 1, _, [] => none
  | f + 1, lv, c :: r =>
    if c = 39 ∨ c = 34 then (parseStr false c r).map fun p => (.const (.str p.1), p.2)
    else if c = 45 then (parseExpr E f lv r).map fun p => (.neg p.1, p.2)
    else if isDigit c then (parseNumber E (c :: r)).map fun p => (.const p.1, p.2)
    else if c = 91 then
      if lv = 0 then none
      else
        if r.take 1 = [93] then some (.list [], r.drop 1)
        else (parseElems E f (lv - 1) 93 r).map fun p => (.list p.1, p.2)
    else if c = 40 then
      if lv = 0 then none
      else
        if r.take 1 = [41] then some (.tuple [], r.drop 1)
        else match parseExpr E f (lv - 1) r with
          | none => none
          | some (e, r1) =>
            if r1.take 2 = [44, 41] then some (.tuple [e], r1.drop 2)
            else if r1.take 2 = [44, 32] then (parseElems E f (lv - 1) 41 (r1.drop 2)).map fun p => (.tuple (e :: p.1), p.2)
            else none
    else if c = 123 then
      if lv = 0 then none
      else
        if r.take 1 = [125] then some (.dict [], r.drop 1)
        else match parseExpr E f (lv - 1) r with
          | none => none
          | some (e, r1) =>
            if r1.take 1 = [125] then some (.set [e], r1.drop 1)
            else if r1.take 2 = [44, 32] then (parseElems E f (lv - 1) 125 (r1.drop 2)).map fun p => (.set (e :: p.1), p.2)
            else if r1.take 2 = [58, 32] then (parseItems E f (lv - 1) e (r1.drop 2)).map fun p => (.dict p.1, p.2)
            else none
    else if identStart c then
      if c = 98 ∧ (r.take 1 = [39] ∨ r.take 1 = [34]) then
        (parseStr true (r.headD 0) (r.drop 1)).map fun p => (.const (.bytes p.1), p.2)
      else wordExpr lv ((c :: r).takeWhile identChar) ((c :: r).dropWhile identChar)
    else none
/-- expressions with `, ` between them up to a closing bracket -/
def parseElems (E : PyLits F) : Nat → Nat → Nat → Text → Option (List (Expr F) × Text)
  | 0, _, _, _ => none
  | f + 1, lv, close, t =>
    match parseExpr E f lv t with
    | none => none
    | some (e, r) =>
      if r.take 1 = [close] then some ([e], r.drop 1)
      else if r.take 2 = [44, 32] then (parseElems E f lv close (r.drop 2)).map fun p => (e :: p.1, p.2)
      else none
/-- the value of a key, and further items, up to the closing brace -/
def parseItems (E : PyLits F) : Nat → Nat → Expr F → Text → Option (List (Expr F × Expr F) × Text)
  | 0, _, _, _ => none
  | f + 1, lv, k, t =>
    match parseExpr E f lv t with
    | none => none
    | some (v, r) =>
      if r.take 1 = [125] then some ([(k, v)], r.drop 1)
      else if r.take 2 = [44, 32] then
        match parseExpr E f lv (r.drop 2) with
        | none => none
        | some (k', r1) =>
          if r1.take 2 = [58, 32] then (parseItems E f lv k' (r1.drop 2)).map fun p => ((k, v) :: p.1, p.2) else none
      else none
end

/-! ## `ast.literal_eval` -/

mutual
/-- values that can be keys -/
def hashable : PyVal F → Bool
  | .list _ => false
  | .set _ => false
  | .dict _ => false
  | .tuple l => hashables l
  | _ => true
def hashables : List (PyVal F) → Bool
  | [] => true
  | v :: r => hashable v && hashables r
end

def negFloat (E : PyLits F) : PyFloat F → PyFloat F
  | .fin f => .fin (E.neg f)
  | .nan => .nan
  | .inf => .negInf
  | .negInf => .inf

/-- `s.add(v)` -/
def setAdd (E : PyLits F) (s : List (PyVal F)) (v : PyVal F) : List (PyVal F) := if s.any fun x => E.same x v then s else s ++ [v]

/-- `d[k] = v` -/
def dictAdd (E : PyLits F) : List (PyVal F × PyVal F) → PyVal F → PyVal F → List (PyVal F × PyVal F)
  | [], k, v => [(k, v)]
  | (k', v') :: r, k, v => if E.same k' k then (k', v) :: r else (k', v') :: dictAdd E r k v

mutual
/-- ast.py:84-109 `_convert` -/
def convert (E : PyLits F) : Expr F → Except PyErr (PyVal F)
  | .const v => .ok v                                                        -- 85-86
  | .tuple l => (convertAll E l).map .tuple                                  -- 87-88
  | .list l => (convertAll E l).map .list                                    -- 89-90
  | .set l => (convertSet E [] l).map .set                                   -- 91-92
  | .call f => if f = setText then .ok (.set []) else .error .valueError     -- 93-95
  | .dict l => (convertDict E [] l).map .dict                                -- 96-100
  | .neg (.const (.int i)) => .ok (.int (-i))                                -- 76-82
  | .neg (.const (.float x)) => .ok (.float (negFloat E x))
  | .neg _ => .error .valueError                                             -- 72-74, 109
  | .name _ => .error .valueError
def convertAll (E : PyLits F) : List (Expr F) → Except PyErr (List (PyVal F))
  | [] => .ok []
  | e :: r => do
    let v ← convert E e
    let vs ← convertAll E r
    .ok (v :: vs)
def convertSet (E : PyLits F) (s : List (PyVal F)) : List (Expr F) → Except PyErr (List (PyVal F))
  | [] => .ok s
  | e :: r => do
    let v ← convert E e
    if hashable v then convertSet E (setAdd E s v) r else .error .typeError
def convertDict (E : PyLits F) (d : List (PyVal F × PyVal F)) : List (Expr F × Expr F) → Except PyErr (List (PyVal F × PyVal F))
  | [] => .ok d
  | (k, e) :: r => do
    let k ← convert E k
    let v ← convert E e
    if hashable k then convertDict E (dictAdd E d k v) r else .error .typeError
end

/-- ast.py:54-66, 110: `literal_eval` of a text -/
def literalEval (E : PyLits F) (t : Text) : Except PyErr (PyVal F) :=
  let s := t.dropWhile fun c => c == 32 || c == 9                            -- 64
  match parseExpr E (s.length + 1) E.nesting s with
  | some (e, []) => convert E e
  | _ => E.elsewhere t

/-- codecs.py:33-47 `ast_codec_factory()` -/
def astCodec (E : PyLits F) : Codec (PyVal F) where
  encode v := do utf8Encode (← pyStr E v)                                    -- 43
  decode b := do literalEval E (← utf8Decode b)                              -- 46

end Verif.Model
