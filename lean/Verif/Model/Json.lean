import Verif.Py.Lit
import Verif.Model.Codecs
/-!
# Model of the JSON codec, `/repo/dustgoggles/codex/codecs.py:14-30`

`encode` is `json.dumps(value).encode()` and `decode` is `json.loads(blob)`. The two functions of the standard library
are modelled after its source (CPython 3.11 `Lib/json/encoder.py`, `decoder.py`, `scanner.py` and their C versions).
Also modelled: `json.dumps(value, indent=n)`, which tracker.py:92 uses. Simplifications: `RecursionError` of deeply
nested values is not modelled; every `JSONDecodeError` is a `ValueError`.
-/
namespace Verif.Model
open Verif

variable {F : Type}

/-! ## `json.dumps` -/

/-- the last four hexadecimal digits, `'{0:04x}'.format(n)` -/
def hexDigit (d : Nat) : Nat := if d < 10 then 48 + d else 87 + d

def hex4 (n : Nat) : Text :=
  [hexDigit (n / 4096 % 16), hexDigit (n / 256 % 16), hexDigit (n / 16 % 16), hexDigit (n % 16)]

/-- encoder.py:21-30 `ESCAPE_DCT` without its `\u00xx` entries -/
def shortEscape (c : Nat) : Option Nat :=
  if c = 92 then some 92 else if c = 34 then some 34 else if c = 8 then some 98 else if c = 12 then some 102
  else if c = 10 then some 110 else if c = 13 then some 114 else if c = 9 then some 116 else none

/-- encoder.py:49-68 `py_encode_basestring_ascii`, one character; `0xd800 | x` is `0xd800 + x` for `x < 0x400` -/
def encChar (c : Nat) : Text :=
  match shortEscape c with
  | some e => [92, e]
  | none =>
    if 32 ≤ c ∧ c ≤ 126 then [c]
    else if c < 65536 then 92 :: 117 :: hex4 c
    else 92 :: 117 :: hex4 (55296 + (c - 65536) / 1024 % 1024) ++ 92 :: 117 :: hex4 (56320 + (c - 65536) % 1024)

/-- encoder.py:68: the string in quotes -/
def encStr (s : Text) : Text := 34 :: (s.flatMap encChar ++ [34])

/-- `int.__repr__`; a number of more than `lim` digits raises `ValueError` (`sys.set_int_max_str_digits`; 0 is no limit) -/
def intText (lim : Nat) (i : Int) : Except PyErr Text :=
  let d := decNat i.natAbs
  if lim ≠ 0 ∧ lim < d.length then .error .valueError else .ok (if i < 0 then 45 :: d else d)

/-- encoder.py:224-245 `floatstr` -/
def floatText (FT : Floats F) : PyFloat F → Text
  | .fin f => FT.repr f
  | .nan => [78, 97, 78]
  | .inf => [73, 110, 102, 105, 110, 105, 116, 121]
  | .negInf => [45, 73, 110, 102, 105, 110, 105, 116, 121]

def nullText : Text := [110, 117, 108, 108]
def trueText : Text := [116, 114, 117, 101]
def falseText : Text := [102, 97, 108, 115, 101]

/-- encoder.py:358-380: the text of a key -/
def keyText (FT : Floats F) (lim : Nat) : PyVal F → Except PyErr Text
  | .str s => .ok s
  | .float x => .ok (floatText FT x)
  | .bool true => .ok trueText
  | .bool false => .ok falseText
  | .none => .ok nullText
  | .int i => intText lim i
  | _ => .error .typeError

/-- what is put after an opening bracket, after a comma and before a closing bracket at a nesting level -/
structure Layout where
  opens : Nat → Text
  seps : Nat → Text
  closes : Nat → Text

/-- `json.dumps(value)`: the item separator is `', '` (encoder.py:103) -/
def compact : Layout := ⟨fun _ => [], fun _ => [32], fun _ => []⟩

/-- a line break and `n * level` spaces, encoder.py:290, 346 -/
def lineBreak (n level : Nat) : Text := 10 :: List.replicate (n * level) 32

/-- `json.dumps(value, indent=n)`: the item separator is `','` and the line break (encoder.py:157, 287-292, 343-348) -/
def indented (n : Nat) : Layout := ⟨fun l => lineBreak n (l + 1), fun l => lineBreak n (l + 1), fun l => lineBreak n l⟩

mutual
/-- encoder.py:414-443 `_iterencode`, with `_iterencode_list` (278-332) and `_iterencode_dict` (334-412) -/
def dumps (FT : Floats F) (lim : Nat) (L : Layout) (lv : Nat) : PyVal F → Except PyErr Text
  | .str s => .ok (encStr s)
  | .none => .ok nullText
  | .bool true => .ok trueText
  | .bool false => .ok falseText
  | .int i => intText lim i
  | .float x => .ok (floatText FT x)
  | .list [] => .ok [91, 93]
  | .list (v :: r) => do
    let a ← dumps FT lim L (lv + 1) v
    let b ← dumpsRest FT lim L lv r
    .ok (91 :: (L.opens lv ++ a ++ b ++ L.closes lv ++ [93]))
  | .tuple [] => .ok [91, 93]
  | .tuple (v :: r) => do
    let a ← dumps FT lim L (lv + 1) v
    let b ← dumpsRest FT lim L lv r
    .ok (91 :: (L.opens lv ++ a ++ b ++ L.closes lv ++ [93]))
  | .dict [] => .ok [123, 125]
  | .dict ((k, v) :: r) => do
    let kt ← keyText FT lim k
    let a ← dumps FT lim L (lv + 1) v
    let b ← dumpsItems FT lim L lv r
    .ok (123 :: (L.opens lv ++ encStr kt ++ [58, 32] ++ a ++ b ++ L.closes lv ++ [125]))
  | .bytes _ => .error .typeError
  | .set _ => .error .typeError
  | .other _ => .error .typeError
/-- encoder.py:297-327: the elements after the first -/
def dumpsRest (FT : Floats F) (lim : Nat) (L : Layout) (lv : Nat) : List (PyVal F) → Except PyErr Text
  | [] => .ok []
  | v :: r => do
    let a ← dumps FT lim L (lv + 1) v
    let b ← dumpsRest FT lim L lv r
    .ok (44 :: (L.seps lv ++ a ++ b))
/-- encoder.py:357-407: the items after the first -/
def dumpsItems (FT : Floats F) (lim : Nat) (L : Layout) (lv : Nat) : List (PyVal F × PyVal F) → Except PyErr Text
  | [] => .ok []
  | (k, v) :: r => do
    let kt ← keyText FT lim k
    let a ← dumps FT lim L (lv + 1) v
    let b ← dumpsItems FT lim L lv r
    .ok (44 :: (L.seps lv ++ encStr kt ++ [58, 32] ++ a ++ b))
end

/-! ## `json.loads` -/

/-- decoder.py:54-57 `BACKSLASH` -/
def backslash (e : Nat) : Option Nat :=
  if e = 34 then some 34 else if e = 92 then some 92 else if e = 47 then some 47 else if e = 98 then some 8
  else if e = 102 then some 12 else if e = 110 then some 10 else if e = 114 then some 13 else if e = 116 then some 9
  else none

def hexVal (c : Nat) : Option Nat :=
  if 48 ≤ c ∧ c ≤ 57 then some (c - 48)
  else if 97 ≤ c ∧ c ≤ 102 then some (c - 87)
  else if 65 ≤ c ∧ c ≤ 70 then some (c - 55) else none

/-- decoder.py:59-67 `_decode_uXXXX` -/
def uXXXX : Text → Option (Nat × Text)
  | a :: b :: c :: d :: r => do
    let a ← hexVal a
    let b ← hexVal b
    let c ← hexVal c
    let d ← hexVal d
    some (a * 4096 + b * 256 + c * 16 + d, r)
  | _ => none

/-- decoder.py:69-126 `py_scanstring`, from the opening quote on; the number is a bound of the characters -/
def scanStr : Nat → Text → Option (Text × Text)
  | 0, _ => none
  | _ + 1, [] => none                                             -- 84-85
  | f + 1, c :: r =>
    if c = 34 then some ([], r)                                   -- 93-94
    else if c = 92 then                                           -- 103
      match r with
      | [] => none                                                -- 105-107
      | e :: r1 =>
        if e = 117 then                                           -- 116
          match uXXXX r1 with
          | none => none
          | some (u, r2) =>
            match r2 with
            | 92 :: 117 :: r3 =>
              if 55296 ≤ u ∧ u ≤ 56319 then                       -- 119
                match uXXXX r3 with
                | none => none
                | some (u2, r4) =>
                  if 56320 ≤ u2 ∧ u2 ≤ 57343 then                 -- 121-123
                    (scanStr f r4).map fun p => ((65536 + ((u - 55296) * 1024 + (u2 - 56320))) :: p.1, p.2)
                  else (scanStr f r2).map fun p => (u :: p.1, p.2)
              else (scanStr f r2).map fun p => (u :: p.1, p.2)
            | _ => (scanStr f r2).map fun p => (u :: p.1, p.2)
        else match backslash e with                               -- 109-115
          | none => none
          | some ch => (scanStr f r1).map fun p => (ch :: p.1, p.2)
    else if c < 32 then none                                      -- 95-99
    else (scanStr f r).map fun p => (c :: p.1, p.2)

/-- decoder.py:132 `WHITESPACE.match` -/
def isWs (c : Nat) : Bool := c == 32 || c == 9 || c == 10 || c == 13

def skipWs (t : Text) : Text := t.dropWhile isWs

/-- the text after a prefix, if it begins with it -/
def after : Text → Text → Option Text
  | [], t => some t
  | _ :: _, [] => none
  | a :: p, b :: t => if a = b then after p t else none

/-- scanner.py:11-13 `NUMBER_RE`, `(-?(?:0|[1-9]\d*))` -/
def scanInt (t : Text) : Option (Text × Text) :=
  let body (sign r : Text) : Option (Text × Text) :=
    match r with
    | [] => none
    | c :: r =>
      if c = 48 then some (sign ++ [48], r)
      else if 49 ≤ c ∧ c ≤ 57 then some (sign ++ c :: r.takeWhile isDigit, r.dropWhile isDigit) else none
  match t with
  | [] => none
  | c :: r => if c = 45 then body [45] r else body [] t

/-- scanner.py:11-13 `(\.\d+)?` -/
def scanFrac (t : Text) : Text × Text :=
  match t with
  | [] => ([], t)
  | c :: r => if c = 46 ∧ r.takeWhile isDigit ≠ [] then (46 :: r.takeWhile isDigit, r.dropWhile isDigit) else ([], t)

/-- the sign of an exponent -/
def scanSign (t : Text) : Text × Text :=
  match t with
  | [] => ([], t)
  | c :: r => if c = 45 ∨ c = 43 then ([c], r) else ([], t)

/-- scanner.py:11-13 `([eE][-+]?\d+)?` -/
def scanExp (t : Text) : Text × Text :=
  match t with
  | [] => ([], t)
  | c :: r =>
    let (sg, r1) := scanSign r
    if (c = 101 ∨ c = 69) ∧ r1.takeWhile isDigit ≠ [] then (c :: (sg ++ r1.takeWhile isDigit), r1.dropWhile isDigit)
    else ([], t)

/-- `int(text)` of a text `-?\d+` -/
def readInt (lim : Nat) (t : Text) : Except PyErr Int :=
  let val (d : Text) : Except PyErr Nat := if lim ≠ 0 ∧ lim < d.length then .error .valueError else .ok (textNat d)
  match t with
  | [] => .error .valueError
  | c :: r => if c = 45 then (val r).map fun n => - (n : Int) else (val t).map fun n => (n : Int)

/-- scanner.py:44-62: numbers and the three constants -/
def scanNumber (FT : Floats F) (lim : Nat) (t : Text) : Except PyErr (PyVal F × Text) :=
  match scanInt t with
  | some (i, r) =>
    let (fr, r1) := scanFrac r
    let (ex, r2) := scanExp r1
    if fr ≠ [] ∨ ex ≠ [] then .ok (.float (.fin (FT.read (i ++ fr ++ ex))), r2)
    else (readInt lim i).map fun n => (.int n, r2)
  | none =>
    match after (floatText FT .nan) t with
    | some r => .ok (.float .nan, r)
    | none =>
      match after (floatText FT .inf) t with
      | some r => .ok (.float .inf, r)
      | none =>
        match after (floatText FT .negInf) t with
        | some r => .ok (.float .negInf, r)
        | none => .error .valueError

mutual
/-- scanner.py:27-62 `_scan_once` -/
def scanOnce (FT : Floats F) (lim : Nat) : Nat → Text → Except PyErr (PyVal F × Text)
  | 0, _ => .error .valueError
  | _ + 1, [] => .error .valueError
  | f + 1, c :: r =>
    if c = 34 then
      match scanStr (r.length + 1) r with
      | some (s, r') => .ok (.str s, r')
      | none => .error .valueError
    else if c = 123 then                                          -- decoder.py:136-215 `JSONObject`
      match skipWs r with
      | [] => .error .valueError
      | d :: r1 =>
        if d = 125 then .ok (.dict [], r1)                        -- 154-161
        else if d = 34 then do
          let (ps, r2) ← scanItems FT lim f r1
          .ok (.dict ((Dict.update [] ps).map fun p => (.str p.1, p.2)), r2)   -- 212
        else .error .valueError                                   -- 162-164
    else if c = 91 then                                           -- decoder.py:217-251 `JSONArray`
      match skipWs r with
      | [] => .error .valueError
      | d :: r1 =>
        if d = 93 then .ok (.list [], r1)                         -- 225-226
        else do
          let (vs, r2) ← scanElems FT lim f (d :: r1)
          .ok (.list vs, r2)
    else match after nullText (c :: r) with
      | some r' => .ok (.none, r')
      | none =>
        match after trueText (c :: r) with
        | some r' => .ok (.bool true, r')
        | none =>
          match after falseText (c :: r) with
          | some r' => .ok (.bool false, r')
          | none => scanNumber FT lim (c :: r)
/-- decoder.py:166-208, from the opening quote of a key on -/
def scanItems (FT : Floats F) (lim : Nat) : Nat → Text → Except PyErr (List (Text × PyVal F) × Text)
  | 0, _ => .error .valueError
  | f + 1, t =>
    match scanStr (t.length + 1) t with                           -- 167
    | none => .error .valueError
    | some (k, r) =>
      match skipWs r with                                         -- 171-174
      | [] => .error .valueError
      | d :: r1 =>
        if d ≠ 58 then .error .valueError else do
          let (v, r2) ← scanOnce FT lim f (skipWs r1)             -- 177-188
          match skipWs r2 with                                    -- 190-202
          | [] => .error .valueError
          | d :: r3 =>
            if d = 125 then .ok ([(k, v)], r3)
            else if d ≠ 44 then .error .valueError
            else match skipWs r3 with                             -- 203-208
              | [] => .error .valueError
              | d :: r4 =>
                if d ≠ 34 then .error .valueError else do
                  let (ps, r5) ← scanItems FT lim f r4
                  .ok ((k, v) :: ps, r5)
/-- decoder.py:228-249 -/
def scanElems (FT : Floats F) (lim : Nat) : Nat → Text → Except PyErr (List (PyVal F) × Text)
  | 0, _ => .error .valueError
  | f + 1, t => do
    let (v, r) ← scanOnce FT lim f t                              -- 229-232
    match skipWs r with                                           -- 234-237
    | [] => .error .valueError
    | d :: r1 =>
      if d = 93 then .ok ([v], r1)
      else if d ≠ 44 then .error .valueError
      else do
        let (vs, r2) ← scanElems FT lim f (skipWs r1)
        .ok (v :: vs, r2)
end

/-- decoder.py:332-341 `JSONDecoder.decode` -/
def loads (FT : Floats F) (lim : Nat) (t : Text) : Except PyErr (PyVal F) := do
  let (v, r) ← scanOnce FT lim (t.length + 1) (skipWs t)
  match skipWs r with
  | [] => .ok v
  | _ :: _ => .error .valueError

/-- codecs.py:14-30 `json_codec_factory()`. `str.encode()` of an ASCII text is its code points; a text that is not ASCII
does not occur (`C100_ascii`). Not modelled of `json.loads(bytes)`: blobs with a byte above 127, and blobs that
`detect_encoding` takes for UTF-16 or UTF-32 because of a zero among their first two bytes; both are given `ValueError`
here. -/
def jsonCodec (FT : Floats F) (lim : Nat) : Codec (PyVal F) where
  encode v := dumps FT lim compact 0 v
  decode b := if b.all (· < 128) = true ∧ 0 ∉ b.take 2 then loads FT lim b else .error .valueError

end Verif.Model
