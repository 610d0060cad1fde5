import Verif.Py.Lit
import Verif.Py.Utf8
import Verif.Model.Codecs
/-!
# Model of the pickle codec, `/repo/dustgoggles/codex/codecs.py:50-65`

`encode` is `pickle.dumps(value, protocol=pickle.HIGHEST_PROTOCOL)` and `decode` is `pickle.loads(blob)`. It is the codec
`Notepad` and `Sticky` have by default (implements.py:731, 944). Both functions of the standard library are
modelled after CPython 3.11 `Lib/pickle.py` (the lines given below are its lines), at protocol 5.

A value is a place in a heap of objects, so that sharing and cycles are part of it. Modelled are the objects None,
booleans, integers, floats, strings (with surrogates), bytes, tuples, lists and dicts of exactly these types, however
they hold each other. Not modelled: sets, frozensets, bytearrays, classes, functions, instances and everything else that
is pickled by reference or by `__reduce__`; the opcodes for them are refused by `readOp` here.

Other simplifications. `RecursionError` is given by a bound `lim` of the depth to which `save` calls itself. All that
`loads` raises on a malformed blob (`EOFError`, `UnpicklingError`, `IndexError`, `KeyError`, `struct.error`, ...) is one
value `badPickle`, except the `TypeError` of a key that cannot be hashed and the `UnicodeDecodeError`s. A NaN as a dict key
is treated as not hashable. The accelerated `_pickle` differs from `pickle.py` in how it writes a last batch of one item;
`short` stands for either choice.
-/
namespace Verif.Model
open Verif

/-! ## values -/

/-- what a variable or a slot holds: an object that is never memoized, or an address. `float` has the 64 bits of a
double, `unit` is the empty tuple, of which there is only one. -/
inductive PRef where
  | none
  | bool (b : Bool)
  | int (i : Int)
  | float (bits : BitVec 64)
  | unit
  | obj (a : Nat)
  deriving DecidableEq, Repr

/-- the object at an address -/
inductive PNode where
  | str (s : Text)
  | bytes (b : Bytes)
  | tuple (xs : List PRef)
  | list (xs : List PRef)
  | dict (kvs : List (PRef × PRef))
  deriving DecidableEq, Repr

/-- the objects; the address is the position -/
abbrev PHeap := List PNode

/-! ## the opcodes -/

inductive POp where
  | proto (n : Nat) | frame (n : Nat) | stop
  | none | bool (b : Bool) | int (i : Int) | float (bits : BitVec 64) | emptyTuple
  | str (s : Text) | bytes (b : Bytes)
  | emptyList | emptyDict | mark | pop | popMark
  | tupleN (n : Nat) | tuple | append | appends | setitem | setitems
  | memoize | get (i : Nat)
  deriving DecidableEq, Repr

/-- one step of the pickler: `framer.commit_frame()` at the start of `save` (pickle.py:535-536), or the writing of an
opcode with its argument -/
inductive PEv where
  | check
  | op (o : POp)
  deriving DecidableEq, Repr

/-! ## `pickle.dumps` -/

/-- saving some objects one after the other -/
def saveAll (sv : PRef → List Nat → Except PyErr (List PEv × List Nat)) :
    List PRef → List Nat → Except PyErr (List PEv × List Nat)
  | [], memo => .ok ([], memo)
  | r :: rs, memo => do
    let (e, memo) ← sv r memo
    let (es, memo) ← saveAll sv rs memo
    .ok (e ++ es, memo)

/-- pickle.py:936 `_BATCHSIZE` -/
def batchSize : Nat := 1000

/-- the `islice`s of 950-952 and 990-992; the number bounds the batches -/
def batches {α : Type} : Nat → List α → List (List α)
  | 0, _ => []
  | f + 1, xs => if xs.length < batchSize then [xs] else xs.take batchSize :: batches f (xs.drop batchSize)

/-- pickle.py:938-963 `_batch_appends` and 978-1007 `_batch_setitems`. `one` is written after a batch of one item, `many`
after a batch of several. -/
def saveBatches {α : Type} (sv : PRef → List Nat → Except PyErr (List PEv × List Nat)) (refs : α → List PRef)
    (one many : POp) (short : Bool) : List (List α) → List Nat → Except PyErr (List PEv × List Nat)
  | [], memo => .ok ([], memo)
  | b :: bs, memo =>
    if b.length = 0 then saveBatches sv refs one many short bs memo             -- "else tmp is empty"
    else do
      let (e, memo) ← saveAll sv (b.flatMap refs) memo
      let (es, memo) ← saveBatches sv refs one many short bs memo
      if b.length = 1 ∧ short = true then .ok (e ++ [.op one] ++ es, memo)       -- "elif n"
      else .ok ([.op .mark] ++ e ++ [.op many] ++ es, memo)                      -- "if n > 1"

/-- pickle.py:535-603 `save`, with the `save_*` methods of 740-1007. The memo is the list of the memoized addresses in the
order of their memo keys. -/
def save (short : Nat → Bool) (h : PHeap) : Nat → PRef → List Nat → Except PyErr (List PEv × List Nat)
  | 0, _, _ => .error .runtimeError                                             -- RecursionError
  | _ + 1, .none, memo => .ok ([.check, .op .none], memo)                       -- 740-742
  | _ + 1, .bool b, memo => .ok ([.check, .op (.bool b)], memo)                 -- 744-749
  | _ + 1, .int i, memo => .ok ([.check, .op (.int i)], memo)                   -- 751-780
  | _ + 1, .float x, memo => .ok ([.check, .op (.float x)], memo)               -- 782-787
  | _ + 1, .unit, memo => .ok ([.check, .op .emptyTuple], memo)                 -- 875-880
  | n + 1, .obj a, memo =>
    if a ∈ memo then .ok ([.check, .op (.get (memo.idxOf a))], memo)            -- 545-548
    else match h[a]? with
      | none => .error .attributeError                                          -- no such object
      | some (.str s) => .ok ([.check, .op (.str s), .op .memoize], memo ++ [a])      -- 851-872
      | some (.bytes b) => .ok ([.check, .op (.bytes b), .op .memoize], memo ++ [a])  -- 789-806
      | some (.tuple xs) => do                                                  -- 874-923
        let (e, memo) ← saveAll (save short h n) xs memo
        if xs.length ≤ 3 then                                                   -- 885-895
          if a ∈ memo then
            .ok ([.check] ++ e ++ List.replicate xs.length (.op .pop) ++ [.op (.get (memo.idxOf a))], memo)
          else .ok ([.check] ++ e ++ [.op (.tupleN xs.length), .op .memoize], memo ++ [a])
        else                                                                    -- 899-921
          if a ∈ memo then .ok ([.check, .op .mark] ++ e ++ [.op .popMark, .op (.get (memo.idxOf a))], memo)
          else .ok ([.check, .op .mark] ++ e ++ [.op .tuple, .op .memoize], memo ++ [a])
      | some (.list xs) => do                                                   -- 925-932
        let (e, memo) ← saveBatches (save short h n) (fun x => [x]) .append .appends (short xs.length)
          (batches (xs.length + 1) xs) (memo ++ [a])
        .ok ([.check, .op .emptyList, .op .memoize] ++ e, memo)
      | some (.dict kvs) => do                                                  -- 965-973
        let (e, memo) ← saveBatches (save short h n) (fun p => [p.1, p.2]) .setitem .setitems (short kvs.length)
          (batches (kvs.length + 1) kvs) (memo ++ [a])
        .ok ([.check, .op .emptyDict, .op .memoize] ++ e, memo)

/-- `n` bytes of a number, the least significant first -/
def leBytes : Nat → Nat → Bytes
  | 0, _ => []
  | n + 1, x => x % 256 :: leBytes n (x / 256)

/-- the number of some bytes, the least significant first -/
def leNat : Bytes → Nat
  | [] => 0
  | b :: r => b + 256 * leNat r

/-- the low `n` bytes of an integer in two's complement, the least significant first: `pack("<i", x)`, and
`x.to_bytes(n, 'little', signed=True)` for an `x` that fits -/
def leSigned (n : Nat) (x : Int) : Bytes := leBytes n (x % (256 ^ n : Nat)).toNat

/-- pickle.py:354-382 `encode_long` -/
def encodeLong (x : Int) : Bytes :=
  if x = 0 then []
  else
    let nbytes := (Nat.log2 x.natAbs + 1) / 8 + 1
    let result := leSigned nbytes x
    if x < 0 ∧ 1 < nbytes ∧ result.getLast? = some 0xff ∧ 0x80 ≤ result.dropLast.getLast?.getD 0 then result.dropLast
    else result

/-- pickle.py:384-402 `decode_long`: `int.from_bytes(data, 'little', signed=True)` -/
def decodeLong (b : Bytes) : Int :=
  if 2 * leNat b < 256 ^ b.length then (leNat b : Int) else (leNat b : Int) - (256 ^ b.length : Nat)

/-- `struct.error` -/
def structError : PyErr := .user 101

/-- pickle.py:751-780 `save_long` -/
def intOpBytes (i : Int) : Except PyErr Bytes :=
  if 0 ≤ i ∧ i ≤ 0xff then .ok (0x4b :: leBytes 1 i.toNat)
  else if 0 ≤ i ∧ i ≤ 0xffff then .ok (0x4d :: leBytes 2 i.toNat)
  else if -0x80000000 ≤ i ∧ i ≤ 0x7fffffff then .ok (0x4a :: leSigned 4 i)
  else
    let e := encodeLong i
    if e.length < 256 then .ok (0x8a :: leBytes 1 e.length ++ e)
    else if e.length ≤ 0x7fffffff then .ok (0x8b :: leBytes 4 e.length ++ e)
    else .error structError

/-- pickle.py:797-805 and 855-862: length and contents, with the opcodes for a length of 1, 4 and 8 bytes -/
def sizedBytes (c1 c4 c8 : Nat) (e : Bytes) : Except PyErr Bytes :=
  if e.length ≤ 0xff then .ok (c1 :: leBytes 1 e.length ++ e)
  else if 0xffffffff < e.length then
    if e.length < 2 ^ 64 then .ok (c8 :: leBytes 8 e.length ++ e) else .error structError
  else .ok (c4 :: leBytes 4 e.length ++ e)

/-- the bytes of an opcode with its argument -/
def opBytes : POp → Except PyErr Bytes
  | .proto n => .ok [0x80, n]
  | .frame n => if n < 2 ^ 64 then .ok (0x95 :: leBytes 8 n) else .error structError
  | .stop => .ok [0x2e]
  | .none => .ok [0x4e]
  | .bool b => .ok [if b then 0x88 else 0x89]
  | .int i => intOpBytes i
  | .float x => .ok (0x47 :: (leBytes 8 x.toNat).reverse)
  | .emptyTuple => .ok [0x29]
  | .str s => sizedBytes 0x8c 0x58 0x8d (s.flatMap utf8Char)
  | .bytes b => sizedBytes 0x43 0x42 0x8e b
  | .emptyList => .ok [0x5d]
  | .emptyDict => .ok [0x7d]
  | .mark => .ok [0x28]
  | .pop => .ok [0x30]
  | .popMark => .ok [0x31]
  | .tupleN n => .ok [0x84 + n]
  | .tuple => .ok [0x74]
  | .append => .ok [0x61]
  | .appends => .ok [0x65]
  | .setitem => .ok [0x73]
  | .setitems => .ok [0x75]
  | .memoize => .ok [0x94]
  | .get i =>                                                                   -- 526-533
    if i < 256 then .ok (0x68 :: leBytes 1 i)
    else if i < 2 ^ 32 then .ok (0x6a :: leBytes 4 i)
    else .error structError

/-- pickle.py:203 `_FRAME_SIZE_TARGET` -/
def frameTarget : Nat := 65536

/-- the contents that go past the framer, 800-803 and 857-860 -/
def POp.large : POp → Bool
  | .str s => decide (frameTarget ≤ (s.flatMap utf8Char).length)
  | .bytes b => decide (frameTarget ≤ b.length)
  | _ => false

/-- pickle.py:217-239 `commit_frame` when it writes -/
def frameOut (cur : Bytes) : Except PyErr Bytes :=
  if cur.length < 4 then .ok cur
  else (opBytes (.frame cur.length)).map (· ++ cur)

/-- pickle.py:200-260 `_Framer`: the bytes written to the file, from the current frame on -/
def framer : List PEv → Bytes → Except PyErr Bytes
  | [], cur => frameOut cur                                                     -- 212-215
  | .check :: r, cur =>
    if frameTarget ≤ cur.length then do                                         -- 217-239
      let a ← frameOut cur
      let b ← framer r []
      .ok (a ++ b)
    else framer r cur
  | .op o :: r, cur => do
    let b ← opBytes o
    if o.large then do                                                          -- 247-260
      let a ← frameOut cur
      let c ← framer r []
      .ok (a ++ b ++ c)
    else framer r (cur ++ b)                                                    -- 241-245

/-- `sys.maxsize` -/
def maxSize : Nat := 2 ^ 63 - 1

/-- pickle.py:476-489 `dump`. No `bytes` object is longer than `sys.maxsize`. -/
def dumpsP (short : Nat → Bool) (lim : Nat) (h : PHeap) (r : PRef) : Except PyErr Bytes := do
  let (e, _) ← save short h lim r []
  let b ← framer (e ++ [.op .stop]) []
  if maxSize < ([0x80, 5] ++ b).length then .error .overflowError else .ok ([0x80, 5] ++ b)

/-! ## `pickle.loads` -/

/-- what `loads` raises on a malformed blob -/
def badPickle : PyErr := .user 102

/-- pickle.py:263-317 `_Unframer`: what is left of the current frame, and what is left of the file -/
structure Rd where
  cur : Option Bytes
  file : Bytes

/-- pickle.py:287-298 `_Unframer.read`. Reading from the file may give fewer bytes than asked for. -/
def Rd.read (n : Nat) (u : Rd) : Except PyErr (Bytes × Rd) :=
  match u.cur with
  | none => .ok (u.file.take n, ⟨none, u.file.drop n⟩)
  | some c =>
    if c.take n = [] ∧ n ≠ 0 then .ok (u.file.take n, ⟨none, u.file.drop n⟩)
    else if (c.take n).length < n then .error badPickle
    else .ok (c.take n, ⟨some (c.drop n), u.file⟩)

/-- the number in the next `n` bytes; fewer bytes raise `struct.error` or `IndexError` -/
def Rd.num (n : Nat) (u : Rd) : Except PyErr (Nat × Rd) := do
  let (b, u) ← u.read n
  if b.length < n then .error badPickle else .ok (leNat b, u)

/-- `bytes.decode('utf-8', 'surrogatepass')`: as `utf8Chars`, with the surrogates -/
def utf8Pass : Nat → Bytes → Except PyErr Text
  | _, [] => .ok []
  | 0, _ :: _ => .error .unicodeDecode
  | f + 1, b :: r =>
    if b < 0x80 then (utf8Pass f r).map (b :: ·)
    else match r with
      | b1 :: r1 =>
        if 0xC2 ≤ b ∧ b < 0xE0 ∧ isCont b1 then (utf8Pass f r1).map (((b - 0xC0) * 64 + (b1 - 0x80)) :: ·)
        else match r1 with
          | b2 :: r2 =>
            if 0xE0 ≤ b ∧ b < 0xF0 ∧ isCont b1 ∧ isCont b2 ∧
                0x800 ≤ (b - 0xE0) * 4096 + (b1 - 0x80) * 64 + (b2 - 0x80) then
              (utf8Pass f r2).map (((b - 0xE0) * 4096 + (b1 - 0x80) * 64 + (b2 - 0x80)) :: ·)
            else match r2 with
              | b3 :: r3 =>
                if 0xF0 ≤ b ∧ b < 0xF8 ∧ isCont b1 ∧ isCont b2 ∧ isCont b3 ∧
                    0x10000 ≤ (b - 0xF0) * 262144 + (b1 - 0x80) * 4096 + (b2 - 0x80) * 64 + (b3 - 0x80) ∧
                    (b - 0xF0) * 262144 + (b1 - 0x80) * 4096 + (b2 - 0x80) * 64 + (b3 - 0x80) < 0x110000 then
                  (utf8Pass f r3).map (((b - 0xF0) * 262144 + (b1 - 0x80) * 4096 + (b2 - 0x80) * 64 + (b3 - 0x80)) :: ·)
                else .error .unicodeDecode
              | [] => .error .unicodeDecode
          | [] => .error .unicodeDecode
      | [] => .error .unicodeDecode

/-- a length of `k` bytes and so many bytes, pickle.py:1350-1428 -/
def Rd.sized (k : Nat) (u : Rd) : Except PyErr (Bytes × Rd) := do
  let (n, u) ← u.num k
  if maxSize < n then .error badPickle else u.read n

/-- a string with a length of `k` bytes -/
def Rd.text (k : Nat) (u : Rd) : Except PyErr (POp × Rd) := do
  let (b, u) ← u.sized k
  let t ← utf8Pass b.length b
  .ok (.str t, u)

/-- bytes with a length of `k` bytes -/
def Rd.blob (k : Nat) (u : Rd) : Except PyErr (POp × Rd) := do
  let (b, u) ← u.sized k
  .ok (.bytes b, u)

/-- an integer with a length of `k` bytes, 1299-1312; the length of 4 bytes is signed -/
def Rd.long (k : Nat) (u : Rd) : Except PyErr (POp × Rd) := do
  let (n, u) ← u.num k
  if 0x7fffffff < n then .error badPickle
  else do
    let (b, u) ← u.read n
    .ok (.int (decodeLong b), u)

/-- the opcodes without an argument -/
def plainOp (c : Nat) : Option POp :=
  match c with
  | 0x2e => some .stop
  | 0x4e => some .none
  | 0x88 => some (.bool true)
  | 0x89 => some (.bool false)
  | 0x29 => some .emptyTuple
  | 0x5d => some .emptyList
  | 0x7d => some .emptyDict
  | 0x28 => some .mark
  | 0x30 => some .pop
  | 0x31 => some .popMark
  | 0x85 => some (.tupleN 1)
  | 0x86 => some (.tupleN 2)
  | 0x87 => some (.tupleN 3)
  | 0x74 => some .tuple
  | 0x61 => some .append
  | 0x65 => some .appends
  | 0x73 => some .setitem
  | 0x75 => some .setitems
  | 0x94 => some .memoize
  | _ => none

/-- the argument of an opcode that has one -/
def argOp (c : Nat) (u : Rd) : Except PyErr (POp × Rd) :=
  match c with
  | 0x80 => do let (n, u) ← u.num 1; .ok (.proto n, u)                          -- 1229-1234
  | 0x95 => do let (n, u) ← u.num 8; .ok (.frame n, u)                          -- 1236-1241
  | 0x4b => do let (n, u) ← u.num 1; .ok (.int n, u)                            -- 1284-1286
  | 0x4d => do let (n, u) ← u.num 2; .ok (.int n, u)                            -- 1288-1290
  | 0x4a => do                                                                  -- 1280-1282
    let (b, u) ← u.read 4
    if b.length < 4 then .error badPickle else .ok (.int (decodeLong b), u)
  | 0x8a => u.long 1                                                            -- 1299-1303
  | 0x8b => u.long 4                                                            -- 1305-1312
  | 0x47 => do                                                                  -- 1318-1320
    let (b, u) ← u.read 8
    if b.length < 8 then .error badPickle else .ok (.float (BitVec.ofNat 64 (leNat b.reverse)), u)
  | 0x8c => u.text 1                                                            -- 1425-1428
  | 0x58 => u.text 4                                                            -- 1362-1368
  | 0x8d => u.text 8                                                            -- 1370-1376
  | 0x43 => u.blob 1                                                            -- 1420-1423
  | 0x42 => u.blob 4                                                            -- 1350-1356
  | 0x8e => u.blob 8                                                            -- 1378-1384
  | 0x68 => do let (n, u) ← u.num 1; .ok (.get n, u)                            -- 1617-1624
  | 0x6a => do let (n, u) ← u.num 4; .ok (.get n, u)                            -- 1626-1633
  | _ => .error badPickle

/-- pickle.py:1207-1212: the next opcode and its argument -/
def readOp (u : Rd) : Except PyErr (POp × Rd) := do
  let (b, u) ← u.read 1
  match b with
  | [] => .error badPickle                                                      -- EOFError
  | c :: _ =>
    match plainOp c with
    | some o => .ok (o, u)
    | none => argOp c u

/-- what a key is compared by: numbers by value, strings and bytes by contents, tuples by their elements -/
inductive KeyTok where
  | none | int (i : Int) | frac (bits : BitVec 64) | str (s : Text) | bytes (b : Bytes) | tup (n : Nat)
  deriving DecidableEq, Repr

/-- a double as a key: a whole number is equal to that integer -/
def floatKey (x : BitVec 64) : Option (List KeyTok) :=
  let n := x.toNat
  let e := n / 2 ^ 52 % 2048
  let f := n % 2 ^ 52
  if e = 2047 then (if f = 0 then some [.frac x] else none)
  else
    let m := if e = 0 then f else f + 2 ^ 52
    let ex := if e = 0 then 1 else e
    let sgn : Int := if 2 ^ 63 ≤ n then -1 else 1
    if 1075 ≤ ex then some [.int (sgn * (m * 2 ^ (ex - 1075) : Nat))]
    else if m % 2 ^ (1075 - ex) = 0 then some [.int (sgn * (m / 2 ^ (1075 - ex) : Nat))]
    else some [.frac x]

/-- the key a reference denotes, to a depth of nested tuples; `none` if it cannot be hashed -/
def keyN (h : PHeap) : Nat → PRef → Option (List KeyTok)
  | 0, _ => none
  | _ + 1, .none => some [.none]
  | _ + 1, .bool b => some [.int (if b then 1 else 0)]
  | _ + 1, .int i => some [.int i]
  | _ + 1, .float x => floatKey x
  | _ + 1, .unit => some [.tup 0]
  | n + 1, .obj a =>
    match h[a]? with
    | some (.str s) => some [.str s]
    | some (.bytes b) => some [.bytes b]
    | some (.tuple xs) => (xs.mapM (keyN h n)).map fun ks => .tup xs.length :: ks.flatten
    | _ => none

/-- the depth of tuples cannot exceed the number of objects -/
def keyOf (h : PHeap) (r : PRef) : Option (List KeyTok) := keyN h (h.length + 1) r

/-- `d[k] = v` -/
def dictPut (h : PHeap) (kvs : List (PRef × PRef)) (k v : PRef) : Except PyErr (List (PRef × PRef)) :=
  match keyOf h k with
  | none => .error .typeError
  | some t =>
    .ok (if kvs.any (fun p => keyOf h p.1 == some t) then
      kvs.map (fun p => if keyOf h p.1 = some t then (p.1, v) else p)
    else kvs ++ [(k, v)])

/-- pickle.py:1697-1698: `for i in range(0, len(items), 2): dict[items[i]] = items[i + 1]` -/
def dictPutAll (h : PHeap) : List (PRef × PRef) → List PRef → Except PyErr (List (PRef × PRef))
  | kvs, [] => .ok kvs
  | _, [_] => .error badPickle
  | kvs, k :: v :: r => do
    let kvs ← dictPut h kvs k v
    dictPutAll h kvs r

/-- the unpickler: the objects made, the memo, the stack since the last mark (its top first) and the stacks below -/
structure PM where
  heap : PHeap
  memo : List PRef
  stack : List PRef
  below : List (List PRef)

/-- a new object, pushed onto `s` -/
def PM.alloc (m : PM) (n : PNode) (s : List PRef) : PM :=
  { m with heap := m.heap ++ [n], stack := .obj m.heap.length :: s }

/-- the list on the top of `s` gets new items -/
def PM.extend (m : PM) (items s : List PRef) (below : List (List PRef)) : Except PyErr PM :=
  match s with
  | .obj a :: _ =>
    match m.heap[a]? with
    | some (.list xs) => .ok { m with heap := m.heap.set a (.list (xs ++ items)), stack := s, below := below }
    | _ => .error badPickle
  | _ => .error badPickle

/-- the dict on the top of `s` gets new items -/
def PM.update (m : PM) (items s : List PRef) (below : List (List PRef)) : Except PyErr PM :=
  match s with
  | .obj a :: _ =>
    match m.heap[a]? with
    | some (.dict kvs) => do
      let kvs ← dictPutAll m.heap kvs items
      .ok { m with heap := m.heap.set a (.dict kvs), stack := s, below := below }
    | _ => .error badPickle
  | _ => .error badPickle

/-- what an opcode does -/
def stepP (o : POp) (m : PM) : Except PyErr PM :=
  match o with
  | .proto n => if n ≤ 5 then .ok m else .error badPickle                       -- 1229-1234
  | .frame _ => .error badPickle                                                -- done by `runP`
  | .stop => .error badPickle                                                   -- done by `runP`
  | .none => .ok { m with stack := .none :: m.stack }
  | .bool b => .ok { m with stack := .bool b :: m.stack }
  | .int i => .ok { m with stack := .int i :: m.stack }
  | .float x => .ok { m with stack := .float x :: m.stack }
  | .emptyTuple => .ok { m with stack := .unit :: m.stack }                     -- 1435-1437
  | .str s => .ok (m.alloc (.str s) m.stack)
  | .bytes b => .ok (m.alloc (.bytes b) m.stack)
  | .emptyList => .ok (m.alloc (.list []) m.stack)                              -- 1451-1453
  | .emptyDict => .ok (m.alloc (.dict []) m.stack)                              -- 1455-1457
  | .mark => .ok { m with stack := [], below := m.stack :: m.below }              -- 1736-1740
  | .pop =>                                                                     -- 1593-1598
    match m.stack with
    | _ :: s => .ok { m with stack := s }
    | [] =>
      match m.below with
      | s :: ms => .ok { m with stack := s, below := ms }
      | [] => .error badPickle
  | .popMark =>                                                                 -- 1600-1602
    match m.below with
    | s :: ms => .ok { m with stack := s, below := ms }
    | [] => .error badPickle
  | .tupleN n =>                                                                -- 1439-1449
    if m.stack.length < n ∨ n = 0 then .error badPickle
    else .ok (m.alloc (.tuple (m.stack.take n).reverse) (m.stack.drop n))
  | .tuple =>                                                                   -- 1430-1433
    match m.below with
    | s :: ms =>
      .ok (if m.stack = [] then { m with stack := .unit :: s, below := ms }
        else { m with below := ms }.alloc (.tuple m.stack.reverse) s)
    | [] => .error badPickle
  | .append =>                                                                  -- 1661-1666
    match m.stack with
    | v :: s => m.extend [v] s m.below
    | [] => .error badPickle
  | .appends =>                                                                 -- 1668-1684
    match m.below with
    | s :: ms => m.extend m.stack.reverse s ms
    | [] => .error badPickle
  | .setitem =>                                                                 -- 1686-1692
    match m.stack with
    | v :: k :: s => m.update [k, v] s m.below
    | _ => .error badPickle
  | .setitems =>                                                                -- 1694-1699
    match m.below with
    | s :: ms => m.update m.stack.reverse s ms
    | [] => .error badPickle
  | .memoize =>                                                                 -- 1656-1659
    match m.stack with
    | v :: _ => .ok { m with memo := m.memo ++ [v] }
    | [] => .error badPickle
  | .get i =>                                                                   -- 1617-1633
    match m.memo[i]? with
    | some v => .ok { m with stack := v :: m.stack }
    | none => .error badPickle

/-- pickle.py:313-317 `_Unframer.load_frame`, with the check of 1238-1239 -/
def Rd.loadFrame (n : Nat) (u : Rd) : Except PyErr Rd :=
  if maxSize < n then .error badPickle
  else
    match u.cur with
    | some (_ :: _) => .error badPickle
    | _ => .ok ⟨some (u.file.take n), u.file.drop n⟩

/-- pickle.py:1206-1214: the loop of `load`; the number bounds the opcodes -/
def runP : Nat → Rd → PM → Except PyErr (PHeap × PRef)
  | 0, _, _ => .error badPickle
  | f + 1, u, m => do
    let (o, u) ← readOp u
    match o with
    | .stop =>                                                                  -- 1742-1745
      match m.stack with
      | v :: _ => .ok (m.heap, v)
      | [] => .error badPickle
    | .frame n => do
      let u ← u.loadFrame n
      runP f u m
    | o => do
      let m ← stepP o m
      runP f u m

/-- `pickle.loads(blob)`: the objects made and the value among them; every opcode has at least one byte -/
def loadsP (blob : Bytes) : Except PyErr (PHeap × PRef) :=
  runP (blob.length + 1) ⟨none, blob⟩ ⟨[], [], [], []⟩

/-- codecs.py:50-65 `pickle_codec_factory()` -/
def pickleCodec (short : Nat → Bool) (lim : Nat) : Codec (PHeap × PRef) where
  encode v := dumpsP short lim v.1 v.2
  decode b := loadsP b

end Verif.Model
