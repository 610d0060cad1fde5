import Verif.Model.Memutilz
/-!
# Model of `/repo/dustgoggles/codex/codecs.py`

The three codecs (json, ast, pickle) are represented by an arbitrary pair `encode`/`decode` of possibly raising
functions; which values survive is a hypothesis of the theorems.
-/
namespace Verif.Model
open Verif

/-- codecs.py:14-64: an encoder/decoder pair -/
structure Codec (V : Type) where
  encode : V → Except PyErr Bytes
  decode : Bytes → Except PyErr V

variable {V : Type}

/-- codecs.py:77-95 `memorize(value, address, exists_ok, encode)` -/
def memorize (c : Codec V) (value : V) (address : Str) (existsOk : Bool) : Prog Str := do
  if existsOk = false then                                        -- 89-90
    if ← existsBlock address then .raise .fileExists
  let encoded ← Prog.ofExcept (c.encode value)                    -- 91
  let block ← openBlock address encoded.length true true          -- 93
  write block encoded                                             -- 94
  pure address

/-- codecs.py:97-109 `remember(address, fetch=True, decode)`; `fetch=False`, which returns the block itself, is in
`Model/Views.lean` -/
def remember (c : Codec V) (address : Str) : Prog V := do
  let blob ← fetchBlockBytes address
  Prog.ofExcept (c.decode blob)

/-- a numpy array: what survives the round trip (0-dimensional arrays and object dtypes excepted) -/
structure Arr where
  dtype : Str
  shape : List Nat
  data : Bytes
  deriving DecidableEq

/-- the metadata dict of codecs.py:141-146 -/
structure ArrMeta where
  name : Str
  dtype : Str
  shape : List Nat
  size : Nat

/-- codecs.py:128-149 `memorize_array(array, address, exists_ok, keep_open=False)`. Note that `exists_ok` is passed as
`open_block`'s `create`. `np.ndarray(shape, dtype, buffer)` raises `TypeError` when the buffer is too small; the
assignment copies the array's bytes to the front of the buffer. `array[:]` of a 0-dimensional array raises
`IndexError`. -/
def memorizeArray (a : Arr) (address : Str) (existsOk : Bool) : Prog ArrMeta := do
  let block ← openBlock address a.data.length existsOk false      -- 136
  let buf ← read block
  if buf.length < a.data.length then .raise .typeError            -- 137-139
  else if a.shape = [] then .raise .indexError                    -- 140
  else do
    writeFront block a.data                                       -- 140
    pure { name := address, dtype := a.dtype, shape := a.shape, size := a.data.length }

/-- codecs.py:151-163 `remember_array(metadata_json, fetch=True, copy=True)`; `nbytes` is the number of bytes a dtype
and shape need -/
def rememberArray (nbytes : Str → List Nat → Nat) (decodeMeta : Bytes → Except PyErr ArrMeta) (metaJson : Bytes) :
    Prog Arr := do
  let m ← Prog.ofExcept (decodeMeta metaJson)                     -- 154
  let block ← attach m.name                                       -- 155
  let buf ← read block
  if buf.length < nbytes m.dtype m.shape then .raise .typeError   -- 158-160
  else pure { dtype := m.dtype, shape := m.shape, data := buf.take (nbytes m.dtype m.shape) }

end Verif.Model
