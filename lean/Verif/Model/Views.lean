import Verif.Model.Notepad
/-!
# implements.py, codecs.py: arrays that GridPaper does not copy, blocks that notepads hand out

`gp.get(key)` does not copy (its `copy` is False): the array it returns is the shared block itself, seen with the type and shape the
metadata had at that time. `GridPaper._open_blocks` keeps the block open. When a key is deleted, lines 908-911 are to close and
unlink these blocks, but compare `block.name`, which is an address and so longer than the key, with the key: they do nothing.
-/
namespace Verif.Model
open Verif

/-- an array on a block -/
structure View where
  handle : Nat
  dtype : Str
  shape : List Nat

/-- what is seen of it -/
def View.arr (nbytes : Str → List Nat → Nat) (v : View) (s : Store) : Arr :=
  ⟨v.dtype, v.shape, (s.segs v.handle).take (nbytes v.dtype v.shape)⟩

/-- `array[:] = …` by whoever has it -/
def View.write (v : View) (data : Bytes) : Prog Unit := writeFront v.handle data

/-- codecs.py:151-163 `remember_array(metadata_json, fetch=True, copy=False)` -/
def rememberView (nbytes : Str → List Nat → Nat) (decodeMeta : Bytes → Except PyErr ArrMeta) (metaJson : Bytes) :
    Prog View := do
  let m ← Prog.ofExcept (decodeMeta metaJson)                     -- 154
  let block ← attach m.name                                       -- 155
  let buf ← read block
  if buf.length < nbytes m.dtype m.shape then .raise .typeError   -- 158-160
  else pure { handle := block, dtype := m.dtype, shape := m.shape }   -- 163

/-- implements.py:850-857 `__getitem__(key, fetch=True, copy=False)` -/
def gridView (E : Env) (c : Codec ArrMeta) (nbytes : Str → List Nat → Nat) (g : Grid) (key : Key) : Prog View := do
  let body : Prog View := do
    let mj ← metaGet E g.index key
    rememberView nbytes c.decode mj
  match ← body.attempt with
  | .ok a => pure a
  | .error .fileNotFound => .raise .keyError
  | .error e => .raise e

/-- implements.py:859-863 `get(key, default)`: `none` is the default -/
def gridViewD (E : Env) (c : Codec ArrMeta) (nbytes : Str → List Nat → Nat) (g : Grid) (key : Key) : Prog (Option View) := do
  match ← (gridView E c nbytes g key).attempt with
  | .ok a => pure (some a)
  | .error .keyError => pure none
  | .error e => .raise e

/-! ## Blocks themselves: `fetch=False` -/

/-- implements.py:749-753 `np.__getitem__(key, fetch=False)`: codecs.py:107-108 returns the block, which is not `None` -/
def padBlock (p : Pad) (key : Key) : Prog Nat := attach (padAddr p.pre key.text)

/-- implements.py:755-759 `np.get(key, default, fetch=False)`: `none` is the default -/
def padBlockD (p : Pad) (key : Key) : Prog (Option Nat) := do
  match ← (padBlock p key).attempt with
  | .ok h => pure (some h)
  | .error .keyError => pure none
  | .error e => .raise e

/-- `block.buf[:] = data` by whoever has it -/
def blockWrite (h : Nat) (data : Bytes) : Prog Unit := write h data

/-- implements.py:850-857 `gp.__getitem__(key, fetch=False)`: codecs.py:156-157 returns the block alone, and line 852 takes two
things out of it, which raises `TypeError` -/
def gridBlock (E : Env) (c : Codec ArrMeta) (g : Grid) (key : Key) : Prog Nat := do
  let body : Prog Nat := do
    let mj ← metaGet E g.index key
    let m ← Prog.ofExcept (c.decode mj)                           -- 154
    let _ ← attach m.name                                         -- 155
    .raise .typeError
  match ← body.attempt with
  | .ok a => pure a
  | .error .fileNotFound => .raise .keyError
  | .error e => .raise e

/-- implements.py:859-863 `gp.get(key, default, fetch=False)`: `none` is the default -/
def gridBlockD (E : Env) (c : Codec ArrMeta) (g : Grid) (key : Key) : Prog (Option Nat) := do
  match ← (gridBlock E c g key).attempt with
  | .ok a => pure (some a)
  | .error .keyError => pure none
  | .error e => .raise e

end Verif.Model
