import Verif.Model.Notepad
/-!
# Notepads with `index_type=MetaTagIndex` (`/repo/dustgoggles/codex/implements.py`)
-/
namespace Verif.Model
open Verif
variable {V M : Type}

/-- a `Notepad` object whose index is a `MetaTagIndex` -/
structure MetaPad where
  pre : Str
  ix : Index
  mode : LockMode

/-- implements.py:604-647, 725-747 `Notepad(prefix, create, index_type=MetaTagIndex)` -/
def metaPadInit (pre : Str) (create_ : Bool) (mode : LockMode) : Prog MetaPad := do
  let ix ← metaIndexInit (indexName pre) create_
  pure { pre, ix, mode }

/-- implements.py:761-776 `set(key, value, meta, exists_ok)` -/
def metaPadSet (E : Env) (c : Codec V) (cm : Codec M) (p : MetaPad) (key : Key) (value : V) (note : Option M) (existsOk : Bool) :
    Prog Unit := do
  if reserved key then .raise .keyError                                        -- 762-763
  else do
    let body : Prog Unit := do
      let _ ← metaAdd E cm p.mode p.ix key note existsOk                       -- 765
      let _ ← memorize c value (padAddr p.pre key.text) existsOk               -- 766
      pure ()
    match ← body.attempt with
    | .ok () => pure ()
    | .error .fileExists => .raise .keyError                                   -- 769-773
    | .error e => .raise e

/-- implements.py:749-753 `__getitem__`, which does not use the index -/
def metaPadGet (c : Codec V) (isNone : V → Bool) (p : MetaPad) (key : Key) : Prog V := padGet c isNone ⟨p.pre, .fake, p.mode⟩ key

/-- implements.py:778-785 `__delitem__` -/
def metaPadDel (E : Env) (p : MetaPad) (key : Key) : Prog Unit := do
  if reservedExact key then .raise .keyError                                   -- 779-780
  else do
    let body : Prog Unit := do
      deleteBlock (padAddr p.pre key.text)                                     -- 782
      let _ ← metaDel E p.mode p.ix key                                        -- 783
      pure ()
    match ← body.attempt with
    | .ok () => pure ()
    | .error .fileNotFound => .raise .keyError                                 -- 784-785
    | .error e => .raise e

/-- `for key in keys: del self[key]` (805-808, 815-816) -/
def metaPadDels (E : Env) (p : MetaPad) : List Str → Prog Unit
  | [] => pure ()
  | k :: t => do
    metaPadDel E p (.str k)
    metaPadDels E p t

/-- implements.py:814-816 `clear` -/
def metaPadClear (E : Env) (p : MetaPad) : Prog Unit := do
  let keys ← indexUpdate E p.ix
  metaPadDels E p keys

/-- implements.py:802-812 `close(dump=False)` -/
def metaPadClose (E : Env) (p : MetaPad) : Prog Unit := do
  let keys ← indexUpdate E p.ix
  metaPadDels E p keys
  indexClose p.ix

end Verif.Model
