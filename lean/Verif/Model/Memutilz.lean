import Verif.Model.Shm
/-!
# Model of `/repo/dustgoggles/codex/memutilz.py`

`deactivate_shared_memory_resource_tracker` (57-98) and the resource tracker are in `Verif/Model/ResTracker.lean`.
-/
namespace Verif.Model
open Verif

/-- memutilz.py:5-19 `open_block(address, size, create, overwrite)` -/
def openBlock (address : Str) (size : Nat) (create_ : Bool := true) (overwrite : Bool := false) : Prog Nat := do
  match ← (if create_ then create address size else attach address).attempt with     -- 12
  | .ok h => pure h
  | .error .fileExists =>
    if overwrite = false then attach address                                         -- 14-15
    else do
      let _ ← attach address                                                         -- 16
      unlink address                                                                 -- 17
      create address size                                                            -- 19
  | .error e => .raise e

/-- memutilz.py:22-27 `fetch_block_bytes` -/
def fetchBlockBytes (address : Str) : Prog Bytes := do
  let h ← attach address
  read h

/-- memutilz.py:30-42 `exists_block`. A `ValueError` of an opening is that of an empty segment (39-41), which only the
semantics of `Verif/Model/TwoStep.lean` gives; names that the OS rejects raise `OSError` (`Env.okName`). -/
def existsBlock (address : Str) : Prog Bool := do
  match ← (attach address).attempt with
  | .ok _ => pure true
  | .error .fileNotFound => pure false
  | .error .valueError => pure true
  | .error e => .raise e

/-- memutilz.py:46-54 `delete_block`; it is `FileExistsError` that is caught -/
def deleteBlock (address : Str) (missingOk : Bool := false) : Prog Unit := do
  let body : Prog Unit := do
    let _ ← attach address
    unlink address
  match ← body.attempt with
  | .ok () => pure ()
  | .error .fileExists => if missingOk = false then .raise .fileExists else pure ()
  | .error e => .raise e

end Verif.Model
