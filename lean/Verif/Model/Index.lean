import Verif.Model.Codecs
/-!
# Model of the locks and indexes of `/repo/dustgoggles/codex/implements.py` (lines 129-600)

Debug logging, `atexit` registration and sleeping are not modelled. `max_spins` is `None` (its default), so the wait
loop has no timeout; loops that can spin take a `fuel` and end in `stuck` when it runs out.
-/
namespace Verif.Model
open Verif

/-! ## addresses -/

/-- implements.py:161 -/
def countAddr (name : Str) : Str := name ++ "_count".toList
/-- implements.py:193 -/
def markerAddr (name : Str) (n : Nat) : Str := name ++ '_' :: natStr n
/-- implements.py:202, 215 -/
def lockAddr (name : Str) (n : Nat) : Str := name ++ '_' :: (natStr n ++ "_lock".toList)

/-! ## SlidingLock -/

/-- implements.py:190-196: take the first free slot from `number` on -/
def renumber (name : Str) : Nat → Nat → Prog Nat
  | 0, _ => .stuck
  | f + 1, number => do
    match ← (create (markerAddr name number) 1).attempt with
    | .ok _ => pure number
    | .error .fileExists => renumber name f (number + 1)
    | .error e => .raise e

/-- implements.py:200-210 `_check_acquirement`: the `d` slots `floor + d - 1, …, floor` -/
def scanLocks (name : Str) (floor : Nat) : Nat → Prog Bool
  | 0 => pure true
  | d + 1 => do
    if ← existsBlock (lockAddr name (floor + d)) then pure false
    else scanLocks name floor d

/-- implements.py:223-224: spin until no earlier lock is seen -/
def spin (name : Str) (floor number : Nat) : Nat → Prog Unit
  | 0 => .stuck
  | f + 1 => do
    if ← scanLocks name floor (number - floor) then pure ()
    else spin name floor number f

/-- a `SlidingLock` that has been entered: its `count` block, number, and whether it placed (owns) its lock block -/
structure Held where
  count : Nat
  number : Nat
  own : Bool

/-- implements.py:158-224 `SlidingLock(name)` and `__enter__`. The cleanup of 175-179 can only run when the OS rejects
a name; it unlinks what has been created so far. -/
def lockEnter (fuel : Nat) (name : Str) : Prog Held := do
  let count ← openBlock (countAddr name) 5                         -- 161
  let floor := fromLE (← read count)                               -- 188
  let number ← renumber name fuel (floor + 1)                      -- 189-196
  match ← (create (lockAddr name number) 1).attempt with           -- 213-216
  | .ok _ => do
    spin name floor number fuel                                    -- 223-224
    pure { count, number, own := true }
  | .error .fileExists => pure { count, number, own := false }     -- 219-222
  | .error e => do
    unlink (markerAddr name number)                                -- 175-179, 240-246
    .raise e

/-- implements.py:235-249 `release` (by `__exit__`, 182-185, so `acquired` is `True`) -/
def lockRelease (name : Str) (h : Held) : Prog Unit := do
  let b ← intBytes 5 h.number                                      -- 237
  write h.count b
  if h.own then unlink (lockAddr name h.number)                    -- 240-246
  unlink (markerAddr name h.number)

/-- which lock class an index uses: `SlidingLock`, or `FakeLock` (`no_lockout=True`, implements.py:129-151, 280-283) -/
inductive LockMode where
  | sliding (fuel : Nat)
  | fake

/-- `with self.lock_class(self.name, self.debug): body` -/
def withLock {α : Type} (mode : LockMode) (name : Str) (body : Prog α) : Prog α :=
  match mode with
  | .fake => body
  | .sliding fuel => do
    let h ← lockEnter fuel name
    let r ← body.attempt
    lockRelease name h
    Prog.ofExcept r

/-! ## TagIndex -/

/-- a key: a `str`; another object, of which only its `str` is used; a `bytes` object with its `str` -/
inductive Key where
  | str (s : Str)
  | other (s : Str)
  | bytes (raw : Bytes) (repr : Str)

/-- `str(key)` -/
def Key.text : Key → Str
  | .str s => s
  | .other s => s
  | .bytes _ r => r

/-- an index object: its name and the segment of `self.memory` -/
structure Index where
  name : Str
  memory : Nat

/-- implements.py:380-381 -/
def keyAddr (name : Str) (ix : Nat) : Str := name ++ "_key_".toList ++ natStr ix

/-- implements.py:374-378 -/
def hashAddr (E : Env) (name : Str) (raw : Bytes) : Str := name ++ "_name_".toList ++ E.sha raw

/-- implements.py:375-376: the bytes of a key that are hashed -/
def Key.hashed (E : Env) : Key → Bytes
  | .bytes raw _ => raw
  | k => E.utf8 k.text

/-- implements.py:265-286, 343-372 `TagIndex.__init__` with an explicit name -/
def tagIndexInit (name : Str) (create_ : Bool) : Prog Index := do
  if create_ = false then
    if ← existsBlock name then do
      let m ← attach name
      pure { name, memory := m }
    else .raise .fileNotFound
  else do
    let m ← create name 8
    pure { name, memory := m }

/-- implements.py:383-389 `update_length` -/
def readLength (ix : Index) : Prog Nat := do
  let b ← read ix.memory
  pure (fromLE b)

/-- implements.py:397-401 `check` -/
def check (E : Env) (ix : Index) (raw : Bytes) : Prog (Option Nat) := do
  if ← existsBlock (hashAddr E ix.name raw) then do
    let h ← attach (hashAddr E ix.name raw)
    let b ← read h
    pure (some (fromLE b))
  else pure none

/-- `bytes.decode()` -/
def decodeUtf8 (E : Env) (b : Bytes) : Prog Str := match E.utf8dec b with
  | some s => pure s
  | none => .raise .unicodeDecode

/-- one round of implements.py:405-411 -/
def loadKey? (E : Env) (ix : Index) (i : Nat) : Prog (Option Str) := do
  match ← (attach (keyAddr ix.name i)).attempt with
  | .ok h => do
    let b ← read h
    let s ← decodeUtf8 E b
    pure (some s)
  | .error .fileNotFound => pure none
  | .error e => .raise e

/-- implements.py:403-411 `_enumerate_keys` from slot `i` on, `d` slots -/
def enumerateKeys (E : Env) (ix : Index) : Nat → Nat → Prog (List Str)
  | _, 0 => pure []
  | i, d + 1 => do
    let k ← loadKey? E ix i
    let rest ← enumerateKeys E ix (i + 1) d
    pure (k.toList ++ rest)

/-- implements.py:391-395 `update` -/
def indexUpdate (E : Env) (ix : Index) : Prog (List Str) := do
  let n ← readLength ix
  enumerateKeys E ix 0 n

/-- implements.py:413-437 `_add` -/
def indexAdd_ (E : Env) (ix : Index) (key : Key) (existsOk : Bool) : Prog Nat := do
  match ← check E ix (key.hashed E) with                                       -- 414
  | some i => if existsOk then pure i else .raise .fileExists                  -- 415-420
  | none => do
    let n ← readLength ix                                                      -- 421
    let nb ← intBytes 8 (n + 1)                                                -- 422
    write ix.memory nb                                                         -- 423
    let kb := E.utf8 key.text                                                  -- 424
    let kh ← openBlock (keyAddr ix.name n) kb.length true true                 -- 425-430
    write kh kb                                                                -- 431
    let pb ← intBytes 8 n                                                      -- 432
    let nh ← openBlock (hashAddr E ix.name (key.hashed E)) 8 true false        -- 433
    write nh pb                                                                -- 434
    pure n

/-- implements.py:439-443 `add` with `value=None` -/
def indexAdd (E : Env) (mode : LockMode) (ix : Index) (key : Key) (existsOk : Bool) : Prog Nat :=
  withLock mode ix.name (indexAdd_ E ix key existsOk)

/-- implements.py:445-480 `_delitem`: returns `found_at` and leaves `self.length`, the length before the deletion -/
def indexDel_ (E : Env) (ix : Index) (key : Key) : Prog (Nat × Nat) := do
  match ← check E ix (key.hashed E) with                                       -- 446
  | none => .raise .keyError                                                   -- 447-448
  | some found => do
    let n ← readLength ix                                                      -- 449
    if found + 1 ≠ n then do                                                   -- 450
      let lh ← attach (keyAddr ix.name (n - 1))                                -- 451
      let lastkey ← read lh                                                    -- 452
      let mh ← openBlock (keyAddr ix.name found) lastkey.length true true      -- 453-457
      write mh lastkey                                                         -- 458
      let nh ← attach (hashAddr E ix.name lastkey)                             -- 459
      let fb ← intBytes 8 found                                                -- 460
      write nh fb
      unlink (keyAddr ix.name (n - 1))                                         -- 461
    else deleteBlock (keyAddr ix.name found)                                   -- 469
    deleteBlock (hashAddr E ix.name (key.hashed E))                            -- 472
    let nb ← intBytes 8 (n - 1)                                                -- 473
    write ix.memory nb                                                         -- 474
    pure (found, n)

/-- implements.py:482-484, 313-315 `__delitem__` / `remove` -/
def indexDel (E : Env) (mode : LockMode) (ix : Index) (key : Key) : Prog (Nat × Nat) :=
  withLock mode ix.name (indexDel_ E ix key)

/-- implements.py:486-493 `close` -/
def indexClose (ix : Index) : Prog Unit := do
  unlink ix.name
  if ← existsBlock (countAddr ix.name) then do
    let _ ← attach (countAddr ix.name)
    unlink (countAddr ix.name)

/-! ## MetaTagIndex -/

/-- implements.py:531-532 -/
def valAddr (name : Str) (ix : Nat) : Str := name ++ "_val_".toList ++ natStr ix

/-- implements.py:503-529 `MetaTagIndex.__init__` -/
def metaIndexInit (name : Str) (create_ : Bool) : Prog Index := do
  let ix ← tagIndexInit name create_
  if create_ then do
    let m ← attach name
    pure { name, memory := m }
  else pure ix

/-- implements.py:570-575 `MetaTagIndex.add`; `value = none` is `None` -/
def metaAdd {M : Type} (E : Env) (c : Codec M) (mode : LockMode) (ix : Index) (key : Key) (value : Option M)
    (existsOk : Bool) : Prog Nat :=
  withLock mode ix.name do
    let w ← indexAdd_ E ix key existsOk                                        -- 572
    match value with
    | some v => do
      let _ ← memorize c v (valAddr ix.name w) true                            -- 573-574
      pure w
    | none => pure w

/-- implements.py:577-582 `MetaTagIndex.__getitem__` -/
def metaGet (E : Env) (ix : Index) (key : Key) : Prog Bytes := do
  match ← check E ix (key.hashed E) with
  | none => .raise .keyError
  | some i => do
    let h ← attach (valAddr ix.name i)
    read h

/-- implements.py:584-600 `MetaTagIndex.__delitem__`: the same lock is entered twice (585, and 483 through 586) -/
def metaDel (E : Env) (mode : LockMode) (ix : Index) (key : Key) : Prog Nat :=
  withLock mode ix.name do
    let (found, n) ← indexDel E mode ix key                                    -- 586
    let lastVal ← (if found + 1 = n then pure false else existsBlock (valAddr ix.name (n - 1)))   -- 588-589
    if lastVal = false then
      deleteBlock (valAddr ix.name found) true                                 -- 591
    else do
      if ← existsBlock (valAddr ix.name (n - 1)) then do                       -- 592
        let vh ← attach (valAddr ix.name (n - 1))                              -- 593
        let vb ← read vh                                                       -- 594
        let mh ← openBlock (valAddr ix.name found) vb.length true true         -- 595-597
        write mh vb                                                            -- 598
        deleteBlock (valAddr ix.name (n - 1))                                  -- 599
    pure found

/-- implements.py:534-536 `_load_key` -/
def loadKey (E : Env) (ix : Index) (i : Nat) : Prog Str := do
  let h ← attach (keyAddr ix.name i)
  let b ← read h
  decodeUtf8 E b

/-- implements.py:538-542 `_load_value` -/
def loadVal {M : Type} (c : Codec M) (ix : Index) (i : Nat) : Prog (Option M) := do
  match ← (remember c (valAddr ix.name i)).attempt with
  | .ok v => pure (some v)
  | .error .fileNotFound => pure none
  | .error e => .raise e

/-- implements.py:544-559 `_enumerate`, from slot `i` on, `d` slots, with the loaders asked for -/
def enumerateSlots {β : Type} (load : Nat → Prog β) : Nat → Nat → Prog (List β)
  | _, 0 => pure []
  | i, d + 1 => do
    let x ← load i
    let rest ← enumerateSlots load (i + 1) d
    pure (x :: rest)

/-- implements.py:567-568 `items` -/
def metaItems {M : Type} (E : Env) (c : Codec M) (ix : Index) : Prog (List (Str × Option M)) := do
  let n ← readLength ix
  enumerateSlots (fun i => do
    let k ← loadKey E ix i
    let v ← loadVal c ix i
    pure (k, v)) 0 n

/-- implements.py:561-562 `keys` -/
def metaKeys (E : Env) (ix : Index) : Prog (List Str) := do
  let n ← readLength ix
  enumerateSlots (loadKey E ix) 0 n

/-- implements.py:564-565 `values` -/
def metaValues {M : Type} (c : Codec M) (ix : Index) : Prog (List (Option M)) := do
  let n ← readLength ix
  enumerateSlots (loadVal c ix) 0 n

end Verif.Model
