import Verif.Model.Index
/-!
# Model of the notepads and `Sticky` of `/repo/dustgoggles/codex/implements.py` (lines 603-1004)

`dump` is in `Model/Dump.lean`, `cleanup_on_exit` in `Model/AtExit.lean`. `fetch=False` is in `Model/Views.lean`. Debug logging is not modelled.
-/
namespace Verif.Model
open Verif

/-- which index a notepad uses -/
inductive NoteIndex where
  | tag (ix : Index)
  | fake                 -- implements.py:318-335 `FakeIndex`

/-- a notepad object -/
structure Pad where
  pre : Str
  index : NoteIndex
  mode : LockMode

/-- implements.py:652-653 -/
def padAddr (pre : Str) (key : Str) : Str := pre ++ '_' :: key

/-- implements.py:632 -/
def indexName (pre : Str) : Str := pre ++ "_index".toList

/-- implements.py:604-647, 725-747 `Notepad.__init__` with an explicit prefix and `update_on_init=False` -/
def padInit (pre : Str) (create_ : Bool) (mode : LockMode) : Prog Pad := do
  let ix ← tagIndexInit (indexName pre) create_
  pure { pre, index := .tag ix, mode }

/-- "index" -/
def indexWord : Str := "index".toList

/-- implements.py:762 `isinstance(key, str) and key.startswith("index")` -/
def reserved : Key → Bool
  | .str s => indexWord.isPrefixOf s
  | _ => false

/-- implements.py:779 `key in ["index", "index_lock"]` (an object that is not a `str` is taken not to equal one) -/
def reservedExact : Key → Bool
  | .str s => s == indexWord || s == "index_lock".toList
  | _ => false

variable {V : Type}

/-- implements.py:749-753 `__getitem__`; `isNone` tells the value `None` -/
def padGet (c : Codec V) (isNone : V → Bool) (p : Pad) (key : Key) : Prog V := do
  let v ← remember c (padAddr p.pre key.text)
  if isNone v then .raise .keyError else pure v

/-- implements.py:755-759 `get` -/
def padGetD (c : Codec V) (isNone : V → Bool) (p : Pad) (key : Key) (default : V) : Prog V := do
  match ← (padGet c isNone p key).attempt with
  | .ok v => pure v
  | .error .keyError => pure default
  | .error e => .raise e

/-- the index call of line 765; a metadata value with a `TagIndex` raises `ValueError` (440-441) -/
def padIndexAdd (E : Env) (p : Pad) (key : Key) (hasMeta existsOk : Bool) : Prog Unit :=
  match p.index with
  | .fake => pure ()
  | .tag ix => if hasMeta then .raise .valueError else do
      let _ ← indexAdd E p.mode ix key existsOk
      pure ()

/-- implements.py:761-776 `__setitem__` / `set` -/
def padSet (E : Env) (c : Codec V) (p : Pad) (key : Key) (value : V) (existsOk : Bool) (hasMeta : Bool := false) :
    Prog Unit := do
  if reserved key then .raise .keyError                                        -- 762-763
  else do
    let body : Prog Unit := do
      padIndexAdd E p key hasMeta existsOk                                     -- 765
      let _ ← memorize c value (padAddr p.pre key.text) existsOk               -- 766
      pure ()
    match ← body.attempt with
    | .ok () => pure ()
    | .error .fileExists => .raise .keyError                                   -- 769-773
    | .error e => .raise e

/-- the index call of line 783 -/
def padIndexDel (E : Env) (p : Pad) (key : Key) : Prog Unit :=
  match p.index with
  | .fake => pure ()
  | .tag ix => do
      let _ ← indexDel E p.mode ix key
      pure ()

/-- implements.py:778-785 `__delitem__` -/
def padDel (E : Env) (p : Pad) (key : Key) : Prog Unit := do
  if reservedExact key then .raise .keyError                                   -- 779-780
  else do
    let body : Prog Unit := do
      deleteBlock (padAddr p.pre key.text)                                     -- 782
      padIndexDel E p key                                                      -- 783
    match ← body.attempt with
    | .ok () => pure ()
    | .error .fileNotFound => .raise .keyError                                 -- 784-785
    | .error e => .raise e

/-- implements.py:674-675, 655-656 `keys`; with a `FakeIndex` it returns `None` -/
def padKeys (E : Env) (p : Pad) : Prog (Option (List Str)) :=
  match p.index with
  | .fake => pure none
  | .tag ix => do
      let l ← indexUpdate E ix
      pure (some l)

/-- `for key in keys: del self[key]` (805-808, 815-816) -/
def padDelAll (E : Env) (p : Pad) : List Str → Prog Unit
  | [] => pure ()
  | k :: t => do
    padDel E p (.str k)
    padDelAll E p t

/-- implements.py:802-812 `close(dump=False)`; with a `FakeIndex`, `None.copy()` raises the `AttributeError` that is
swallowed -/
def padClose (E : Env) (p : Pad) : Prog Unit :=
  match p.index with
  | .fake => pure ()
  | .tag ix => do
      let keys ← indexUpdate E ix
      padDelAll E p keys
      indexClose ix

/-- implements.py:814-816 `clear`; with a `FakeIndex`, iterating over `None` raises `TypeError` -/
def padClear (E : Env) (p : Pad) : Prog Unit :=
  match p.index with
  | .fake => .raise .typeError
  | .tag ix => do
      let keys ← indexUpdate E ix
      padDelAll E p keys

/-- implements.py:694-697 `iteritems`, run to its end without interruption -/
def padItemsOf (c : Codec V) (isNone : V → Bool) (p : Pad) : List Str → Prog (List (Str × V))
  | [] => pure []
  | k :: t => do
    let v ← padGet c isNone p (.str k)
    let rest ← padItemsOf c isNone p t
    pure ((k, v) :: rest)

/-- implements.py:694-697 `list(np.iteritems())` -/
def padItems (E : Env) (c : Codec V) (isNone : V → Bool) (p : Pad) : Prog (List (Str × V)) :=
  match p.index with
  | .fake => .raise .typeError
  | .tag ix => do
      let keys ← indexUpdate E ix
      padItemsOf c isNone p keys

/-! ## GridPaper -/

/-- a `GridPaper` object (`_open_blocks`, which only fills with `keep_open=True` or `copy=False`, is empty) -/
structure Grid where
  pre : Str
  index : Index
  mode : LockMode

/-- implements.py:827-848 `GridPaper.__init__` -/
def gridInit (pre : Str) (create_ : Bool) (mode : LockMode) : Prog Grid := do
  let ix ← metaIndexInit (indexName pre) create_
  pure { pre, index := ix, mode }

/-- implements.py:850-857 `__getitem__(key, fetch=True, copy=True)` -/
def gridGet (E : Env) (c : Codec ArrMeta) (nbytes : Str → List Nat → Nat) (g : Grid) (key : Key) : Prog Arr := do
  let body : Prog Arr := do
    let mj ← metaGet E g.index key
    rememberArray nbytes c.decode mj
  match ← body.attempt with
  | .ok a => pure a
  | .error .fileNotFound => .raise .keyError
  | .error e => .raise e

/-- implements.py:859-863 `get` -/
def gridGetD (E : Env) (c : Codec ArrMeta) (nbytes : Str → List Nat → Nat) (g : Grid) (key : Key) (default : Arr) :
    Prog Arr := do
  match ← (gridGet E c nbytes g key).attempt with
  | .ok a => pure a
  | .error .keyError => pure default
  | .error e => .raise e

/-- implements.py:865-887 `__setitem__` / `set` with `keep_open=False` -/
def gridSet (E : Env) (c : Codec ArrMeta) (g : Grid) (key : Key) (value : Arr) (existsOk : Bool) : Prog Unit := do
  if reserved key then .raise .keyError                                        -- 868-869
  else do
    match ← (memorizeArray value (padAddr g.pre key.text) existsOk).attempt with   -- 871-873
    | .ok m => do
      let _ ← metaAdd E c g.mode g.index key (some m) true                     -- 881
      pure ()
    | .error .fileExists => .raise .keyError                                   -- 876-880
    | .error e => .raise e

/-- implements.py:902-913 `__delitem__` -/
def gridDel (E : Env) (g : Grid) (key : Key) : Prog Unit := do
  if reservedExact key then .raise .keyError
  else do
    let body : Prog Unit := do
      deleteBlock (padAddr g.pre key.text)                                     -- 906
      let _ ← metaDel E g.mode g.index key                                     -- 907
      pure ()
    match ← body.attempt with
    | .ok () => pure ()
    | .error .fileNotFound => .raise .keyError                                 -- 912-913
    | .error e => .raise e

/-- `for key in …: del self[key]` (916-919) -/
def gridDelAll (E : Env) (g : Grid) : List Str → Prog Unit
  | [] => pure ()
  | k :: t => do
    gridDel E g (.str k)
    gridDelAll E g t

/-- implements.py:915-921 `close(dump=False)` -/
def gridClose (E : Env) (g : Grid) : Prog Unit := do
  let keys ← indexUpdate E g.index
  gridDelAll E g keys
  indexClose g.index

/-- implements.py:923-925 `clear`: `update_index()` returns a list, which has no `keys` -/
def gridClear (E : Env) (g : Grid) : Prog Unit := do
  let _ ← indexUpdate E g.index
  .raise .attributeError

/-! ## Sticky -/

/-- a `Sticky` object -/
structure Sticky (V : Type) where
  address : Str
  cached : Option V        -- `none` is `None`

/-- implements.py:937-947 `Sticky(address)` -/
def stickyInit (address : Str) : Sticky V := { address, cached := none }

/-- implements.py:968-977 `read`; `isNone` tells the value `None` -/
def stickyRead (c : Codec V) (isNone : V → Bool) (n : Sticky V) (reread : Bool) : Prog (Option V × Sticky V) := do
  match n.cached, reread with
  | some v, false => pure (some v, n)                                          -- 969-970
  | _, _ => do
    match ← (attach n.address).attempt with                                    -- 971-974
    | .error .fileNotFound => pure (none, n)
    | .error e => .raise e
    | .ok h => do
      let b ← read h                                                           -- 975
      let v ← Prog.ofExcept (c.decode b)                                       -- 976
      let r := if isNone v then none else some v
      pure (r, { n with cached := r })

/-- implements.py:979-985 `close` / `pull` -/
def stickyClose (n : Sticky V) : Prog Unit := do
  let _ ← attach n.address
  unlink n.address

/-- implements.py:987-992 `stick` -/
def stickyStick (c : Codec V) (isNone : V → Bool) (n : Sticky V) (obj : V) : Prog (Sticky V) := do
  let b ← Prog.ofExcept (c.encode obj)                                         -- 988
  let h ← openBlock n.address b.length                                         -- 990
  write h b                                                                    -- 991
  pure { n with cached := if isNone obj then none else some obj }              -- 992

/-- implements.py:950-966 `Sticky.note(obj, address)` with an explicit address -/
def stickyNote (c : Codec V) (isNone : V → Bool) (obj : V) (address : Str) : Prog (Sticky V) :=
  stickyStick c isNone { address, cached := if isNone obj then none else some obj } obj

end Verif.Model
