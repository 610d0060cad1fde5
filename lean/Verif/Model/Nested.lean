import Verif.Py.Err
import Verif.Py.Val
/-!
# Model of `/repo/dustgoggles/structures.py`: nested mappings

`to_records` (26-43), `_unnest`/`unnest` (46-64), `NestingDict` (67-88), the `dig_*` family (162-279) and `rmerge`
(295-312).
-/
namespace Verif.Model
open Verif

variable {A : Type} [DecidableEq A]

/-! ## `to_records` -/

/-- A level-name iterator, as the sequence of values it will still yield (`none` = exhausted). `copy(level_names)`
(structures.py:37) of a CPython list/tuple/`accumulate` iterator continues from the same position, so passing the
stream together with the current position is exact for those iterators. -/
abbrev NameStream (A : Type) := Nat → Option A

mutual
/-- structures.py:26-43, `to_records(nested, accumulated_levels, level_names)`; `lvl` is how far the iterator has
advanced. `next(level_names)` (32) raises `StopIteration`; `.items()`/`.values()` of a non-mapping raises
`AttributeError` (33, 34). Simplification: every mapping class is assumed to support `|` and `.copy()`. -/
def toRecords (names : NameStream A) (lvl : Nat) (acc : Dict A (Val A)) :
    Val A → Except PyErr (List (Dict A (Val A)))
  | .atom _ => match names lvl with
    | none => .error .stopIteration
    | some _ => .error .attributeError
  | .map _ l => match names lvl with
    | none => .error .stopIteration
    | some nm => toRecordsLoop names lvl acc nm l
/-- the `for` loop of structures.py:33-41 -/
def toRecordsLoop (names : NameStream A) (lvl : Nat) (acc : Dict A (Val A)) (nm : A) :
    List (A × Val A) → Except PyErr (List (Dict A (Val A)))
  | [] => .ok []
  | (cat, v) :: rest => do
    let here ←
      match v with
      | .atom _ => .error .attributeError                        -- 34: `mapping.values()`
      | .map t sub =>
        if sub.all (fun kv => kv.2.isMapping) then               -- 34
          toRecords names (lvl + 1) (acc.set nm (.atom cat)) (.map t sub)   -- 35-37
        else
          .ok [Dict.update sub (acc.set nm (.atom cat))]         -- 39-41
    let more ← toRecordsLoop names lvl acc nm rest
    pure (here ++ more)
end

/-- `to_records(nested, level_names=names)` as called by a user (no accumulated levels). -/
def toRecordsTop (names : NameStream A) (v : Val A) := toRecords names 0 [] v

/-! ## `unnest` -/

/-- structures.py:49-51: the prefix built from the enclosing levels. `str` is Python's `str` on keys. -/
def unnestPrefix (str : A → List Char) (esc : List Char) (levels : List A) : List Char :=
  let joined := List.intercalate (esc ++ ['_'] ++ esc) (levels.map str)
  if joined.length > 0 then esc ++ joined ++ esc ++ ['_'] else joined

mutual
/-- structures.py:46-59 for a `nested` of a type in `mtypes` (the other case, line 48, is in `unnest`) -/
def unnestRec (str : A → List Char) (mt : Tag → Bool) (esc : List Char) (levels : List A) :
    Val A → List (Dict (List Char) (Val A))
  | .atom _ => []
  | .map _ l => unnestLoop str mt esc levels l
/-- the `for` loop of structures.py:53-58; each record is a one-entry dict -/
def unnestLoop (str : A → List Char) (mt : Tag → Bool) (esc : List Char) (levels : List A) :
    List (A × Val A) → List (Dict (List Char) (Val A))
  | [] => []
  | (level, v) :: rest =>
    (if v.isA mt then unnestRec str mt esc (levels ++ [level]) v          -- 57-58
     else [[(unnestPrefix str esc levels ++ str level, v)]])              -- 54-56
    ++ unnestLoop str mt esc levels rest
end

/-- structures.py:62-64. `cytoolz.merge` of a list of dicts folds `update`. If `nested` is not of a type in `mtypes`,
`_unnest` returns it unchanged (48): `merge` of a non-iterable raises `TypeError`, `merge` of a mapping copies it.
Simplifications: atoms are non-iterable; in the copied case Python leaves the keys as they are, here they are rendered
by `str` because the result type has text keys. -/
def unnest (str : A → List Char) (mt : Tag → Bool) (esc : List Char) (v : Val A) :
    Except PyErr (Dict (List Char) (Val A)) :=
  match v with
  | .atom _ => .error .typeError
  | .map t l =>
    if mt t then .ok ((unnestRec str mt esc [] (.map t l)).foldl Dict.update [])
    else .ok (l.foldl (fun acc kv => acc.set (str kv.1) kv.2) [])

/-! ## the `dig` family -/

/-- A dig predicate: may raise. -/
abbrev DigPred (A : Type) := A → Val A → Except PyErr Bool

/-- structures.py:193, `[(k, v) for k, v in mapping.items() if predicate(k, v)]` -/
def levelItems (pred : DigPred A) : List (A × Val A) → Except PyErr (List (A × Val A))
  | [] => .ok []
  | (k, v) :: rest => do
    let b ← pred k v
    let r ← levelItems pred rest
    pure (if b then (k, v) :: r else r)

mutual
/-- structures.py:197-203 `dig_for_all` (with `_evaluate_diglevel`, 187-194). `reduce(add, …)` over the non-empty list
of sub-results is their concatenation. A non-mapping argument raises `AttributeError` at `.values()` (192). -/
def digForAll (pred : DigPred A) (mt : Tag → Bool) : Val A → Except PyErr (List (A × Val A))
  | .atom _ => .error .attributeError
  | .map _ l => do
    let lvl ← levelItems pred l
    let sub ← digNests pred mt l
    pure (lvl ++ sub)
/-- the concatenation over `nests` (192) of `dig_for_all(nest)` (200-202) -/
def digNests (pred : DigPred A) (mt : Tag → Bool) : List (A × Val A) → Except PyErr (List (A × Val A))
  | [] => .ok []
  | (_, v) :: rest => do
    let h ← if v.isA mt then digForAll pred mt v else .ok []
    let r ← digNests pred mt rest
    pure (h ++ r)
end

mutual
/-- structures.py:228-243 `dig_for`: `some items` is the (non-empty) list of hits of the first level that has any -/
def digFor (pred : DigPred A) (mt : Tag → Bool) : Val A → Except PyErr (Option (List (A × Val A)))
  | .atom _ => .error .attributeError
  | .map _ l => do
    let lvl ← levelItems pred l
    if lvl.isEmpty then digForNests pred mt l else pure (some lvl)        -- 233-236
/-- the `while dug is None` loop over `nests` (237-243). The `except StopIteration` is meant for `next(iternests)`, but the
call of `dig_for` is in the same `try`: a `StopIteration` of the predicate ends the loop. -/
def digForNests (pred : DigPred A) (mt : Tag → Bool) :
    List (A × Val A) → Except PyErr (Option (List (A × Val A)))
  | [] => .ok none
  | (_, v) :: rest =>
    match (if v.isA mt then digFor pred mt v else .ok none) with
    | .error .stopIteration => .ok none                                   -- 241-242
    | .error e => .error e
    | .ok (some r) => .ok (some r)
    | .ok none => digForNests pred mt rest
end

/-- the `match` argument: the three documented strings, or anything else -/
inductive Match where
  | key | value | item | unknown
  deriving DecidableEq, Repr

/-- the `ref` argument of the dig functions: a callable, or a constant. A constant can be compared with keys, with
values and with items; `constKV k v` are the comparisons `base_pred(ref, key)`, `base_pred(ref, value)`. -/
inductive Ref (A : Type) where
  | callable (p : DigPred A)
  | const (onKey : A → Bool) (onVal : Val A → Bool)

/-- structures.py:162-184 `constant_to_dig_predicate`, `keyonly`, `valonly`. With `match="item"` the result is
`partial(default, ref)`, which is then called with two more arguments `(k, v)` (193): a two-argument `default` such
as `operator.eq` raises `TypeError`. With an unknown `match` the result is `None`, and calling it raises `TypeError`.
Simplification: `base_pred` is a two-argument function. -/
def constantToDigPredicate : Ref A → Match → DigPred A
  | .callable p, _ => p
  | .const onKey _, .key => fun k _ => .ok (onKey k)
  | .const _ onVal, .value => fun _ v => .ok (onVal v)
  | .const _ _, .item => fun _ _ => .error .typeError
  | .const _ _, .unknown => fun _ _ => .error .typeError

/-- structures.py:206-213 with `element_ix=None`, i.e. `dig_for_items` (224-225): `none` is Python's `None` -/
def digForItems (v : Val A) (ref : Ref A) (m : Match) (mt : Tag → Bool) :
    Except PyErr (Option (List (A × Val A))) := do
  let items ← digForAll (constantToDigPredicate ref m) mt v
  pure (if items.length = 0 then none else some items)

/-- structures.py:220-221 -/
def digForKeys (v : Val A) (ref : Ref A) (m : Match) (mt : Tag → Bool) : Except PyErr (Option (List A)) := do
  let items ← digForAll (constantToDigPredicate ref m) mt v
  pure (if items.length = 0 then none else some (items.map (·.1)))

/-- structures.py:216-217 -/
def digForValues (v : Val A) (ref : Ref A) (m : Match) (mt : Tag → Bool) :
    Except PyErr (Option (List (Val A))) := do
  let items ← digForAll (constantToDigPredicate ref m) mt v
  pure (if items.length = 0 then none else some (items.map (·.2)))

/-- structures.py:246-253 with `element_ix=None`, i.e. `dig_for_item` (264-265): `item[0]` of the hits -/
def digForItem (v : Val A) (ref : Ref A) (m : Match) (mt : Tag → Bool) : Except PyErr (Option (A × Val A)) := do
  match ← digFor (constantToDigPredicate ref m) mt v with
  | none => pure none
  | some [] => .error .indexError
  | some (i :: _) => pure (some i)

/-- structures.py:256-257 -/
def digForValue (v : Val A) (ref : Ref A) (m : Match) (mt : Tag → Bool) : Except PyErr (Option (Val A)) := do
  match ← digFor (constantToDigPredicate ref m) mt v with
  | none => pure none
  | some [] => .error .indexError
  | some (i :: _) => pure (some i.2)

/-- structures.py:260-261 -/
def digForKey (v : Val A) (ref : Ref A) (m : Match) (mt : Tag → Bool) : Except PyErr (Option A) := do
  match ← digFor (constantToDigPredicate ref m) mt v with
  | none => pure none
  | some [] => .error .indexError
  | some (i :: _) => pure (some i.1)

/-! ## `dig_and_edit` -/

/-- the edited value of one item: structures.py:274-276. `matches` is computed before any assignment, so each matching
pair is set exactly once and the assignment cannot influence which pairs match at this level. -/
def editItem (filter : A → Val A → Bool) (setter : A → Val A → Val A) (kv : A × Val A) : A × Val A :=
  if filter kv.1 kv.2 then (kv.1, setter kv.1 kv.2) else kv

/-- structures.py:268-279 `dig_and_edit`, as the state of `mapping` after the call (it is edited in place and
returned). `fuel` bounds the recursion depth; `none` = the recursion is deeper than that. `filter` and `setter` are
total functions of key and value. -/
def digAndEdit (filter : A → Val A → Bool) (setter : A → Val A → Val A) (mt : Tag → Bool) :
    Nat → Val A → Option (Val A)
  | 0, _ => none
  | _ + 1, .atom a => some (.atom a)
  | fuel + 1, .map t l => do
    let l' ← (l.map (editItem filter setter)).mapM fun kv =>
      if kv.2.isA mt then (digAndEdit filter setter mt fuel kv.2).map (fun w => (kv.1, w)) else some kv
    pure (.map t l')

/-! ## `NestingDict` -/

/-- structures.py:76 + `defaultdict.__getitem__`: `d[k]` on a mapping of class `t`, as (value, dict afterwards). A
`NestingDict` inserts an empty `NestingDict` for a missing key, any other mapping raises `KeyError`; an atom is not
subscriptable (`TypeError`; simplification: atoms are never sequences). -/
def getItemND (k : A) : Val A → Except PyErr (Val A × Val A)
  | .atom _ => .error .typeError
  | .map t l => match Dict.get? l k with
    | some v => .ok (v, .map t l)
    | none => if t = .nesting then
        .ok (.map .nesting [], .map t (Dict.set l k (.map .nesting []))) else .error .keyError

/-- `d[k1][k2]…[kn]`: the value found, and the state of `d` afterwards (reads may create levels) -/
def getPathND : List A → Val A → Except PyErr (Val A × Val A)
  | [], d => .ok (d, d)
  | k :: ks, d => do
    let (sub, d') ← getItemND k d
    let (v, sub') ← getPathND ks sub
    match d' with
    | .map t l => pure (v, .map t (Dict.set l k sub'))
    | .atom a => pure (v, .atom a)

/-- `d[k1]…[kn] = v` (for n ≥ 1): the state of `d` afterwards -/
def setPathND : List A → Val A → Val A → Except PyErr (Val A)
  | [], _, d => .ok d
  | [k], v, .map t l => .ok (.map t (Dict.set l k v))
  | [_], _, .atom _ => .error .typeError
  | k :: k' :: ks, v, d => do
    let (sub, d') ← getItemND k d
    let sub' ← setPathND (k' :: ks) v sub
    match d' with
    | .map t l => pure (.map t (Dict.set l k sub'))
    | .atom a => pure (.atom a)

/-- `is_it(NestingDict)(v)` -/
def isNesting : Val A → Bool
  | .map .nesting _ => true
  | _ => false

/-- `dict(v)`: a plain dict with the same items -/
def toPlain : Val A → Val A
  | .map _ l => .map .dict l
  | .atom a => .atom a

/-- structures.py:80-88 `NestingDict.todict`: (result, state of `self` afterwards); `fuel` as in `digAndEdit` -/
def todict (fuel : Nat) (self : Val A) : Option (Val A × Val A) := do
  let self' ← digAndEdit (fun _ v => isNesting v) (fun _ v => toPlain v) Tag.isDict fuel self
  pure (toPlain self', self')

/-! ## `rmerge` -/

/-- `mtypes=(dict, OrderedDict)`, the default of structures.py:295 -/
def rmergeDefault : Tag → Bool := Tag.isDict

/-- structures.py:305-311, the body of the loop for one `kv`: the value assigned to `output[kv[0]]`. `sub` is the
recursive call of line 309. -/
def rmergeValue (mt : Tag → Bool) (sub : List (A × Val A) → List (A × Val A) → List (A × Val A))
    (m1 m2 : List (A × Val A)) (k : A) (v : Val A) : Val A :=
  match Dict.get? m1 k, Dict.get? m2 k with
  | some (.map t1 l1), some (.map t2 l2) =>
    if mt t1 && mt t2 then .map .dict (sub l1 l2) else .map t2 l2          -- 308-311
  | some (.atom _), some w => w                                           -- 310-311
  | some (.map _ _), some (.atom a) => .atom a                            -- 310-311
  | _, _ => v                                                             -- 306-307: only in one

/-- structures.py:295-312 `rmerge(map1, map2, mtypes)` on the items of the two mappings, with `fuel` bounding the
recursion depth (any `fuel` above the depth of `map1` gives the same result, see `Lemmas.Rmerge`). The recursive call
of line 309 passes no `mtypes`, so deeper levels always use the default. The result is a plain `dict`. -/
def rmergeItems : Nat → (Tag → Bool) → List (A × Val A) → List (A × Val A) → List (A × Val A)
  | 0, _, m1, m2 => Dict.update m1 m2
  | fuel + 1, mt, m1, m2 =>
    (m1 ++ m2).foldl
      (fun out kv => Dict.set out kv.1 (rmergeValue mt (rmergeItems fuel rmergeDefault) m1 m2 kv.1 kv.2)) []

/-- `rmerge(map1, map2, mtypes)` with enough fuel -/
def rmerge (mt : Tag → Bool) (m1 m2 : List (A × Val A)) : List (A × Val A) :=
  rmergeItems (Val.depthItems m1 + 1) mt m1 m2

end Verif.Model
