import Verif.Model.Pivot
/-!
# pivot.py: smash, unpack, unpack_column

Names of columns and labels of rows are texts. Of pandas, these are written down: `melt` gives, column after column, one row for
each row of the frame; `DataFrame(lists)` makes a column for each place in the longest list and pads shorter lists with null;
`df.loc[labels, names] = other` sets cells by label, in every row of that label, adds the names that are missing (null in
other rows), changes `df` itself, and raises where `other` repeats a label. Not modelled: dtypes, frames in which two columns
have the same name, columns called `variable` or `value` (which `melt` uses itself), cells of `unpack` that are
neither null nor lists.
-/
namespace Verif.Model
open Verif

variable {C : Type}

/-- `lambda x, y: x + "_" + y` over the columns, row by row (pivot.py:303-306) -/
def reduceNames : List Str → Str
  | [] => []
  | x :: t => t.foldl (fun a y => a ++ ['_'] ++ y) x

/-- `df[by].isin(values).all(axis=1)` at a row (301); `isin` is membership in `values`, none if `values is None` -/
def rowKept (isin : Option (C → Bool)) (ids : List (List C)) (i : Nat) : Bool :=
  match isin with
  | none => true
  | some p => ids.all fun c => (c[i]?).all p

/-- pivot.py:298-307 `smash`: labels and values. `text` is `astype(str)` of a cell; `by` is a list already (`listify`, 299). -/
def smash (text : C → Str) (f : Frame Str C) (by_ : List Str) (isin : Option (C → Bool)) : Except PyErr (List (Str × C)) :=
  match by_.mapM (Dict.get? f.columns) with
  | none => .error .keyError
  | some ids =>
    let rows := (List.range f.index.length).filter (rowKept isin ids)                                    -- 300-301
    let vals := f.columns.filter fun c => decide (c.1 ∉ by_)
    .ok (vals.flatMap fun v => rows.filterMap fun i => (v.2[i]?).map fun x =>                             -- 302
      (reduceNames (ids.filterMap (fun c => (c[i]?).map text) ++ [v.1]), x))                             -- 303-307

/-- `f"{name}_{i}"` (pivot.py:314) -/
def partName (name : Str) (i : Nat) : Str := name ++ ['_'] ++ natStr i

/-- the length of the longest list -/
def widest (ls : List (List C)) : Nat := ls.foldl (fun a l => max a l.length) 0

/-- pivot.py:310-315 `unpack` of a Series with this name: rows (label, cell). `elems` are the elements of a list. -/
def unpack (isNull : C → Bool) (null : C) (elems : C → List C) (name : Str) (s : List (Str × C)) : Frame Str C :=
  let dropped := s.filter fun r => !isNull r.2                                                           -- 312
  let lists := dropped.map fun r => elems r.2
  ⟨dropped.map Prod.fst, (List.range (widest lists)).map fun j =>                                        -- 313-314
    (partName name j, lists.map fun l => (l[j]?).getD null)⟩

/-- the cell of a label in a column of a frame with these labels -/
def cellAt (index : List Str) (cells : List C) (l : Str) : Option C := Dict.get? (index.zip cells) l

/-- the cells of a column after `df.loc[index, name] = cells` -/
def setCells (rows : List Str) (old : List C) (index : List Str) (cells : List C) : List C :=
  (rows.zip old).map fun r => (cellAt index cells r.1).getD r.2

/-- `df.loc[g.index, g.columns] = g` -/
def setFrame (null : C) (f g : Frame Str C) : Except PyErr (Frame Str C) :=
  if g.index.Nodup then
    .ok { f with columns := g.columns.foldl (fun cols c =>
      Dict.set cols c.1 (setCells f.index ((Dict.get? cols c.1).getD (f.index.map fun _ => null)) g.index c.2)) f.columns }
  else .error .valueError

/-- pivot.py:318-322 `unpack_column`: the frame passed in, after the call, and the frame returned -/
def unpackColumn (isNull : C → Bool) (null : C) (elems : C → List C) (f : Frame Str C) (name : Str) :
    Except PyErr (Frame Str C × Frame Str C) :=
  match Dict.get? f.columns name with
  | none => .error .keyError
  | some cells =>
    match setFrame null f (unpack isNull null elems name (f.index.zip cells)) with                       -- 320-321
    | .error e => .error e
    | .ok f' => .ok (f', { f' with columns := f'.columns.filter fun c => decide (c.1 ≠ name) })          -- 322

end Verif.Model
