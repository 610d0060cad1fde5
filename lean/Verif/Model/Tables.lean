import Verif.Model.Pivot
/-!
# pivot.py: whole tables

`downcast_df`, `squeeze`, `typed_columns`, `numeric_columns`, `unique_to_records`, `junction`, `dupe_df_block`. Abstract: cells,
whether a column's dtype is numeric, what `downcast` makes of a column. Of pandas, these are written down: a Series built from
an array is labelled `0, 1, …`; `concat(axis=1)` keeps labels that are the same in every Series, and otherwise aligns by
label, in order of first appearance, filling with null, and raises where a Series that must be aligned repeats a label;
`df[names]` takes for each name every column of that name; `value_counts` of a frame counts the complete rows and
sorts them by count; `pivot_table` groups by label, sorted, leaving out null labels. Not modelled: dtypes of aligned
columns, MultiIndex row labels, a Series named like its index.
-/
namespace Verif.Model
open Verif

variable {N C : Type} [DecidableEq N]

/-! ## downcast_df -/

/-- a pandas Series: name, row labels, cells -/
structure Series (N C : Type) where
  name : N
  index : List N
  cells : List C
  deriving DecidableEq

/-- the cell of a label -/
def Series.at (s : Series N C) (l : N) : Option C := Dict.get? (s.index.zip s.cells) l

/-- labels in order of first appearance -/
def unionLabels : List (List N) → List N
  | [] => []
  | i :: t => i ++ (unionLabels t).filter (· ∉ i)

/-- `pd.concat(series, axis=1)` -/
def concatColumns (null : C) (ss : List (Series N C)) : Except PyErr (Frame N C) :=
  match ss with
  | [] => .error .valueError                                                -- "No objects to concatenate"
  | s :: t =>
    if ∀ x ∈ t, x.index = s.index then .ok ⟨s.index, ss.map fun x => (x.name, x.cells)⟩
    else if ∀ x ∈ ss, x.index.Nodup then
      let u := unionLabels (ss.map (·.index))
      .ok ⟨u, ss.map fun x => (x.name, u.map fun l => (x.at l).getD null)⟩
    else .error .valueError                                                 -- "cannot reindex on an axis with duplicate labels"

/-- what the loop of `downcast_df` does with one column (257-264). `downcast` makes a Series of an array, labelled
`0, 1, …` (160-161), or returns a bare array (212), of which `['recast']` raises. `cast` is what `downcast` makes of the cells,
`none` for a bare array. -/
def castColumn (numeric : N × List C → Bool) (cast : N × List C → Except PyErr (Option (List C))) (ofNat : Nat → N)
    (index : List N) (c : N × List C) : Except PyErr (Series N C) :=
  if numeric c = false then .ok ⟨c.1, index, c.2⟩                           -- 258-260
  else match cast c with                                                    -- 261-263
    | .error e => .error e
    | .ok none => .error .indexError
    | .ok (some l) => .ok ⟨c.1, (List.range l.length).map ofNat, l⟩

/-- pivot.py:248-266 `downcast_df` with `reassemble=False` -/
def downcastSeries (numeric : N × List C → Bool) (cast : N × List C → Except PyErr (Option (List C))) (ofNat : Nat → N)
    (f : Frame N C) : Except PyErr (List (Series N C)) :=
  f.columns.mapM (castColumn numeric cast ofNat f.index)

/-- pivot.py:248-266 `downcast_df` with `reassemble=True` -/
def downcastDf (numeric : N × List C → Bool) (cast : N × List C → Except PyErr (Option (List C))) (ofNat : Nat → N) (null : C)
    (f : Frame N C) : Except PyErr (Frame N C) :=
  match downcastSeries numeric cast ofNat f with
  | .error e => .error e
  | .ok ss => concatColumns null ss                                         -- 264-265

/-! ## squeeze -/

/-- `groupby(labels).any()`: sorted by label (`le`), null labels left out -/
def groupAny (isNull : N → Bool) (le : N → N → Bool) (s : List (N × Bool)) : List (N × Bool) :=
  let labels := (select (s.map Prod.fst) ((duplicated [] (s.map Prod.fst)).map not)).filter (!isNull ·)
  (labels.mergeSort le).map fun l => (l, s.any fun p => decide (p.1 = l) && p.2)

/-- pivot.py:335-347 `squeeze` with no `aggfunc` of a Series that is not boolean: `series.loc[~series.index.duplicated()]` -/
def squeezeFirst (s : List (N × C)) : List (N × C) := select s ((duplicated [] (s.map Prod.fst)).map not)

/-- pivot.py:335-361 `squeeze` with no `aggfunc` of a boolean Series -/
def squeezeBool (isNull : N → Bool) (le : N → N → Bool) (s : List (N × Bool)) : List (N × Bool) := groupAny isNull le s

/-! ## typed_columns -/

/-- `re.match("u?(t1|t2|…)", name)`, both in lower case, for typenames without special characters -/
def typeMatch (typenames : List Str) (dtype : Str) : Bool :=
  typenames.any fun t => t.isPrefixOf dtype || ('u' :: t).isPrefixOf dtype

/-- `df[names]` -/
def Frame.pick (f : Frame N C) (names : List N) : Frame N C :=
  { f with columns := names.flatMap fun n => f.columns.filter fun c => decide (c.1 = n) }

/-- pivot.py:130-140 `typed_columns` of a frame; `dtype` gives the lower-case names of dtypes of the columns, in order -/
def typedColumns (f : Frame N C) (dtypes : List Str) (typenames : List Str) : Frame N C :=
  f.pick (select (f.columns.map Prod.fst) (dtypes.map (typeMatch typenames)))                -- 138-140

/-- pivot.py:134-137 `typed_columns` of a Series of a numpy dtype: the Series, or (`none`) a frame with no column -/
def typedSeries (s : Series N C) (dtype : Str) (typenames : List Str) : Option (Series N C) :=
  if typenames.any fun t => t.isPrefixOf dtype then some s else none

/-- `("int", "float")` (pivot.py:145) -/
def numericNames : List Str := ["int".toList, "float".toList]

/-- pivot.py:143-145 `numeric_columns` -/
def numericColumns (f : Frame N C) (dtypes : List Str) : Frame N C := typedColumns f dtypes numericNames

/-! ## unique_to_records, junction -/

/-- the row at a place, of the named columns, in the order of the names; none if one is null -/
def completeRow (cols : List (List (Option C))) (i : Nat) : Option (List C) := cols.mapM fun c => c[i]?.join

variable [DecidableEq C]

/-- `df[cols].value_counts().index.to_list()`: the complete rows, each once, in some order (`sort`: by how often) -/
def countedRows (sort : List (List C) → List (List C)) (rows : Nat) (cols : List (List (Option C))) : List (List C) :=
  let complete := (List.range rows).filterMap (completeRow cols)
  sort (select complete ((duplicated [] complete).map not))

/-- pivot.py:325-332 `unique_to_records`: the frame made of the records; no records make a frame without columns -/
def uniqueToRecords (sort : List (List C) → List (List C)) (rows : Nat) (names : List N) (cols : List (List (Option C)))
    (ofNat : Nat → N) : Frame N C :=
  let tuples := countedRows sort rows cols
  if tuples = [] then ⟨[], []⟩
  else ⟨(List.range tuples.length).map ofNat, names.mapIdx fun j n => (n, tuples.filterMap (·[j]?))⟩

/-- pivot.py:292-295 `junction` with the default `difference` -/
def junction (sort : List (List C) → List (List C)) (rows₁ rows₂ : Nat) (cols₁ cols₂ : List (List (Option C))) :
    List (List C) :=
  (countedRows sort rows₁ cols₁).filter (· ∉ countedRows sort rows₂ cols₂)

/-! ## dupe_df_block -/

omit [DecidableEq N] [DecidableEq C] in
/-- pivot.py:32-39 `dupe_df_block`: `np.repeat(values, repeats, axis=0)`, labelled `0, 1, …` -/
def dupeBlock (f : Frame N C) (repeats : Nat) (ofNat : Nat → N) : Frame N C :=
  ⟨(List.range (f.index.length * repeats)).map ofNat, f.columns.map fun c => (c.1, c.2.flatMap fun x => List.replicate repeats x)⟩

end Verif.Model
