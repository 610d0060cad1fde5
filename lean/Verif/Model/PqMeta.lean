import Verif.Model.Tables
/-!
# mosaic.py: metadata of parquet files

What pyarrow says of a column chunk (`to_dict`) is a dict of fields, of which `statistics` is a dict or None. Cells are values or
null; `sum` adds up values. Of pandas, besides what is written down in `Model/Pivot.lean` and `Model/Tables.lean`: a frame
made of dicts has the keys of all of them, in order of first appearance, and null where a dict lacks a key. Not modelled:
`convert_dtypes` (the values stay the same), names of rows before `meta_column_df` sets them.
-/
namespace Verif.Model
open Verif

variable {V : Type}

/-- a column chunk: `to_dict()` without `statistics`, and `statistics`, None where they are not set -/
structure Chunk (V : Type) where
  fields : Dict Str (Option V)
  statistics : Option (Dict Str (Option V))

/-- mosaic.py:27-30: the record of a column chunk. `record |= None` raises `TypeError`. -/
def metaRecord (num : Nat → V) (c : Chunk V) (colIx groupIx : Nat) : Except PyErr (Dict Str (Option V)) :=
  match c.statistics with
  | none => .error .typeError
  | some s => .ok (((c.fields.update s).set "row_group".toList (some (num groupIx))).set "col_ix".toList (some (num colIx)))

/-- mosaic.py:21-31 `parquet_metadata_records`, for a file with so many columns and row groups -/
def metadataRecords (num : Nat → V) (columns groups : Nat) (chunk : Nat → Nat → Chunk V) :
    Except PyErr (List (Dict Str (Option V))) :=
  ((List.range columns).flatMap fun c => (List.range groups).map fun g => (c, g)).mapM fun p =>
    metaRecord num (chunk p.1 p.2) p.1 p.2

/-- `pd.DataFrame(records)` -/
def recordFrame (records : List (Dict Str (Option V))) : Frame Str (Option V) :=
  ⟨(List.range records.length).map natStr,
    (unionLabels (records.map Dict.keys)).map fun k => (k, records.map fun r => (r.get? k).join)⟩

/-- mosaic.py:11-18 `BRIEF_PQ_META_FIELDS` -/
def briefMetaFields : List Str :=
  ["physical_type".toList, "path_in_schema".toList, "compression".toList, "encodings".toList, "has_dictionary_page".toList,
    "col_ix".toList]

/-- the columns that are added up (mosaic.py:46) -/
def summedFields : List Str := ["num_values".toList, "total_compressed_size".toList, "total_uncompressed_size".toList]

/-- `df[names].sum()` -/
def sumColumns (sum : List V → V) (f : Frame Str (Option V)) (names : List Str) : Except PyErr (Dict Str (Option V)) :=
  names.mapM fun n => match Dict.get? f.columns n with
    | none => .error .keyError
    | some cells => .ok (n, some (sum (cells.filterMap id)))

variable [DecidableEq V]

/-- `==` of cells -/
def metaEq (a b : Option V) : Bool := a.isSome && decide (a = b)

/-- mosaic.py:39-48: the Series for one column of the file -/
def metaSeries (sum : List V → V) (f : Frame Str (Option V)) (paths : List (Option V)) (extended : Bool) (p : Option V) :
    Except PyErr (Series Str (Option V)) :=
  let slice := f.takeRows (paths.map fun q => metaEq q p)                                            -- 39
  match extractConstants Option.isNone metaEq slice true false true true with                        -- 40
  | .error e => .error e
  | .ok x =>
    let constants := match x.constants with | .inr d => d | .inl _ => []
    let constants := if extended then constants else constants.filter fun c => decide (c.1 ∈ briefMetaFields)   -- 41-44
    match sumColumns sum slice summedFields with                                                     -- 45-47
    | .error e => .error e
    | .ok stats => .ok ⟨[], Dict.keys (constants ++ stats), Dict.values (constants ++ stats)⟩        -- 48

/-- mosaic.py:34-49 `_flatten_meta_df`: the rows of the frame -/
def flattenMeta (sum : List V → V) (f : Frame Str (Option V)) (paths : List (Option V)) (extended : Bool) :
    Except PyErr (List (Dict Str (Option V))) :=
  match (select paths ((duplicated [] paths).map not)).mapM (metaSeries sum f paths extended) with   -- 38
  | .error e => .error e
  | .ok ss => match concatColumns none ss with                                                       -- 49
    | .error e => .error e
    | .ok g => .ok (g.columns.map fun c => g.index.zip c.2)

/-- the new names (mosaic.py:59-65) -/
def metaNames : Dict Str Str :=
  [("physical_type".toList, "type".toList), ("path_in_schema".toList, "column".toList),
    ("has_dictionary_page".toList, "dict_page".toList), ("total_compressed_size".toList, "comp_size".toList),
    ("total_uncompressed_size".toList, "uncomp_size".toList)]

/-- the name a column has after `rename` (mosaic.py:58) -/
def metaName (s : Str) : Str := (metaNames.get? s).getD s

/-- the columns of the brief table (mosaic.py:69-79) -/
def briefColumns : List Str :=
  ["column".toList, "type".toList, "comp_size".toList, "uncomp_size".toList, "num_values".toList, "dict_page".toList,
    "encodings".toList, "compression".toList, "col_ix".toList]

/-- mosaic.py:52-81 `meta_record_df`: its rows -/
def metaRecordDf (sum : List V → V) (records : List (Dict Str (Option V))) (extended : Bool) :
    Except PyErr (List (Dict Str (Option V))) :=
  let f := recordFrame records
  match Dict.get? f.columns "path_in_schema".toList with
  | none => .error .keyError
  | some paths =>
    match (if paths.Nodup then .ok (f.rows.map fun r => (f.columns.map Prod.fst).zip r.2)            -- 56-57
      else flattenMeta sum f paths extended) with
    | .error e => .error e
    | .ok rows =>
      let rows := rows.map fun r => r.map fun kv => (metaName kv.1, kv.2)                            -- 58-66
      if extended then .ok rows
      else .ok (rows.map fun r => briefColumns.map fun n => (n, (r.get? n).join))                    -- 67-80

/-- mosaic.py:84-90 `meta_column_df`: for each row of the table, its `column` and the row. `KeyError` comes only from tables
without rows. -/
def metaColumnDf (num : Nat → V) (sum : List V → V) (columns groups : Nat) (chunk : Nat → Nat → Chunk V) (extended : Bool) :
    Except PyErr (Dict (Option V) (Dict Str (Option V))) :=
  match metadataRecords num columns groups chunk with
  | .error e => .error e
  | .ok records => match metaRecordDf sum records extended with
    | .error e => .error e
    | .ok rows => .ok (rows.map fun r => ((r.get? "column".toList).join, r))

end Verif.Model
