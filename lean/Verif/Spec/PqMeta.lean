import Verif.Model.PqMeta
/-!
# What is said of tables of parquet metadata
-/
namespace Verif.Spec
open Verif Verif.Model

variable {V : Type}

/-- what a chunk says of a field: what its statistics say, or else what it says itself; null if neither -/
def told (c : Chunk V) (field : Str) : Option V :=
  match c.statistics.bind fun s => Dict.get? s field with
  | some x => x
  | none => (Dict.get? c.fields field).join

/-- the chunk has the field -/
def Tells (c : Chunk V) (field : Str) : Prop := field ∈ Dict.keys c.fields ∨ ∃ s, c.statistics = some s ∧ field ∈ Dict.keys s

/-- the value that stands for several: the one that all are, null if there are different ones -/
def CommonOf (vs : List (Option V)) (v : Option V) : Prop :=
  (∀ x, vs ≠ [] → (∀ y ∈ vs, y = x) → v = x) ∧ (∀ a b, some a ∈ vs → some b ∈ vs → a ≠ b → v = none)

/-- a file as pyarrow describes it: at least one column and one row group; statistics everywhere; dicts with distinct keys, none
of them a name that only the table has; columns told apart by their paths; sizes given -/
structure FileOK (columns groups : Nat) (chunk : Nat → Nat → Chunk V) (path : Nat → V) : Prop where
  columns_pos : 0 < columns
  groups_pos : 0 < groups
  stats : ∀ c < columns, ∀ g < groups, ∃ s, (chunk c g).statistics = some s ∧ (Dict.keys s).Nodup
  nodup : ∀ c < columns, ∀ g < groups, (Dict.keys (chunk c g).fields).Nodup
  plain : ∀ c < columns, ∀ g < groups, ∀ n ∈ ["column", "type", "dict_page", "comp_size", "uncomp_size", "row_group", "col_ix"],
    ¬ Tells (chunk c g) n.toList
  paths : ∀ c < columns, ∀ g < groups, told (chunk c g) "path_in_schema".toList = some (path c)
  inj : ∀ c < columns, ∀ c' < columns, path c = path c' → c = c'
  sizes : ∀ c < columns, ∀ g < groups, ∀ n ∈ ["num_values", "total_compressed_size", "total_uncompressed_size"],
    ∃ x, told (chunk c g) n.toList = some x

/-- what the brief table says of a column of the file: its path and number; sizes added up over row groups; other fields where
all row groups agree -/
structure BriefRow (num : Nat → V) (sum : List V → V) (groups : Nat) (chunk : Nat → Nat → Chunk V) (path : Nat → V) (c : Nat)
    (row : Dict Str (Option V)) : Prop where
  keys : Dict.keys row = ["column", "type", "comp_size", "uncomp_size", "num_values", "dict_page", "encodings", "compression",
    "col_ix"].map String.toList
  column : Dict.get? row "column".toList = some (some (path c))
  col_ix : Dict.get? row "col_ix".toList = some (some (num c))
  sums : ∀ n ∈ [("comp_size", "total_compressed_size"), ("uncomp_size", "total_uncompressed_size"), ("num_values", "num_values")],
    Dict.get? row n.1.toList = some (some (sum ((List.range groups).filterMap fun g => told (chunk c g) n.2.toList)))
  common : ∀ n ∈ [("type", "physical_type"), ("dict_page", "has_dictionary_page"), ("encodings", "encodings"),
    ("compression", "compression")], ∃ v, Dict.get? row n.1.toList = some v ∧
      CommonOf ((List.range groups).map fun g => told (chunk c g) n.2.toList) v

/-- what the extended table says of a column of the file: its path and number; sizes added up over row groups; every other field
under its own name, where all row groups agree -/
structure ExtendedRow (num : Nat → V) (sum : List V → V) (groups : Nat) (chunk : Nat → Nat → Chunk V) (path : Nat → V) (c : Nat)
    (row : Dict Str (Option V)) : Prop where
  column : Dict.get? row "column".toList = some (some (path c))
  col_ix : Dict.get? row "col_ix".toList = some (some (num c))
  sums : ∀ n ∈ [("comp_size", "total_compressed_size"), ("uncomp_size", "total_uncompressed_size"), ("num_values", "num_values")],
    Dict.get? row n.1.toList = some (some (sum ((List.range groups).filterMap fun g => told (chunk c g) n.2.toList)))
  renamed : ∀ n ∈ [("type", "physical_type"), ("dict_page", "has_dictionary_page")],
      CommonOf ((List.range groups).map fun g => told (chunk c g) n.2.toList) (Dict.get? row n.1.toList).join
  others : ∀ k, (∀ n ∈ ["column", "type", "dict_page", "comp_size", "uncomp_size", "row_group", "col_ix", "num_values",
      "physical_type", "path_in_schema", "has_dictionary_page", "total_compressed_size", "total_uncompressed_size"], k ≠ n.toList) →
    CommonOf ((List.range groups).map fun g => told (chunk c g) k) (Dict.get? row k).join

end Verif.Spec
