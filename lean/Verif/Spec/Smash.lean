import Mathlib.Data.List.Forall2
import Verif.Spec.Tables
/-!
# What is said of smash, unpack and unpack_column
-/
namespace Verif.Spec
open Verif Verif.Model

variable {C : Type}

/-- row `i` has the cells `ids` in the columns `names`, in this order -/
def CellsAt (f : Frame Str C) (names : List Str) (i : Nat) (ids : List C) : Prop :=
  List.Forall₂ (fun n x => ∃ cells, (n, cells) ∈ f.columns ∧ cells[i]? = some x) names ids

/-- row `i` is asked for: its cells in these columns are all among the values -/
def AskedFor (f : Frame Str C) (names : List Str) (isin : Option (C → Bool)) (i : Nat) : Prop :=
  ∃ ids, CellsAt f names i ids ∧ ∀ p, isin = some p → ∀ x ∈ ids, p x = true

/-- `a_b_c` -/
def underscored (parts : List Str) : Str := List.intercalate ['_'] parts

/-- the length of the longest of these lists -/
def IsWidth (w : Nat) (ls : List (List C)) : Prop := (∀ l ∈ ls, l.length ≤ w) ∧ ∀ v, (∀ l ∈ ls, l.length ≤ v) → w ≤ v

/-- what stands at place `j` of a list: its element, or null if it is too short -/
def padded (null : C) (l : List C) (j : Nat) : C := (l[j]?).getD null

/-- the columns that lists are unpacked to: `name_0`, `name_1`, …, as many as the longest list is long; in each row the elements
of its list; null where the list is too short or there is none -/
def PartsOf (isNull : C → Bool) (null : C) (elems : C → List C) (name : Str) (cells : List C) (news : List (Str × List C)) : Prop :=
  IsWidth news.length ((cells.filter fun x => !isNull x).map elems) ∧
  ∀ (j : Nat) c, news[j]? = some c → c.1 = name ++ '_' :: natStr j ∧ c.2.length = cells.length ∧
    ∀ (k : Nat) x, cells[k]? = some x → c.2[k]? = some (if isNull x then null else padded null (elems x) j)

end Verif.Spec
