import Verif.Model.Tracker
/-! # What a Tracker's history and log file should be -/
namespace Verif.Spec
open Verif Verif.Model

variable {J : Type}

/-- the number of `track` operations since the last `clear` -/
def tracked : List (TrkOp J) → Nat
  | [] => 0
  | .clear :: _ => 0
  | .track .. :: t => tracked t + 1
  | _ :: t => tracked t

/-- the value last given to `k` by `set_metadata`; the most recent operation comes first -/
def lastSet (k : Str) : List (TrkOp J) → Option J
  | [] => none
  | .setMetadata m :: t => (Dict.get? m k).or (lastSet k t)
  | _ :: t => lastSet k t

/-- the entries `track` makes by itself -/
def ownEntry [Jval J] (target caller : Str) (lineno count : Nat) (k : Str) : Option J :=
  if k = "target".toList then some (Jval.ofStr target)
  else if k = "caller".toList then some (Jval.ofStr caller)
  else if k = "lineno".toList then some (Jval.ofNat lineno)
  else if k = "trackcount".toList then some (Jval.ofNat count)
  else none

/-- documents with `,` and a new line between them -/
def commaSep : List (List UInt8) → List UInt8
  | [] => []
  | [d] => d
  | d :: t => d ++ [44, 10] ++ commaSep t

/-- the file is absent and there are no documents; or it is `[`, the documents, and `]` -/
def IsLog (file : Option (List UInt8)) (docs : List (List UInt8)) : Prop :=
  (file = none ∧ docs = []) ∨ (file = some (91 :: commaSep docs ++ [93]) ∧ docs ≠ [])

/-- keyword arguments have distinct names -/
def KwWF : TrkOp J → Prop
  | .track _ _ _ m => Dict.WF m
  | .setMetadata m => Dict.WF m
  | _ => True

end Verif.Spec
