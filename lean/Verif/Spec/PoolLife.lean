import Verif.Model.PoolLife
/-!
# What a `MaybePool` is for

It has the results of the last `map`, and none after `terminate`.
-/
namespace Verif.Spec
open Verif Verif.Model
variable {K A V : Type} [DecidableEq K]

/-- what a call of the function leaves under the key: the value, or the exception -/
def lifeEntry (f : A → Except PyErr (Ret V)) (a : A) : Ret V :=
  match f a with
  | .ok r => r
  | .error e => .exc e

/-- the results of `map`, for the records from the `i`th on: a record without key has its position -/
def lifeTable (ofNat : Nat → K) (f : A → Except PyErr (Ret V)) : Nat → List (Rec K A) → Dict K (Ret V) → Dict K (Ret V)
  | _, [], d => d
  | i, r :: t, d => lifeTable ofNat f (i + 1) t (d.set (match r.key with | some k => k | none => ofNat i) (lifeEntry f r.arg))

/-- the answers -/
def lifeAnswers (ofNat : Nat → K) : Dict K (Ret V) → List (LifeCall K A V) → List (LifeRes K V)
  | _, [] => []
  | _, .map f recs _ :: t => .done (.ok ()) :: lifeAnswers ofNat (lifeTable ofNat f 0 recs []) t
  | d, .close :: t => .done (.ok ()) :: lifeAnswers ofNat d t
  | d, .join :: t => .done (.ok ()) :: lifeAnswers ofNat d t
  | _, .terminate :: t => .done (.ok ()) :: lifeAnswers ofNat [] t
  | d, .get :: t => .got (.ok d) :: lifeAnswers ofNat d t

/-- no `map` after `close` or `terminate`, and no `join` before -/
def inOrder : (over : Bool) → List (LifeCall K A V) → Prop
  | _, [] => True
  | over, .map _ _ _ :: t => over = false ∧ inOrder over t
  | _, .close :: t => inOrder true t
  | _, .terminate :: t => inOrder true t
  | over, .join :: t => over = true ∧ inOrder over t
  | over, .get :: t => inOrder over t

/-- all `map`s with this `as_chunks`, of functions that raise ordinary exceptions only, and none if chunked; an `Exception` that is
returned is an ordinary one -/
def lifeOK (ch : Bool) : LifeCall K A V → Prop
  | .map f _ asChunks => asChunks = ch ∧ (∀ a e, f a = .error e → ch = false ∧ e.isException = true) ∧
      ∀ a e, f a = .ok (.exc e) → e.isException = true
  | _ => True

end Verif.Spec
