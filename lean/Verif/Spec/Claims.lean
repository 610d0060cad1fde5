import Verif.Spec.Own
/-!
# Claiming keys

A key is free, or taken by one process, or was there before any process began.
-/
namespace Verif.Spec
open Verif Verif.Model

/-- who has a key -/
inductive Holder where
  | free
  | before
  | by (i : Nat)
  deriving DecidableEq

/-- what a process does with a key: it gets it, is refused it, gives it up -/
inductive Grab where
  | won
  | lost
  | gave
  deriving DecidableEq

def holderPut (T : Str → Holder) (k : Str) (x : Holder) : Str → Holder := fun k' => if k' = k then x else T k'

/-- one after the other: a key is got only when it is free, refused only when it is taken, and given up only by the process
that has it -/
def LegalClaims : (Str → Holder) → List (Nat × Str × Grab) → (Str → Holder) → Prop
  | T, [], T' => T' = T
  | T, (i, k, .won) :: t, T' => T k = .free ∧ LegalClaims (holderPut T k (.by i)) t T'
  | T, (_, k, .lost) :: t, T' => T k ≠ .free ∧ LegalClaims T t T'
  | T, (i, k, .gave) :: t, T' => T k = .by i ∧ LegalClaims (holderPut T k .free) t T'

/-- nobody has a key but those that were there -/
def atFirst (keys : List Str) : Str → Holder := fun k => if k ∈ keys then .before else .free

/-- what process `i` does -/
def grabsOf (i : Nat) (es : List (Nat × Str × Grab)) : List (Str × Grab) :=
  (es.filter fun e => e.1 == i).map fun e => e.2

variable {V : Type}

/-- what a call does with keys -/
def grabOf : PadCall V × Except PyErr (PadOut V) → Option (Str × Grab)
  | (.set k _ false, .ok _) => some (k.text, .won)
  | (.set k _ false, .error _) => some (k.text, .lost)
  | (.del k, _) => some (k.text, .gave)
  | _ => none

/-- One call, as a process sees it: `st` are the values of the keys it has. A claim is refused with `KeyError`, reading
a key it has gives the value it has put there, and replacing that value and giving up the key succeed. -/
def ClaimStep (nil : V → Bool) (st : Str → Option V) : PadCall V → Except PyErr (PadOut V) → (Str → Option V) → Prop
  | .get k, out, st' => st' = st ∧ ∀ v, st k.text = some v → out = ownGet nil (some v)
  | .set k v false, out, st' =>
    (out = .ok .done ∧ st k.text = none ∧ st' = ownPut st k.text (some v)) ∨ (out = .error .keyError ∧ st' = st)
  | .set k v true, out, st' => out = .ok .done ∧ st' = ownPut st k.text (some v)
  | .del k, out, st' => out = .ok .done ∧ st' = ownPut st k.text none
  | .keys, _, st' => st' = st

/-- calls one after the other -/
def ClaimLegal (nil : V → Bool) : (Str → Option V) → List (PadCall V × Except PyErr (PadOut V)) → (Str → Option V) → Prop
  | st, [], st' => st' = st
  | st, (o, out) :: t, st' => ∃ st1, ClaimStep nil st o out st1 ∧ ClaimLegal nil st1 t st'

end Verif.Spec
