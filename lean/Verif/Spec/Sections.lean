import Verif.Spec.Claims
/-!
# Keys that are guarded by another

`guard` maps a key to the key that guards it. Who has the guard sees the guarded values as they were left, and is alone in
changing them until it gives up the guard.
-/
namespace Verif.Spec
open Verif Verif.Model

variable {V : Type}

/-- what a process does with a key: it gets it, when the guarded keys have these values; is refused it; sets a value under it;
gives it up -/
inductive Sect (V : Type) where
  | won (sees : Str → Option V)
  | lost
  | put (v : V)
  | gave

/-- One after the other: a key is got only when it is free, refused only when it is taken, given up only by the process that
has it; a guarded value is set only by the process that has the guard. `R` are the guarded values: the process that gets a
key sees those of the keys that it guards. -/
def LegalSects (guard : Str → Option Str) : (Str → Holder) → (Str → Option V) → List (Nat × Str × Sect V) → (Str → Holder) →
    (Str → Option V) → Prop
  | T, R, [], T', R' => T' = T ∧ R' = R
  | T, R, (i, k, .won sees) :: t, T', R' => T k = .free ∧ (∀ r, guard r = some k → sees r = R r) ∧
      LegalSects guard (holderPut T k (.by i)) R t T' R'
  | T, R, (_, k, .lost) :: t, T', R' => T k ≠ .free ∧ LegalSects guard T R t T' R'
  | T, R, (i, k, .put v) :: t, T', R' => (∃ m, guard k = some m ∧ T m = .by i) ∧ LegalSects guard T (ownPut R k (some v)) t T' R'
  | T, R, (i, k, .gave) :: t, T', R' => T k = .by i ∧ LegalSects guard (holderPut T k .free) R t T' R'

/-- what process `i` does -/
def sectsOf (i : Nat) (es : List (Nat × Str × Sect V)) : List (Str × Sect V) :=
  (es.filter fun e => e.1 == i).map fun e => e.2

/-- One call, as a process sees it: `st` are the values of the keys it may use. A claim is refused with `KeyError`; reading a
key it may use gives the value it has put there or, if it has not put any since it got the guard, the one it saw then;
replacing that value and giving up a key succeed. -/
def SectStep (nil : V → Bool) (guard : Str → Option Str) (st : Str → Option V) :
    PadCall V → Except PyErr (PadOut V) → Option (Str × Sect V) → (Str → Option V) → Prop
  | .get k, out, ev, st' => ev = none ∧ st' = st ∧ ∀ v, st k.text = some v → out = ownGet nil (some v)
  | .set k v false, out, ev, st' =>
    (out = .ok .done ∧ st k.text = none ∧ ∃ sees, ev = some (k.text, .won sees) ∧
      st' = fun x => if x = k.text then some v else if guard x = some k.text then sees x else st x) ∨
    (out = .error .keyError ∧ ev = some (k.text, .lost) ∧ st' = st)
  | .set k v true, out, ev, st' => out = .ok .done ∧ st' = ownPut st k.text (some v) ∧
      ev = if (guard k.text).isSome then some (k.text, .put v) else none
  | .del k, out, ev, st' => out = .ok .done ∧ ev = some (k.text, .gave) ∧
      st' = fun x => if x = k.text ∨ guard x = some k.text then none else st x
  | .keys, _, ev, st' => ev = none ∧ st' = st

/-- calls one after the other -/
def SectLegal (nil : V → Bool) (guard : Str → Option Str) : (Str → Option V) → List (PadCall V × Except PyErr (PadOut V)) →
    List (Str × Sect V) → (Str → Option V) → Prop
  | st, [], es, st' => es = [] ∧ st' = st
  | st, (o, out) :: t, es, st' => ∃ st1 ev es1, SectStep nil guard st o out ev st1 ∧ es = ev.toList ++ es1 ∧
      SectLegal nil guard st1 t es1 st'

end Verif.Spec
