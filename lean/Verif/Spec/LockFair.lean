import Verif.Model.LockTS
/-!
# Endless runs of processes that use a `SlidingLock`
-/
namespace Verif.Spec.LockFair
open Verif.Model.LockTS
variable {ι : Type} [DecidableEq ι]

/-- the states of an endless run: at time `t`, process `sch t` does its next operation -/
def endless (c0 : Nat) (sch : Nat → ι) : Nat → St ι
  | 0 => start c0
  | t + 1 => next (endless c0 sch t) (sch t)

/-- a process that is using the lock is not left standing: it does another operation at some time -/
def Fair (c0 : Nat) (sch : Nat → ι) : Prop :=
  ∀ t i, (endless c0 sch t).pc i ≠ .out → ∃ u, t ≤ u ∧ sch u = i

/-- the process has a slot (its marker is made) and has not acquired -/
def Slotted (p : Pc) : Prop := (∃ f n, p = .placing f n) ∨ ∃ f n d, p = .scanning f n d

/-- the process has asked for the lock and has not acquired -/
def Asking (p : Pc) : Prop := p = .reading ∨ (∃ f k, p = .marking f k) ∨ Slotted p

/-- the process has acquired the lock and not started to release it -/
def Within (p : Pc) : Prop := ∃ n own, p = .inside n own

/-- the number of operations in a schedule that end a critical section with a slot below `N` -/
def lowerExits (N : Nat) (σ : St ι) : List ι → Nat
  | [] => 0
  | i :: t => (match σ.pc i with
      | .inside n _ => if n < N then 1 else 0
      | _ => 0) + lowerExits N (next σ i) t

/-- a bound for `k` processes and a slot `e` above the lowest that can be used -/
def bypassBound (k : Nat) : Nat → Nat
  | 0 => 0
  | e + 1 => k * (bypassBound k e + 1) + 1

end Verif.Spec.LockFair
