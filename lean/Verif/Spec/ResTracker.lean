import Verif.Model.ResTracker
/-! # What is said about processes and the resource tracker -/
namespace Verif.Spec
open Verif Verif.Model

/-- only ASCII characters -/
def AsciiText (n : Str) : Prop := ∀ c ∈ n, c.toNat < 128

/-- a name the tracker's line protocol can carry -/
def LineName (n : Str) : Prop := AsciiText n ∧ ':' ∉ n ∧ '\n' ∉ n

/-- Linux accepts no name of more than 255 characters -/
def NameMax (E : Env) : Prop := ∀ n, E.okName n = true → n.length ≤ 255

/-- `sha256(...).hexdigest()` is ASCII -/
def HexSha (E : Env) : Prop := ∀ b, AsciiText (E.sha b)

/-- in this history, process `p` has called `deactivate_shared_memory_resource_tracker()` before any operation on
shared memory -/
def DeactivatesFirst (evs : List TEvent) (p : Nat) : Prop :=
  ∀ a o b, evs = a ++ .act p o :: b → ∃ a1 a2 t inh, a = a1 ++ .deactivate p :: a2 ∧ TEvent.start p t inh ∈ a1

/-- all processes with tracker `t` have been started by a process that had deactivated it (fork), or deactivate it
first -/
def AllDeactivateFirst (evs : List TEvent) (t : Nat) : Prop :=
  ∀ p inh, TEvent.start p t inh ∈ evs → inh = true ∨ DeactivatesFirst evs p

/-- process `p` has been started and has not ended -/
def Running (a : List TEvent) (p : Nat) : Prop := (∃ t inh, TEvent.start p t inh ∈ a) ∧ TEvent.exit p ∉ a

end Verif.Spec
