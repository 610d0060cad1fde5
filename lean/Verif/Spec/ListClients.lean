import Verif.Model.ListClients
/-!
# What a process that lists the keys of a shared index may expect

All processes only add keys. The keys that a process has seen so far are then the beginning of one list that only grows.
-/
namespace Verif.Spec
open Verif Verif.Model

/-- the name of a key that is being added: as many zero characters as the key has bytes -/
def IsBlank (k : Str) : Prop := ∃ n, 0 < n ∧ k = List.replicate n (Char.ofNat 0)

/-- One call of a process that has seen the keys `v`; it then has seen `v'`. A key it adds, or finds there, is in its place
from then on. A listing gives all the keys seen, and at most one more entry, the name of a key that is being added. -/
def LsStep (v : List Str) (o : LsCall) (out : Except PyErr LsOut) (v' : List Str) : Prop :=
  v <+: v' ∧ match o with
    | .op (.add k eo) => (∃ n, out = .ok (.pos n) ∧ v'[n]? = some k.text) ∨ (eo = false ∧ out = .error .fileExists ∧ k.text ∈ v')
    | .op (.del _) => False
    | .keys => ∃ l, out = .ok (.keys l) ∧ (l = v' ∨ ∃ b, IsBlank b ∧ l = v' ++ [b])

/-- all its calls -/
def LsSeen : List Str → List (LsCall × Except PyErr LsOut) → List Str → Prop
  | v, [], v' => v' = v
  | v, (o, out) :: t, v' => ∃ v1, LsStep v o out v1 ∧ LsSeen v1 t v'

end Verif.Spec
