import Verif.Model.Fine
/-!
# What may be read from a notepad that others write to
-/
namespace Verif.Spec
open Verif Verif.Model
variable {V ρ : Type}

/-- byte by byte the meant bytes or zero -/
def Mixed (b d : Bytes) : Prop := d.length = b.length ∧ ∀ i, i < d.length → d.getD i 0 = 0 ∨ d.getD i 0 = b.getD i 0

/-- all of the meant bytes or none -/
def Whole (b d : Bytes) : Prop := d = b ∨ d = List.replicate b.length 0

/-- what reading a key gives when its bytes decode like this -/
def getOut (nil : V → Bool) : Except PyErr V → Except PyErr (PadOut V)
  | .error e => .error e
  | .ok v => if nil v then .error .keyError else .ok (.val v)

/-- the outcome of reading a key into whose block the encodings `Src` have been put, of which `Ok` may be seen -/
def ReadFrom (c : Codec V) (nil : V → Bool) (Ok : Bytes → Bytes → Prop) (Src : Bytes → Prop) (out : Except PyErr (PadOut V)) : Prop :=
  out = .error .fileNotFound ∨ ∃ b d, Src b ∧ Ok b d ∧ out = getOut nil (c.decode d)

/-- the calls that a process has begun: those that have ended, and the one it makes next -/
def begun (hist : List (PadCall V × Except PyErr (PadOut V))) (rest : PadScript V ρ) : List (PadCall V) :=
  hist.map Prod.fst ++ rest.next

/-- the encodings of the values that these calls set under `k` -/
def setsOf (c : Codec V) (k : Str) (calls : List (PadCall V)) (b : Bytes) : Prop :=
  ∃ key v eo, .set key v eo ∈ calls ∧ key.text = k ∧ c.encode v = .ok b

end Verif.Spec
