import Verif.Py.Lit
/-!
# What `scrape_subframe` should find
-/
namespace Verif.Spec
open Verif

/-- the word that begins the block -/
def firstWord : Text := codes "SUBFRAME".toList
/-- the word that ends it -/
def lastWord : Text := codes "END".toList

/-- `t` is `pre`, the block and `post`: the block begins with the first `SUBFRAME` of `t` and ends with the first `END` after that -/
structure IsBlock (t pre mid post : Text) : Prop where
  text : t = pre ++ (firstWord ++ (mid ++ (lastWord ++ post)))
  first : ∀ a b, t = a ++ (firstWord ++ b) → pre.length ≤ a.length
  least : ∀ a b, mid ++ (lastWord ++ post) = a ++ (lastWord ++ b) → mid.length ≤ a.length

/-- there is no `END` after any `SUBFRAME` -/
def NoBlock (t : Text) : Prop := ∀ a b c, t ≠ a ++ (firstWord ++ (b ++ (lastWord ++ c)))

/-- the runs of characters with `nd` in a text, in order -/
inductive Runs (nd : Nat → Bool) : Text → List Text → Prop where
  | none {t} : (∀ c ∈ t, nd c = false) → Runs nd t []
  | some {a r rest l} : (∀ c ∈ a, nd c = false) → r ≠ [] → (∀ c ∈ r, nd c = true) → (∀ c t, rest = c :: t → nd c = false) →
      Runs nd rest l → Runs nd (a ++ (r ++ rest)) (r :: l)

/-- a numeral Python takes: ASCII digits, no leading zeros (or nothing but zeros), not too many -/
def GoodNumeral (lim : Nat) (t : Text) : Prop :=
  (∀ c ∈ t, 48 ≤ c ∧ c ≤ 57) ∧ (t.head? ≠ some 48 ∨ ∀ c ∈ t, c = 48) ∧ (lim = 0 ∨ t.length ≤ lim)

end Verif.Spec
