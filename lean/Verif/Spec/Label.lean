import Verif.Spec.Scrape
import Verif.Py.Utf8
/-! # Texts as files -/
namespace Verif.Spec
open Verif

/-- the UTF-8 encoding of a text -/
def utf8Bytes (s : Str) : Bytes := (codes s).flatMap utf8Char

/-- the first `n` bytes of the encoding of `s` are those of the text `s'` -/
def CutsAt (s : Str) (n : Nat) (s' : Str) : Prop := s' <+: s ∧ (utf8Bytes s').length = n

/-- the line that ends a label -/
def endLine : Str := "END\r\n".toList

/-- `s` ends with `END\r\n`, which is nowhere in it before -/
def EndsOnce (s : Str) : Prop :=
  (∃ t, s = t ++ endLine) ∧ ∀ b a, s = b ++ endLine ++ a → a = []

end Verif.Spec
