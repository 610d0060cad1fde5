import Verif.Py.Str
import Verif.Py.Dict
import Verif.Py.Err
/-!
# Python values made of built-in types

`Text` is a Python `str` as the list of its code points, surrogates included (`Str`, used elsewhere, has none).
`PyVal F` are the values built from the built-in types, `F` being the finite floats, of which only the text matters:
`float.__repr__` writes it and `float()` reads it. Simplifications: values are finite trees (no sharing, no cycles);
subclasses of the built-in types, `complex`, `bytearray`, `frozenset` and everything else are `other`.
-/
namespace Verif

/-- a Python `str`: its code points (below 0x110000) -/
abbrev Text := List Nat

/-- the code points of a `Str` -/
def codes (s : Str) : Text := s.map Char.toNat

/-- the `Str` of a text without surrogates -/
def chars (t : Text) : Str := t.map Char.ofNat

/-- how `float.__repr__` writes the finite floats and `float()` reads texts -/
structure Floats (F : Type) where
  repr : F → Text
  read : Text → F

/-- a Python float -/
inductive PyFloat (F : Type) where
  | fin (f : F)
  | nan | inf | negInf
  deriving DecidableEq

/-- a value of built-in types; sets and dicts list their elements in iteration order -/
inductive PyVal (F : Type) where
  | none
  | bool (b : Bool)
  | int (i : Int)
  | float (x : PyFloat F)
  | str (s : Text)
  | bytes (b : Bytes)
  | list (l : List (PyVal F))
  | tuple (l : List (PyVal F))
  | set (l : List (PyVal F))
  | dict (items : List (PyVal F × PyVal F))
  | other (n : Nat)

/-- a decimal digit -/
def isDigit (c : Nat) : Bool := 48 ≤ c && c ≤ 57

/-- the decimal numeral of a natural number -/
def decNat (n : Nat) : Text := codes (natStr n)

/-- the number a numeral denotes -/
def textNat (t : Text) : Nat := t.foldl (fun acc c => acc * 10 + (c - 48)) 0

theorem textNat_decNat (n : Nat) : textNat (decNat n) = n := by
  have h := strNat_natStrAux (n + 1) n (by omega)
  simpa [textNat, decNat, codes, natStr, strNat, List.foldl_map] using h

theorem decNat_digits (n : Nat) : ∀ c ∈ decNat n, isDigit c = true := by
  intro c hc
  simp only [decNat, codes, List.mem_map] at hc
  obtain ⟨d, hd, rfl⟩ := hc
  have := natStr_digits n d hd
  simp [isDigit, this]

theorem decNat_ne_nil (n : Nat) : decNat n ≠ [] := by
  simp [decNat, codes, natStr_ne_nil]

theorem natStrAux_head (f n : Nat) (h : n < f) (h0 : 0 < n) :
    ∃ c r, natStrAux f n = c :: r ∧ 49 ≤ c.toNat ∧ c.toNat ≤ 57 := by
  induction f generalizing n with
  | zero => omega
  | succ f ih =>
    simp only [natStrAux]
    split
    · rename_i hn
      refine ⟨_, _, rfl, ?_⟩
      rw [digitChar_toNat hn]; omega
    · obtain ⟨c, r, e, hc⟩ := ih (n / 10) (by omega) (by omega)
      exact ⟨c, r ++ _, by rw [e]; rfl, hc⟩

/-- a numeral does not begin with 0, except that of 0 -/
theorem decNat_head (n : Nat) : (n = 0 ∧ decNat n = [48]) ∨
    ∃ c r, decNat n = c :: r ∧ 49 ≤ c ∧ c ≤ 57 ∧ ∀ d ∈ r, isDigit d = true := by
  rcases Nat.eq_zero_or_pos n with h | h
  · subst h; exact Or.inl ⟨rfl, rfl⟩
  · obtain ⟨c, r, e, h1, h2⟩ := natStrAux_head (n + 1) n (by omega) h
    refine Or.inr ⟨c.toNat, codes r, by simp [decNat, codes, natStr, e], h1, h2, fun d hd => ?_⟩
    apply decNat_digits n
    simp only [decNat, natStr, e, codes, List.map_cons]
    exact List.mem_cons_of_mem _ hd

theorem codes_injective {s t : Str} (h : codes s = codes t) : s = t := by
  induction s generalizing t with
  | nil => cases t with
    | nil => rfl
    | cons => simp [codes] at h
  | cons a s ih => cases t with
    | nil => simp [codes] at h
    | cons b t =>
      simp only [codes, List.map_cons, List.cons.injEq] at h
      rw [ih h.2, Char.toNat_inj.1 h.1]

theorem chars_codes (s : Str) : chars (codes s) = s := by
  simp [chars, codes, Function.comp_def]

end Verif
