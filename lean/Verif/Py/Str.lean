import Verif.Py.Tactics
/-!
# Text, decimal numerals, bytes and little-endian integers
-/
namespace Verif

/-- Python `str` as its list of characters -/
abbrev Str := List Char

/-- Python `bytes` as a list of numbers (below 256) -/
abbrev Bytes := List Nat

/-- the character of a decimal digit -/
def digitChar (d : Nat) : Char := Char.ofNat (48 + d)

/-- decimal numeral with `fuel` digits at most -/
def natStrAux : Nat → Nat → Str
  | 0, _ => []
  | f + 1, n => if n < 10 then [digitChar n] else natStrAux f (n / 10) ++ [digitChar (n % 10)]

/-- `str(n)` / f-string formatting of a non-negative integer -/
def natStr (n : Nat) : Str := natStrAux (n + 1) n

/-- the number a numeral denotes -/
def strNat (s : Str) : Nat := s.foldl (fun acc c => acc * 10 + (c.toNat - 48)) 0

theorem digitChar_toNat {d : Nat} (h : d < 10) : (digitChar d).toNat = 48 + d := by
  have : d = 0 ∨ d = 1 ∨ d = 2 ∨ d = 3 ∨ d = 4 ∨ d = 5 ∨ d = 6 ∨ d = 7 ∨ d = 8 ∨ d = 9 := by omega
  rcases this with h | h | h | h | h | h | h | h | h | h <;> subst h <;> rfl

theorem strNat_natStrAux (f n : Nat) (h : n < f) : strNat (natStrAux f n) = n := by
  induction f generalizing n with
  | zero => omega
  | succ f ih =>
    simp only [natStrAux]
    split
    · rename_i hn
      simp [strNat, digitChar_toNat hn]
    · have h1 := ih (n / 10) (by omega)
      unfold strNat at h1 ⊢
      rw [List.foldl_append, h1]
      simp only [List.foldl_cons, List.foldl_nil, digitChar_toNat (Nat.mod_lt n (by omega : 10 > 0))]
      omega

theorem natStr_injective {m n : Nat} (h : natStr m = natStr n) : m = n := by
  have h1 := strNat_natStrAux (m + 1) m (by omega)
  have h2 := strNat_natStrAux (n + 1) n (by omega)
  unfold natStr at h
  rw [h] at h1
  omega

theorem natStrAux_digits (f n : Nat) : ∀ c ∈ natStrAux f n, 48 ≤ c.toNat ∧ c.toNat ≤ 57 := by
  induction f generalizing n with
  | zero => simp [natStrAux]
  | succ f ih =>
    simp only [natStrAux]
    split
    · rename_i hn
      intro c hc
      simp only [List.mem_singleton] at hc
      subst hc
      rw [digitChar_toNat hn]; omega
    · intro c hc
      rw [List.mem_append] at hc
      rcases hc with hc | hc
      · exact ih _ c hc
      · simp only [List.mem_singleton] at hc
        subst hc
        rw [digitChar_toNat (Nat.mod_lt n (by omega : 10 > 0))]
        have := Nat.mod_lt n (by omega : 10 > 0)
        omega

/-- every character of a numeral is a decimal digit -/
theorem natStr_digits (n : Nat) : ∀ c ∈ natStr n, 48 ≤ c.toNat ∧ c.toNat ≤ 57 := natStrAux_digits _ _

theorem natStr_ne_nil (n : Nat) : natStr n ≠ [] := by
  unfold natStr
  simp only [natStrAux]
  split <;> simp

/-! ## little-endian integers -/

/-- `n.to_bytes(w, "little")` when `n < 256 ^ w` -/
def toLE : Nat → Nat → Bytes
  | 0, _ => []
  | w + 1, n => n % 256 :: toLE w (n / 256)

/-- `int.from_bytes(b, "little")` -/
def fromLE : Bytes → Nat
  | [] => 0
  | b :: t => b + 256 * fromLE t

@[simp] theorem toLE_length (w n : Nat) : (toLE w n).length = w := by
  induction w generalizing n with
  | zero => rfl
  | succ w ih => simp [toLE, ih]

theorem fromLE_toLE (w n : Nat) (h : n < 256 ^ w) : fromLE (toLE w n) = n := by
  induction w generalizing n with
  | zero => simp at h; subst h; rfl
  | succ w ih =>
    rw [Nat.pow_succ] at h
    simp only [toLE, fromLE]
    rw [ih (n / 256) (by omega)]
    omega

theorem fromLE_zeros (w : Nat) : fromLE (List.replicate w 0) = 0 := by
  induction w with
  | zero => rfl
  | succ w ih => simp [List.replicate_succ, fromLE, ih]

theorem toLE_zero (w : Nat) : toLE w 0 = List.replicate w 0 := by
  induction w with
  | zero => rfl
  | succ w ih => simp [List.replicate_succ, toLE, ih]

end Verif
