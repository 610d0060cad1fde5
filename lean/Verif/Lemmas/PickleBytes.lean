import Verif.Lemmas.PickleSave
import Mathlib.Tactic.Ring
import Mathlib.Tactic.Linarith
/-!
# The bytes of the opcodes are read back, whole and torn
-/
namespace Verif.Lemmas.Pickle
open Verif Verif.Model Verif.Spec

/-! ## numbers -/

theorem leBytes_length (n x : Nat) : (leBytes n x).length = n := by
  induction n generalizing x with
  | zero => rfl
  | succ n ih => simp [leBytes, ih]

theorem leBytes_byte (n x : Nat) : ∀ b ∈ leBytes n x, b < 256 := by
  induction n generalizing x with
  | zero => simp [leBytes]
  | succ n ih =>
    intro b hb
    rcases List.mem_cons.1 hb with rfl | hb
    · exact Nat.mod_lt _ (by decide)
    · exact ih _ b hb

theorem leNat_leBytes (n x : Nat) : leNat (leBytes n x) = x % 256 ^ n := by
  induction n generalizing x with
  | zero => simp [leBytes, leNat, Nat.mod_one]
  | succ n ih =>
    rw [leBytes, leNat, ih, Nat.pow_succ, Nat.mul_comm (256 ^ n) 256, Nat.mod_mul]

theorem leNat_leBytes_lt {n x : Nat} (h : x < 256 ^ n) : leNat (leBytes n x) = x := by
  rw [leNat_leBytes, Nat.mod_eq_of_lt h]

theorem leNat_lt {b : Bytes} (h : ∀ x ∈ b, x < 256) : leNat b < 256 ^ b.length := by
  induction b with
  | nil => simp [leNat]
  | cons x b ih =>
    have h1 := ih fun y hy => h y (by simp [hy])
    have h2 := h x (by simp)
    rw [leNat, List.length_cons, Nat.pow_succ]
    omega

theorem leNat_append (a b : Bytes) : leNat (a ++ b) = leNat a + 256 ^ a.length * leNat b := by
  induction a with
  | nil => simp [leNat]
  | cons x a ih =>
    rw [List.cons_append, leNat, leNat, ih, List.length_cons, Nat.pow_succ]
    ring

theorem leSigned_length (n : Nat) (x : Int) : (leSigned n x).length = n := leBytes_length _ _

theorem leNat_leSigned (n : Nat) (x : Int) : (leNat (leSigned n x) : Int) = x % (256 ^ n : Nat) := by
  have hp : (0 : Int) < (256 ^ n : Nat) := by
    have : 0 < 256 ^ n := Nat.pow_pos (by decide)
    exact_mod_cast this
  have h0 := Int.emod_nonneg x (ne_of_gt hp)
  have h1 := Int.emod_lt_of_pos x hp
  rw [leSigned, leNat_leBytes_lt (by omega)]
  omega

theorem decode_signed {n : Nat} {x : Int} (h1 : -(256 ^ n : Nat) ≤ 2 * x) (h2 : 2 * x < (256 ^ n : Nat)) :
    decodeLong (leSigned n x) = x := by
  have e := leNat_leSigned n x
  unfold decodeLong
  rw [leSigned_length]
  have hp : (0 : Int) < (256 ^ n : Nat) := by
    have : 0 < 256 ^ n := Nat.pow_pos (by decide)
    exact_mod_cast this
  by_cases hx : 0 ≤ x
  · rw [Int.emod_eq_of_lt hx (by omega)] at e
    rw [if_pos (by omega), e]
  · have e' : x % (256 ^ n : Nat) = x + (256 ^ n : Nat) := by
      rw [← Int.add_emod_right, Int.emod_eq_of_lt (by omega) (by omega)]
    rw [e'] at e
    rw [if_neg (by omega), e]
    omega

/-- `decode_long(encode_long(x)) == x` -/
theorem decode_encode_long (x : Int) : decodeLong (encodeLong x) = x := by
  unfold encodeLong
  split
  · subst x; rfl
  · rename_i hx
    generalize hn : (Nat.log2 x.natAbs + 1) / 8 + 1 = n
    have hb : x.natAbs < 2 ^ (Nat.log2 x.natAbs + 1) := Nat.lt_log2_self
    have hle : Nat.log2 x.natAbs + 1 + 1 ≤ 8 * n := by omega
    have hpow : 2 * 2 ^ (Nat.log2 x.natAbs + 1) ≤ 256 ^ n := by
      rw [show (256 : Nat) = 2 ^ 8 from rfl, ← Nat.pow_mul, ← Nat.pow_succ']
      exact Nat.pow_le_pow_right (by decide) hle
    have hd : decodeLong (leSigned n x) = x := decode_signed (by omega) (by omega)
    simp only
    split
    · rename_i hc
      obtain ⟨hneg, hn1, hlast, hprev⟩ := hc
      -- the byte dropped only repeats the sign
      have hL := leSigned_length n x
      obtain ⟨d, hd'⟩ : ∃ d, leSigned n x = d ++ [0xff] := by
        refine ⟨(leSigned n x).dropLast, ?_⟩
        have hne : leSigned n x ≠ [] := by intro h; rw [h] at hlast; cases hlast
        rw [List.getLast?_eq_some_getLast hne] at hlast
        have := List.dropLast_append_getLast hne
        rw [Option.some.inj hlast] at this
        exact this.symm
      rw [hd'] at hd hL hprev ⊢
      simp only [List.dropLast_concat, List.length_append, List.length_singleton] at hprev hL ⊢
      have hdn : d ≠ [] := by rintro rfl; simp at hL; omega
      rw [List.getLast?_eq_some_getLast hdn] at hprev
      simp only [Option.getD_some] at hprev
      have hd2 : d = d.dropLast ++ [d.getLast hdn] := (List.dropLast_append_getLast hdn).symm
      have hv : 256 ^ d.length ≤ 2 * leNat d := by
        generalize d.getLast hdn = t at hprev hd2
        generalize d.dropLast = s at hd2
        subst hd2
        rw [leNat_append, List.length_append, List.length_singleton, Nat.pow_succ]
        simp only [leNat]
        have h3 : 256 ^ s.length * 128 ≤ 256 ^ s.length * (t + 256 * 0) := Nat.mul_le_mul_left _ (by omega)
        omega
      have hf : decodeLong (d ++ [0xff]) = (leNat (d ++ [0xff]) : Int) - (256 ^ (d ++ [0xff]).length : Nat) := by
        unfold decodeLong
        refine if_neg ?_
        rw [leNat_append, List.length_append, List.length_singleton, Nat.pow_succ]
        simp only [leNat]
        omega
      rw [hf] at hd
      rw [← hd]
      unfold decodeLong
      rw [if_neg (by omega), leNat_append, List.length_append, List.length_singleton, Nat.pow_succ]
      simp only [leNat]
      push_cast
      ring
    · exact hd

/-! ## text -/

theorem utf8Pass_char {f c : Nat} (hc : c < 0x110000) (r : Bytes) :
    utf8Pass (f + 1) (utf8Char c ++ r) = (utf8Pass f r).map (c :: ·) := by
  have cont : ∀ x, x < 64 → isCont (0x80 + x) = true := by
    intro x hx
    simp only [isCont, Bool.and_eq_true, decide_eq_true_eq]
    omega
  unfold utf8Char
  by_cases h1 : c < 0x80
  · rw [if_pos h1]
    simp only [List.cons_append, List.nil_append, utf8Pass, if_pos h1]
  by_cases h2 : c < 0x800
  · rw [if_neg h1, if_pos h2]
    simp only [List.cons_append, List.nil_append, utf8Pass]
    have e : (0xC0 + c / 64 - 0xC0) * 64 + (0x80 + c % 64 - 0x80) = c := by omega
    rw [if_neg (by omega), if_pos ⟨by omega, by omega, cont _ (by omega)⟩, e]
  by_cases h3 : c < 0x10000
  · rw [if_neg h1, if_neg h2, if_pos h3]
    simp only [List.cons_append, List.nil_append, utf8Pass]
    have e : (0xE0 + c / 4096 - 0xE0) * 4096 + (0x80 + c / 64 % 64 - 0x80) * 64 + (0x80 + c % 64 - 0x80) = c := by omega
    rw [if_neg (by omega), if_neg (by omega), e,
      if_pos ⟨by omega, by omega, cont _ (by omega), cont _ (by omega), by omega⟩]
  · rw [if_neg h1, if_neg h2, if_neg h3]
    simp only [List.cons_append, List.nil_append, utf8Pass]
    have e : (0xF0 + c / 262144 - 0xF0) * 262144 + (0x80 + c / 4096 % 64 - 0x80) * 4096 + (0x80 + c / 64 % 64 - 0x80) * 64 +
        (0x80 + c % 64 - 0x80) = c := by omega
    rw [if_neg (by omega), if_neg (by omega), if_neg (by omega), e,
      if_pos ⟨by omega, by omega, cont _ (by omega), cont _ (by omega), cont _ (by omega), by omega, hc⟩]

theorem utf8Pass_text (t : Text) (ht : ∀ c ∈ t, c < 0x110000) : ∀ f, (t.flatMap utf8Char).length ≤ f →
    utf8Pass f (t.flatMap utf8Char) = .ok t := by
  induction t with
  | nil => intro f _; cases f <;> rfl
  | cons c t ih =>
    intro f hf
    have hl : 0 < (utf8Char c).length := List.length_pos_iff.2 (utf8Char_ne_nil c)
    simp only [List.flatMap_cons, List.length_append] at hf ⊢
    obtain ⟨f, rfl⟩ : ∃ g, f = g + 1 := ⟨f - 1, by omega⟩
    rw [utf8Pass_char (ht c (by simp)), ih (fun d hd => ht d (by simp [hd])) f (by omega)]
    rfl

theorem utf8Char_byte {c : Nat} (hc : c < 0x110000) : ∀ x ∈ utf8Char c, x < 256 := by
  unfold utf8Char
  intro x hx
  split at hx
  · simp at hx; omega
  · split at hx
    · simp at hx; omega
    · split at hx
      · simp at hx; omega
      · simp at hx; omega

/-! ## reading what is there -/

/-- a reader that has `y` before it, inside a frame that goes on with some bytes, or in the file -/
def rdr (o : Option Bytes) (file y : Bytes) : Rd :=
  match o with
  | some c => ⟨some (y ++ c), file⟩
  | none => ⟨none, y ++ file⟩

theorem read_rdr (o : Option Bytes) (file y z : Bytes) : (rdr o file (y ++ z)).read y.length = .ok (y, rdr o file z) := by
  cases o with
  | none => simp [rdr, Rd.read, List.append_assoc]
  | some c =>
    simp only [rdr, Rd.read, List.append_assoc, List.take_left, List.drop_left]
    rw [if_neg, if_neg (Nat.lt_irrefl _)]
    rintro ⟨h1, h2⟩
    exact h2 (by rw [h1]; rfl)

theorem num_rdr (o : Option Bytes) (file z : Bytes) {n x : Nat} (h : x < 256 ^ n) :
    (rdr o file (leBytes n x ++ z)).num n = .ok (x, rdr o file z) := by
  have e := read_rdr o file (leBytes n x) z
  rw [leBytes_length] at e
  simp only [Rd.num, e]
  show (if (leBytes n x).length < n then _ else _) = _
  rw [leBytes_length, if_neg (Nat.lt_irrefl _), leNat_leBytes_lt h]

theorem sized_rdr (o : Option Bytes) (file e z : Bytes) {k : Nat} (h : e.length < 256 ^ k) (hm : e.length ≤ maxSize) :
    (rdr o file (leBytes k e.length ++ e ++ z)).sized k = .ok (e, rdr o file z) := by
  simp only [Rd.sized]
  rw [List.append_assoc, num_rdr o file _ h]
  show (if maxSize < e.length then _ else _) = _
  rw [if_neg (by omega), read_rdr]

theorem text_rdr (o : Option Bytes) (file z : Bytes) {k : Nat} {s : Text} (hs : ∀ c ∈ s, c < 0x110000)
    (h : (s.flatMap utf8Char).length < 256 ^ k) (hm : (s.flatMap utf8Char).length ≤ maxSize) :
    (rdr o file (leBytes k (s.flatMap utf8Char).length ++ s.flatMap utf8Char ++ z)).text k = .ok (.str s, rdr o file z) := by
  simp only [Rd.text]
  rw [sized_rdr o file _ z h hm]
  show (utf8Pass _ _ >>= _) = _
  rw [utf8Pass_text s hs _ (Nat.le_refl _)]
  rfl

theorem blob_rdr (o : Option Bytes) (file e z : Bytes) {k : Nat} (h : e.length < 256 ^ k) (hm : e.length ≤ maxSize) :
    (rdr o file (leBytes k e.length ++ e ++ z)).blob k = .ok (.bytes e, rdr o file z) := by
  simp only [Rd.blob]
  rw [sized_rdr o file _ z h hm]
  rfl

theorem long_rdr (o : Option Bytes) (file e z : Bytes) {k : Nat} (h : e.length < 256 ^ k) (hm : e.length ≤ 0x7fffffff) :
    (rdr o file (leBytes k e.length ++ e ++ z)).long k = .ok (.int (decodeLong e), rdr o file z) := by
  simp only [Rd.long]
  rw [List.append_assoc, num_rdr o file _ h]
  show (if 0x7fffffff < e.length then _ else _) = _
  rw [if_neg (by omega), read_rdr]
  rfl

/-- the opcodes `save` writes, and their arguments -/
def OpOK : POp → Prop
  | .proto _ => False
  | .frame _ => False
  | .stop => False
  | .str s => ∀ c ∈ s, c < 0x110000
  | .bytes b => ∀ x ∈ b, x < 256
  | .tupleN n => 1 ≤ n ∧ n ≤ 3
  | _ => True

theorem readOp_arg (o : Option Bytes) (file : Bytes) (c : Nat) (y : Bytes) (hc : plainOp c = none) :
    readOp (rdr o file (c :: y)) = argOp c (rdr o file y) := by
  have e := read_rdr o file [c] y
  simp only [List.length_singleton] at e
  simp only [readOp]
  rw [show c :: y = [c] ++ y from rfl, e]
  show (match plainOp c with | some _ => _ | none => _) = _
  rw [hc]

theorem readOp_arg' (o : Option Bytes) (file : Bytes) (c : Nat) (y : Bytes) {w : Bytes} (hw : w = c :: y) (hc : plainOp c = none) :
    readOp (rdr o file w) = argOp c (rdr o file y) := hw ▸ readOp_arg o file c y hc

theorem readOp_plain (o : Option Bytes) (file : Bytes) {c : Nat} {op : POp} (y : Bytes) (hc : plainOp c = some op) :
    readOp (rdr o file (c :: y)) = .ok (op, rdr o file y) := by
  have e := read_rdr o file [c] y
  simp only [List.length_singleton] at e
  simp only [readOp]
  rw [show c :: y = [c] ++ y from rfl, e]
  show (match plainOp c with | some _ => _ | none => _) = _
  rw [hc]

theorem sizedBytes_le {c1 c4 c8 : Nat} {e y : Bytes} (h : sizedBytes c1 c4 c8 e = .ok y) : e.length ≤ y.length := by
  unfold sizedBytes at h
  repeat' split at h
  all_goals first | (cases h; done) | (cases h; simp; omega)

/-- the bytes of an opcode are read as that opcode -/
theorem readOp_rdr {op : POp} (hop : OpOK op) {y : Bytes} (hy : opBytes op = .ok y) (hm : y.length ≤ maxSize)
    (o : Option Bytes) (file z : Bytes) : readOp (rdr o file (y ++ z)) = .ok (op, rdr o file z) := by
  cases op with
  | proto n => exact absurd hop id
  | frame n => exact absurd hop id
  | stop => exact absurd hop id
  | bool b => cases hy; cases b <;> exact readOp_plain o file z rfl
  | tupleN n =>
    cases hy
    obtain ⟨h1, h3⟩ := hop
    have : n = 1 ∨ n = 2 ∨ n = 3 := by omega
    rcases this with rfl | rfl | rfl <;> exact readOp_plain o file z rfl
  | int i =>
    simp only [opBytes, intOpBytes] at hy
    split at hy
    · rename_i hi
      cases hy
      refine (readOp_arg' o file 0x4b (leBytes 1 i.toNat ++ z) (by simp) rfl).trans ?_
      simp only [argOp]
      rw [num_rdr o file z (by omega)]
      show Except.ok (POp.int _, _) = _
      rw [show ((i.toNat : Nat) : Int) = i by omega]
    · split at hy
      · rename_i hi
        cases hy
        refine (readOp_arg' o file 0x4d (leBytes 2 i.toNat ++ z) (by simp) rfl).trans ?_
        simp only [argOp]
        rw [num_rdr o file z (by omega)]
        show Except.ok (POp.int _, _) = _
        rw [show ((i.toNat : Nat) : Int) = i by omega]
      · split at hy
        · rename_i hi
          cases hy
          refine (readOp_arg' o file 0x4a (leSigned 4 i ++ z) (by simp) rfl).trans ?_
          simp only [argOp]
          have e := read_rdr o file (leSigned 4 i) z
          rw [leSigned_length] at e
          rw [e]
          show (if (leSigned 4 i).length < 4 then Except.error badPickle else .ok (POp.int (decodeLong (leSigned 4 i)), rdr o file z)) = _
          rw [leSigned_length, if_neg (by decide), decode_signed (by norm_num; omega) (by norm_num; omega)]
        · split at hy
          · rename_i hl
            cases hy
            refine (readOp_arg' o file 0x8a (leBytes 1 (encodeLong i).length ++ encodeLong i ++ z) (by simp) rfl).trans ?_
            refine (long_rdr o file _ z (k := 1) (by omega) (by omega)).trans ?_
            rw [decode_encode_long]
          · split at hy
            · rename_i hl
              cases hy
              refine (readOp_arg' o file 0x8b (leBytes 4 (encodeLong i).length ++ encodeLong i ++ z) (by simp) rfl).trans ?_
              refine (long_rdr o file _ z (k := 4) (by norm_num; omega) hl).trans ?_
              rw [decode_encode_long]
            · cases hy
  | float x =>
    cases hy
    refine (readOp_arg' o file 0x47 ((leBytes 8 x.toNat).reverse ++ z) (by simp) rfl).trans ?_
    simp only [argOp]
    have e := read_rdr o file (leBytes 8 x.toNat).reverse z
    rw [List.length_reverse, leBytes_length] at e
    rw [e]
    show (if (leBytes 8 x.toNat).reverse.length < 8 then Except.error badPickle
      else .ok (POp.float (BitVec.ofNat 64 (leNat (leBytes 8 x.toNat).reverse.reverse)), rdr o file z)) = _
    rw [List.length_reverse, leBytes_length, if_neg (by decide), List.reverse_reverse, leNat_leBytes_lt (by
      have := x.isLt; norm_num at this ⊢; omega)]
    simp
  | str s =>
    have hle := hm
    simp only [opBytes] at hy
    have hsz := sizedBytes_le hy
    simp only [sizedBytes] at hy
    split at hy
    · cases hy
      refine (readOp_arg' o file 0x8c (leBytes 1 (s.flatMap utf8Char).length ++ s.flatMap utf8Char ++ z) (by simp) rfl).trans ?_
      exact text_rdr o file z hop (by omega) (by omega)
    · split at hy
      · split at hy
        · cases hy
          refine (readOp_arg' o file 0x8d (leBytes 8 (s.flatMap utf8Char).length ++ s.flatMap utf8Char ++ z) (by simp) rfl).trans ?_
          exact text_rdr o file z hop (by rw [show (256 : Nat) ^ 8 = 2 ^ 64 from rfl]; omega) (by omega)
        · cases hy
      · cases hy
        refine (readOp_arg' o file 0x58 (leBytes 4 (s.flatMap utf8Char).length ++ s.flatMap utf8Char ++ z) (by simp) rfl).trans ?_
        exact text_rdr o file z hop (by rw [show (256 : Nat) ^ 4 = 4294967296 from rfl]; omega) (by omega)
  | bytes b =>
    simp only [opBytes] at hy
    have hsz := sizedBytes_le hy
    simp only [sizedBytes] at hy
    split at hy
    · cases hy
      refine (readOp_arg' o file 0x43 (leBytes 1 b.length ++ b ++ z) (by simp) rfl).trans ?_
      exact blob_rdr o file _ z (by omega) (by omega)
    · split at hy
      · split at hy
        · cases hy
          refine (readOp_arg' o file 0x8e (leBytes 8 b.length ++ b ++ z) (by simp) rfl).trans ?_
          exact blob_rdr o file _ z (by rw [show (256 : Nat) ^ 8 = 2 ^ 64 from rfl]; omega) (by omega)
        · cases hy
      · cases hy
        refine (readOp_arg' o file 0x42 (leBytes 4 b.length ++ b ++ z) (by simp) rfl).trans ?_
        exact blob_rdr o file _ z (by rw [show (256 : Nat) ^ 4 = 4294967296 from rfl]; omega) (by omega)
  | get i =>
    simp only [opBytes] at hy
    split at hy
    · cases hy
      refine (readOp_arg' o file 0x68 (leBytes 1 i ++ z) (by simp) rfl).trans ?_
      simp only [argOp]
      rw [num_rdr o file z (by omega)]
      rfl
    · split at hy
      · cases hy
        refine (readOp_arg' o file 0x6a (leBytes 4 i ++ z) (by simp) rfl).trans ?_
        simp only [argOp]
        rw [num_rdr o file z (by norm_num; omega)]
        rfl
      · cases hy
  | _ => cases hy; exact readOp_plain o file z rfl

theorem opBytes_pos {op : POp} {y : Bytes} (hy : opBytes op = .ok y) : 0 < y.length := by
  cases op with
  | int i =>
    simp only [opBytes, intOpBytes] at hy
    repeat' split at hy
    all_goals first | (cases hy; done) | (cases hy; simp)
  | frame n =>
    simp only [opBytes] at hy
    split at hy
    · cases hy; simp
    · cases hy
  | get i =>
    simp only [opBytes] at hy
    repeat' split at hy
    all_goals first | (cases hy; done) | (cases hy; simp)
  | str s =>
    simp only [opBytes, sizedBytes] at hy
    repeat' split at hy
    all_goals first | (cases hy; done) | (cases hy; simp)
  | bytes s =>
    simp only [opBytes, sizedBytes] at hy
    repeat' split at hy
    all_goals first | (cases hy; done) | (cases hy; simp)
  | _ => cases hy; simp

/-- an opcode that is neither the end nor a frame -/
theorem runP_op {op : POp} (hop : OpOK op) {u u' : Rd} (h : readOp u = .ok (op, u')) (f : Nat) (M : PM) :
    runP (f + 1) u M = (stepP op M >>= runP f u') := by
  simp only [runP, h]
  cases op with
  | stop => exact absurd hop id
  | frame n => exact absurd hop id
  | _ => rfl

/-- the bytes of some opcodes -/
def Coded : List POp → Bytes → Prop
  | [], y => y = []
  | o :: os, y => ∃ a b, OpOK o ∧ opBytes o = .ok a ∧ Coded os b ∧ y = a ++ b

theorem coded_snoc {os : List POp} {y a : Bytes} {o : POp} (h : Coded os y) (ho : OpOK o) (ha : opBytes o = .ok a) :
    Coded (os ++ [o]) (y ++ a) := by
  induction os generalizing y with
  | nil => cases h; exact ⟨a, [], ho, ha, rfl, by simp⟩
  | cons p os ih =>
    obtain ⟨a1, b1, h1, h2, h3, rfl⟩ := h
    exact ⟨a1, b1 ++ a, h1, h2, ih h3, by simp⟩

theorem coded_length {os : List POp} {y : Bytes} (h : Coded os y) : os.length ≤ y.length := by
  induction os generalizing y with
  | nil => simp
  | cons p os ih =>
    obtain ⟨a1, b1, h1, h2, h3, rfl⟩ := h
    have := ih h3
    have := opBytes_pos h2
    simp
    omega

/-- reading and doing some opcodes -/
theorem runP_coded {os : List POp} {y : Bytes} (h : Coded os y) (hm : y.length ≤ maxSize) (o : Option Bytes) (file z : Bytes)
    (f : Nat) (M : PM) : runP (os.length + f) (rdr o file (y ++ z)) M = (runOps os M >>= runP f (rdr o file z)) := by
  induction os generalizing y M with
  | nil =>
    cases h
    simp only [List.length_nil, Nat.zero_add, List.nil_append]
    rfl
  | cons p os ih =>
    obtain ⟨a, b, h1, h2, h3, rfl⟩ := h
    rw [List.length_append] at hm
    rw [List.length_cons, show os.length + 1 + f = os.length + f + 1 by omega, List.append_assoc,
      runP_op h1 (readOp_rdr h1 h2 (by omega) o file _)]
    show _ = (stepP p M >>= runOps os) >>= _
    cases stepP p M with
    | error => rfl
    | ok M' => exact ih h3 (by omega) M'

theorem readOp_empty (file : Bytes) : readOp ⟨some [], file⟩ = readOp ⟨none, file⟩ := by simp [readOp, Rd.read]

theorem runP_empty (f : Nat) (file : Bytes) (M : PM) : runP f ⟨some [], file⟩ M = runP f ⟨none, file⟩ M := by
  cases f with
  | zero => rfl
  | succ f => simp only [runP, readOp_empty]

theorem runP_stop {v : PRef} {s : List PRef} {M : PM} (hM : M.stack = v :: s) (o : Option Bytes) (file z : Bytes) (f : Nat) :
    runP (f + 1) (rdr o file ([0x2e] ++ z)) M = .ok (M.heap, v) := by
  simp only [runP]
  rw [show [0x2e] ++ z = 0x2e :: z from rfl, readOp_plain o file z (op := .stop) rfl]
  show (match M.stack with | _ :: _ => _ | [] => _) = _
  rw [hM]

theorem runP_frame {n : Nat} (h1 : n < 2 ^ 64) (h2 : n ≤ maxSize) (f : Nat) (z : Bytes) (M : PM) :
    runP (f + 1) ⟨none, 0x95 :: leBytes 8 n ++ z⟩ M = runP f ⟨some (z.take n), z.drop n⟩ M := by
  have e : readOp ⟨none, 0x95 :: leBytes 8 n ++ z⟩ = .ok (.frame n, ⟨none, z⟩) := by
    have := readOp_arg none [] 0x95 (leBytes 8 n ++ z) rfl
    simp only [rdr, List.append_nil] at this
    refine (this : readOp ⟨none, 0x95 :: leBytes 8 n ++ z⟩ = _).trans ?_
    simp only [argOp]
    have h3 := num_rdr none [] z (n := 8) (x := n) (by norm_num at *; omega)
    simp only [rdr, List.append_nil] at h3
    rw [h3]
    rfl
  simp only [runP, e]
  show (Rd.loadFrame n ⟨none, z⟩ >>= _) = _
  simp only [Rd.loadFrame]
  rw [if_neg (by omega)]
  rfl

theorem frameOut_le {cur a : Bytes} (ha : frameOut cur = .ok a) : cur.length ≤ a.length := by
  unfold frameOut at ha
  split at ha
  · cases ha; exact Nat.le_refl _
  · simp only [opBytes] at ha
    split at ha
    · cases ha; show cur.length ≤ (_ ++ cur).length; rw [List.length_append]; omega
    · cases ha

/-- a frame, or a few bytes without one -/
theorem runP_frameOut {os : List POp} {cur a : Bytes} (h : Coded os cur) (ha : frameOut cur = .ok a) (hm : cur.length ≤ maxSize)
    (z : Bytes) (M : PM) : ∃ n, n ≤ a.length ∧ ∀ f, runP (n + f) ⟨none, a ++ z⟩ M = (runOps os M >>= runP f ⟨none, z⟩) := by
  have hl := coded_length h
  unfold frameOut at ha
  split at ha
  · cases ha
    refine ⟨os.length, hl, fun f => ?_⟩
    have := runP_coded h hm none z [] f M
    simpa [rdr] using this
  · simp only [opBytes] at ha
    split at ha
    · rename_i hlt
      cases ha
      refine ⟨os.length + 1, by simp; omega, fun f => ?_⟩
      rw [show os.length + 1 + f = os.length + f + 1 by omega, List.append_assoc, runP_frame hlt hm, List.take_left, List.drop_left]
      have := runP_coded h hm (some []) z [] f M
      simp only [rdr, List.append_nil] at this
      rw [this]
      congr 1
      funext M'
      exact runP_empty f z M'
    · cases ha

theorem large_op {o : POp} (h : o.large = true) : (∃ s, o = .str s) ∨ ∃ b, o = .bytes b := by
  cases o with
  | str s => exact .inl ⟨s, rfl⟩
  | bytes b => exact .inr ⟨b, rfl⟩
  | _ => cases h

/-- the framer's bytes are read as the opcodes -/
theorem framer_run : ∀ (e : List PEv) (cur : Bytes) (pend : List POp) (b : Bytes), (∀ o ∈ opsOf e, OpOK o) → Coded pend cur →
    framer (e ++ [.op .stop]) cur = .ok b → b.length ≤ maxSize → ∀ M M' v s, runOps (pend ++ opsOf e) M = .ok M' →
    M'.stack = v :: s → ∀ rest, ∃ n, n ≤ b.length ∧ ∀ f, runP (n + f) ⟨none, b ++ rest⟩ M = .ok (M'.heap, v)
  | [], cur, pend, b, _, hc, hb, hm, M, M', v, s, hr, hs, rest => by
    simp only [List.nil_append, framer, opBytes] at hb
    obtain ⟨y, hy, hb⟩ := ok_bind hb
    cases hy
    rw [if_neg (by decide)] at hb
    have hr' : runOps pend M = .ok M' := by simpa [opsOf] using hr
    have hl := coded_length hc
    unfold frameOut at hb
    split at hb
    · cases hb
      refine ⟨pend.length + 1, by simp; omega, fun f => ?_⟩
      have := runP_coded hc (by simp at hm; omega) none rest [0x2e] (f + 1) M
      rw [hr'] at this
      simp only [rdr] at this
      rw [show pend.length + 1 + f = pend.length + (f + 1) by omega, this]
      exact runP_stop hs none rest [] f
    · simp only [opBytes] at hb
      split at hb
      · rename_i hlt
        cases hb
        have hm' : (cur ++ [46]).length ≤ maxSize := by simp at hm ⊢; omega
        refine ⟨pend.length + 2, by simp; omega, fun f => ?_⟩
        rw [show pend.length + 2 + f = pend.length + (f + 1) + 1 by omega, List.append_assoc, runP_frame hlt hm', List.take_left,
          List.drop_left]
        have := runP_coded hc (by simp at hm'; omega) (some []) rest [0x2e] (f + 1) M
        rw [hr'] at this
        simp only [rdr, List.append_nil] at this
        rw [this]
        exact runP_stop hs (some []) rest [] f
      · cases hb
  | .check :: e, cur, pend, b, ho, hc, hb, hm, M, M', v, s, hr, hs, rest => by
    have hr' : runOps (pend ++ opsOf e) M = .ok M' := hr
    simp only [List.cons_append, framer] at hb
    split at hb
    · obtain ⟨a, ha, hb⟩ := ok_bind hb
      obtain ⟨c, hcc, hb⟩ := ok_bind hb
      cases hb
      rw [runOps_append] at hr'
      obtain ⟨M1, h1, h2⟩ := ok_bind hr'
      rw [List.length_append] at hm
      have hcm : cur.length ≤ maxSize := by
        have := frameOut_le ha
        omega
      obtain ⟨n1, q1, q2⟩ := runP_frameOut hc ha hcm (c ++ rest) M
      obtain ⟨n2, q3, q4⟩ := framer_run e [] [] c (fun o h => ho o h) rfl hcc (by omega) M1 M' v s h2 hs rest
      refine ⟨n1 + n2, by simp; omega, fun f => ?_⟩
      rw [Nat.add_assoc, List.append_assoc, q2, h1]
      exact q4 f
    · exact framer_run e cur pend b (fun o h => ho o h) hc hb hm M M' v s hr' hs rest
  | .op o :: e, cur, pend, b, ho, hc, hb, hm, M, M', v, s, hr, hs, rest => by
    have hoo : OpOK o := ho o (by rw [opsOf_op]; simp)
    have hoe : ∀ p ∈ opsOf e, OpOK p := fun p hp => ho p (by rw [opsOf_op]; simp [hp])
    rw [opsOf_op] at hr
    simp only [List.cons_append, framer] at hb
    obtain ⟨y, hy, hb⟩ := ok_bind hb
    split at hb
    · obtain ⟨a, ha, hb⟩ := ok_bind hb
      obtain ⟨c, hcc, hb⟩ := ok_bind hb
      cases hb
      rw [runOps_append] at hr
      obtain ⟨M1, h1, h2⟩ := ok_bind hr
      obtain ⟨M2, h3, h4⟩ := ok_bind (x := stepP o M1) h2
      simp only [List.length_append] at hm
      have hcm : cur.length ≤ maxSize := by
        have := frameOut_le ha
        omega
      obtain ⟨n1, q1, q2⟩ := runP_frameOut hc ha hcm (y ++ (c ++ rest)) M
      obtain ⟨n2, q3, q4⟩ := framer_run e [] [] c hoe rfl hcc (by omega) M2 M' v s h4 hs rest
      have hp := opBytes_pos hy
      refine ⟨n1 + (n2 + 1), by simp; omega, fun f => ?_⟩
      rw [Nat.add_assoc, List.append_assoc, List.append_assoc, q2, h1]
      show runP (n2 + 1 + f) _ M1 = _
      rw [show n2 + 1 + f = n2 + f + 1 by omega]
      have e1 := readOp_rdr hoo hy (by omega) none (c ++ rest) []
      simp only [rdr, List.append_nil, List.nil_append] at e1
      rw [runP_op hoo e1, h3]
      exact q4 f
    · exact framer_run e (cur ++ y) (pend ++ [o]) b hoe (coded_snoc hc hoo hy) hb hm M M' v s (by simpa using hr) hs rest

end Verif.Lemmas.Pickle
