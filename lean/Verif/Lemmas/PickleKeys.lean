import Mathlib.Tactic.Ring
import Verif.Spec.PickleKeys
/-! Helper lemmas for dict keys in pickles. -/
namespace Verif.Lemmas.Pickle
open Verif Verif.Model Verif.Spec

theorem sgn_mul_inj {p p' : Prop} [Decidable p] [Decidable p'] {m m' : Nat} (hm : 0 < m)
    (h : (if p then (-1 : Int) else 1) * (m : Int) = (if p' then (-1 : Int) else 1) * (m' : Int)) : (p ↔ p') ∧ m = m' := by
  split at h <;> split at h <;> rename_i h1 h2 <;> simp only [h1, h2, iff_self, true_and] <;> omega

/-- the significand and exponent of a finite double -/
def fman (x : BitVec 64) : Nat := if x.toNat / 2 ^ 52 % 2048 = 0 then x.toNat % 2 ^ 52 else x.toNat % 2 ^ 52 + 2 ^ 52
def fexp (x : BitVec 64) : Nat := if x.toNat / 2 ^ 52 % 2048 = 0 then 1 else x.toNat / 2 ^ 52 % 2048
def fsgn (x : BitVec 64) : Int := if 2 ^ 63 ≤ x.toNat then -1 else 1

theorem numScaled_float {x : BitVec 64} (he : x.toNat / 2 ^ 52 % 2048 ≠ 2047) :
    numScaled (.float x) = some (fsgn x * ((fman x * 2 ^ fexp x : Nat) : Int)) := by
  have hs : (if x.toNat < 2 ^ 63 then (1 : Int) else -1) = fsgn x := by
    unfold fsgn; split <;> split <;> omega
  simp only [numScaled, hs]
  rw [if_neg (by simpa using he)]
  unfold fman fexp
  by_cases h0 : x.toNat / 2 ^ 52 % 2048 = 0
  · rw [if_pos h0, if_pos h0, if_pos (by simpa using h0)]
  · rw [if_neg h0, if_neg h0, if_neg (by simpa using h0), Nat.add_comm (x.toNat % 2 ^ 52)]

theorem fexp_bound (x : BitVec 64) (he : x.toNat / 2 ^ 52 % 2048 ≠ 2047) : 1 ≤ fexp x ∧ fexp x < 2047 ∧ fman x < 2 ^ 53 ∧
    (fexp x = 1 ∨ 2 ^ 52 ≤ fman x) := by
  unfold fexp fman
  have : x.toNat / 2 ^ 52 % 2048 < 2048 := Nat.mod_lt _ (by omega)
  split <;> omega

theorem floatKey_spec (x : BitVec 64) :
    (floatKey x = none ∧ numScaled (.float x) = none ∧ ¬ IsInf x) ∨
    (floatKey x = some [.frac x] ∧ numScaled (.float x) = none ∧ IsInf x) ∨
    (∃ i : Int, floatKey x = some [.int i] ∧ numScaled (.float x) = some (i * 2 ^ 1075)) ∨
    (floatKey x = some [.frac x] ∧ x.toNat / 2 ^ 52 % 2048 ≠ 2047 ∧ fexp x < 1075 ∧ fman x % 2 ^ (1075 - fexp x) ≠ 0) := by
  by_cases he : x.toNat / 2 ^ 52 % 2048 = 2047
  · have hn : numScaled (.float x) = none := by simp only [numScaled]; rw [if_pos (by simpa using he)]
    unfold floatKey IsInf
    simp only [he, if_true]
    by_cases hf : x.toNat % 2 ^ 52 = 0
    · exact .inr (.inl ⟨by rw [if_pos hf], hn, by simpa using he, hf⟩)
    · exact .inl ⟨by rw [if_neg hf], hn, fun h => hf h.2⟩
  · have hk : floatKey x = if 1075 ≤ fexp x then some [.int (fsgn x * (fman x * 2 ^ (fexp x - 1075) : Nat))]
        else if fman x % 2 ^ (1075 - fexp x) = 0 then some [.int (fsgn x * (fman x / 2 ^ (1075 - fexp x) : Nat))]
        else some [.frac x] := by
      unfold floatKey
      simp only [if_neg he]
      rfl
    rw [hk, numScaled_float he]
    by_cases h1 : 1075 ≤ fexp x
    · refine .inr (.inr (.inl ⟨_, by rw [if_pos h1], ?_⟩))
      have : fman x * 2 ^ fexp x = fman x * 2 ^ (fexp x - 1075) * 2 ^ 1075 := by
        rw [Nat.mul_assoc, ← Nat.pow_add, Nat.sub_add_cancel h1]
      rw [this, Int.mul_assoc]
      push_cast
      rfl
    · by_cases h2 : fman x % 2 ^ (1075 - fexp x) = 0
      · refine .inr (.inr (.inl ⟨_, by rw [if_neg h1, if_pos h2], ?_⟩))
        have : fman x * 2 ^ fexp x = fman x / 2 ^ (1075 - fexp x) * 2 ^ 1075 := by
          have e : (2 : Nat) ^ 1075 = 2 ^ (1075 - fexp x) * 2 ^ fexp x := by rw [← Nat.pow_add, Nat.sub_add_cancel (by omega)]
          rw [e, ← Nat.mul_assoc, Nat.div_mul_cancel (Nat.dvd_of_mod_eq_zero h2)]
        rw [this, Int.mul_assoc]
        push_cast
        rfl
      · exact .inr (.inr (.inr ⟨by rw [if_neg h1, if_neg h2], he, by omega, h2⟩))

theorem man_exp_inj {m e m' e' : Nat} (h : m * 2 ^ e = m' * 2 ^ e') (b : m < 2 ^ 53) (b' : m' < 2 ^ 53) (h1 : 1 ≤ e) (h1' : 1 ≤ e')
    (n : e = 1 ∨ 2 ^ 52 ≤ m) (n' : e' = 1 ∨ 2 ^ 52 ≤ m') : m = m' ∧ e = e' := by
  have key : ∀ {m e m' e' : Nat}, m * 2 ^ e = m' * 2 ^ e' → m < 2 ^ 53 → (e' = 1 ∨ 2 ^ 52 ≤ m') → 1 ≤ e → ¬ e < e' := by
    intro m e m' e' h b n' h1 hlt
    have e1 : (2 : Nat) ^ e' = 2 ^ (e' - e) * 2 ^ e := by rw [← Nat.pow_add, Nat.sub_add_cancel (by omega)]
    rw [e1, ← Nat.mul_assoc] at h
    have h2 := Nat.eq_of_mul_eq_mul_right (Nat.two_pow_pos e) h
    have h3 : 2 ^ 52 ≤ m' := n'.resolve_left (by omega)
    have h4 : (2 : Nat) ^ 1 ≤ 2 ^ (e' - e) := Nat.pow_le_pow_right (by omega) (by omega)
    have h5 := Nat.mul_le_mul h3 h4
    omega
  have : e = e' := by
    have k1 := key h b n' h1
    have k2 := key h.symm b' n h1'
    omega
  subst this
  exact ⟨Nat.eq_of_mul_eq_mul_right (Nat.two_pow_pos e) h, rfl⟩

/-- a double that is no whole number is no integer in value -/
theorem frac_not_int {x : BitVec 64} (he : x.toNat / 2 ^ 52 % 2048 ≠ 2047) (h1 : fexp x < 1075) (h2 : fman x % 2 ^ (1075 - fexp x) ≠ 0) (i : Int) :
    numScaled (.float x) ≠ some (i * 2 ^ 1075) := by
  rw [numScaled_float he]
  intro h
  have h := Option.some.inj h
  apply h2
  have e1 : (2 : Nat) ^ 1075 = 2 ^ (1075 - fexp x) * 2 ^ fexp x := by rw [← Nat.pow_add, Nat.sub_add_cancel (by omega)]
  have h3 : (fman x * 2 ^ fexp x : Nat) = i.natAbs * 2 ^ 1075 := by
    have := congrArg Int.natAbs h
    rw [Int.natAbs_mul, Int.natAbs_mul, Int.natAbs_natCast, Int.natAbs_pow] at this
    have hs : (fsgn x).natAbs = 1 := by unfold fsgn; split <;> rfl
    rw [hs, Nat.one_mul] at this
    exact this
  rw [e1, ← Nat.mul_assoc] at h3
  have h4 := Nat.eq_of_mul_eq_mul_right (Nat.two_pow_pos _) h3
  rw [h4]
  exact Nat.mul_mod_left _ _

/-- two doubles of one value that is no whole number are one double -/
theorem frac_inj {x y : BitVec 64} (he : x.toNat / 2 ^ 52 % 2048 ≠ 2047) (hy : y.toNat / 2 ^ 52 % 2048 ≠ 2047)
    (h2 : fman x ≠ 0) (h : numScaled (.float x) = numScaled (.float y)) : x = y := by
  rw [numScaled_float he, numScaled_float hy] at h
  obtain ⟨b1, b2, b3, b4⟩ := fexp_bound x he
  obtain ⟨c1, c2, c3, c4⟩ := fexp_bound y hy
  obtain ⟨hs, hm⟩ := sgn_mul_inj (Nat.mul_pos (by omega) (Nat.two_pow_pos _)) (Option.some.inj h)
  obtain ⟨k1, k2⟩ := man_exp_inj hm b3 c3 b1 c1 b4 c4
  have lx := x.isLt
  have ly := y.isLt
  apply BitVec.eq_of_toNat_eq
  unfold fman at k1
  unfold fexp at k2
  split at k1 <;> rename_i e1 <;> split at k1 <;> rename_i e2 <;> simp only [e1, e2, if_true, if_false] at k2 <;> omega

/-! ## keys -/

/-- the three ways a key can be one symbol that is no tuple -/
theorem key_num {h : PHeap} {n : Nat} {r : PRef} {k : List KeyTok} {q : Int} (hq : numScaled r = some q) (hk : keyN h n r = some k) :
    (∃ i : Int, k = [.int i] ∧ q = i * 2 ^ 1075) ∨ (∃ x, r = .float x ∧ k = [.frac x] ∧ ∀ i : Int, q ≠ i * 2 ^ 1075) := by
  cases n with
  | zero => cases hk
  | succ n =>
    cases r with
    | bool b => cases hk; cases hq; exact .inl ⟨_, rfl, rfl⟩
    | int i => cases hk; cases hq; exact .inl ⟨_, rfl, rfl⟩
    | float x =>
      simp only [keyN] at hk
      rcases floatKey_spec x with ⟨h1, _⟩ | ⟨_, h2, _⟩ | ⟨i, h1, h2⟩ | ⟨h1, h2, h3, h4⟩
      · rw [h1] at hk; cases hk
      · rw [h2] at hq; cases hq
      · rw [h1] at hk; cases hk; rw [h2] at hq; cases hq; exact .inl ⟨_, rfl, rfl⟩
      · rw [h1] at hk; cases hk
        refine .inr ⟨x, rfl, rfl, fun i hi => frac_not_int h2 h3 h4 i ?_⟩
        rw [hq, hi]
    | none => cases hq
    | unit => cases hq
    | obj a => cases hq

theorem two_pow_cancel {i j : Int} (h : i * 2 ^ 1075 = j * 2 ^ 1075) : i = j := by
  have : (2 : Int) ^ 1075 ≠ 0 := Int.pow_ne_zero (by decide)
  exact Int.eq_of_mul_eq_mul_right this h

mutual
theorem keyEq_sound {h : PHeap} {r s : PRef} : KeyEq h r s → ∀ n n' k l, keyN h n r = some k → keyN h n' s = some l → k = l
  | .none, n, n', k, l, hk, hl => by
    cases n with
    | zero => cases hk
    | succ n => cases n' with
      | zero => cases hl
      | succ n' => cases hk; cases hl; rfl
  | .num h1 h2, n, n', k, l, hk, hl => by
    rcases key_num h1 hk with ⟨i, rfl, hi⟩ | ⟨x, rfl, rfl, hx⟩ <;> rcases key_num h2 hl with ⟨j, rfl, hj⟩ | ⟨y, rfl, rfl, hy⟩
    · rw [hi] at hj; rw [two_pow_cancel hj]
    · exact absurd hi (hy i)
    · exact absurd hj (hx j)
    · cases n with
      | zero => cases hk
      | succ n => cases n' with
        | zero => cases hl
        | succ n' =>
          simp only [keyN] at hk hl
          have hx' : x.toNat / 2 ^ 52 % 2048 ≠ 2047 ∧ fman x ≠ 0 := by
            rcases floatKey_spec x with ⟨e1, _⟩ | ⟨_, e2, _⟩ | ⟨i, e1, e2⟩ | ⟨e1, e2, e3, e4⟩
            · rw [e1] at hk; cases hk
            · rw [e2] at h1; cases h1
            · rw [e1] at hk; cases hk
            · exact ⟨e2, fun h => e4 (by rw [h]; exact Nat.zero_mod _)⟩
          have hy' : y.toNat / 2 ^ 52 % 2048 ≠ 2047 := by
            rcases floatKey_spec y with ⟨e1, _⟩ | ⟨_, e2, _⟩ | ⟨i, e1, e2⟩ | ⟨e1, e2, e3, e4⟩
            · rw [e1] at hl; cases hl
            · rw [e2] at h2; cases h2
            · rw [e1] at hl; cases hl
            · exact e2
          rw [frac_inj hx'.1 hy' hx'.2 (h1.trans h2.symm)]
  | .inf (x := x) hx, n, n', k, l, hk, hl => by
    cases n with
    | zero => cases hk
    | succ n => cases n' with
      | zero => cases hl
      | succ n' => simp only [keyN] at hk hl; rw [hk] at hl; exact Option.some.inj hl
  | .str h1 h2, n, n', k, l, hk, hl => by
    cases n with
    | zero => cases hk
    | succ n => cases n' with
      | zero => cases hl
      | succ n' => simp only [keyN, h1, h2] at hk hl; rw [hk] at hl; exact Option.some.inj hl
  | .bytes h1 h2, n, n', k, l, hk, hl => by
    cases n with
    | zero => cases hk
    | succ n => cases n' with
      | zero => cases hl
      | succ n' => simp only [keyN, h1, h2] at hk hl; rw [hk] at hl; exact Option.some.inj hl
  | .tuple h1 h2 h3, n, n', k, l, hk, hl => by
    have ih := keysEq_sound h3
    obtain ⟨n1, ks, e1, rfl⟩ := tuple_key h1 hk
    obtain ⟨n2, ls, e2, rfl⟩ := tuple_key h2 hl
    obtain ⟨g1, g2⟩ := ih _ _ _ _ e1 e2
    rw [g1, g2]
theorem keysEq_sound {h : PHeap} {xs ys : List PRef} : KeysEq h xs ys → ∀ n n' ks ls, xs.mapM (keyN h n) = some ks →
    ys.mapM (keyN h n') = some ls → xs.length = ys.length ∧ ks.flatten = ls.flatten
  | .nil, _, _, _, _, hk, hl => by cases hk; cases hl; exact ⟨rfl, rfl⟩
  | .cons h1 h2, n, n', ks, ls, hk, hl => by
    have ih1 := keyEq_sound h1
    have ih2 := keysEq_sound h2
    rw [List.mapM_cons] at hk hl
    simp only [Option.bind_eq_bind, Option.bind_eq_some_iff, pure] at hk hl
    obtain ⟨k, k1, ks', k2, e⟩ := hk
    obtain ⟨l, l1, ls', l2, e'⟩ := hl
    cases e; cases e'
    obtain ⟨g1, g2⟩ := ih2 _ _ _ _ k2 l2
    simp [ih1 _ _ _ _ k1 l1, g1, g2]
theorem tuple_key {h : PHeap} {n : Nat} {r : PRef} {xs : List PRef} {k : List KeyTok} (hx : tupleOf h r = some xs) (hk : keyN h n r = some k) :
    ∃ n' ks, xs.mapM (keyN h n') = some ks ∧ k = .tup xs.length :: ks.flatten := by
  cases n with
  | zero => cases hk
  | succ n =>
    cases r with
    | unit => cases hx; cases hk; exact ⟨0, [], rfl, rfl⟩
    | obj a =>
      simp only [tupleOf] at hx
      simp only [keyN] at hk
      cases ha : h[a]? with
      | none => rw [ha] at hx; cases hx
      | some nd =>
        rw [ha] at hx hk
        cases nd with
        | tuple ys =>
          cases hx
          simp only at hk
          cases h1 : xs.mapM (keyN h n) with
          | none => rw [h1] at hk; cases hk
          | some ks => rw [h1] at hk; cases hk; exact ⟨n, ks, h1, rfl⟩
        | _ => cases hx
    | _ => cases hx
end

/-- what the first symbol of a key says of it -/
theorem key_head {h : PHeap} {n : Nat} {r : PRef} {k : List KeyTok} (hk : keyN h (n + 1) r = some k) :
    (k = [.none] ∧ r = .none) ∨ (∃ i, k = [.int i] ∧ numScaled r = some (i * 2 ^ 1075)) ∨
    (∃ x, k = [.frac x] ∧ r = .float x ∧ (IsInf x ∨ ∃ q, numScaled r = some q)) ∨ (∃ a t, k = [.str t] ∧ r = .obj a ∧ h[a]? = some (.str t)) ∨
    (∃ a t, k = [.bytes t] ∧ r = .obj a ∧ h[a]? = some (.bytes t)) ∨
    (∃ xs ks, k = .tup xs.length :: ks.flatten ∧ tupleOf h r = some xs ∧ xs.mapM (keyN h n) = some ks) := by
  cases r with
  | none => cases hk; exact .inl ⟨rfl, rfl⟩
  | bool b => cases hk; exact .inr (.inl ⟨_, rfl, rfl⟩)
  | int i => cases hk; exact .inr (.inl ⟨_, rfl, rfl⟩)
  | float x =>
    simp only [keyN] at hk
    rcases floatKey_spec x with ⟨e1, _⟩ | ⟨e1, e2, e3⟩ | ⟨i, e1, e2⟩ | ⟨e1, e2, e3, e4⟩
    · rw [e1] at hk; cases hk
    · rw [e1] at hk; cases hk; exact .inr (.inr (.inl ⟨x, rfl, rfl, .inl e3⟩))
    · rw [e1] at hk; cases hk; exact .inr (.inl ⟨i, rfl, e2⟩)
    · rw [e1] at hk; cases hk; exact .inr (.inr (.inl ⟨x, rfl, rfl, .inr ⟨_, numScaled_float e2⟩⟩))
  | unit => cases hk; exact .inr (.inr (.inr (.inr (.inr ⟨[], [], rfl, rfl, rfl⟩))))
  | obj a =>
    simp only [keyN] at hk
    cases ha : h[a]? with
    | none => rw [ha] at hk; cases hk
    | some nd =>
      rw [ha] at hk
      cases nd with
      | str t => cases hk; exact .inr (.inr (.inr (.inl ⟨a, t, rfl, rfl, ha⟩)))
      | bytes t => cases hk; exact .inr (.inr (.inr (.inr (.inl ⟨a, t, rfl, rfl, ha⟩))))
      | tuple xs =>
        simp only at hk
        cases h1 : xs.mapM (keyN h n) with
        | none => rw [h1] at hk; cases hk
        | some ks =>
          rw [h1] at hk; cases hk
          exact .inr (.inr (.inr (.inr (.inr ⟨xs, ks, rfl, by simp [tupleOf, ha], h1⟩))))
      | list _ => cases hk
      | dict _ => cases hk

theorem keys_split {h : PHeap} (n : Nat)
    (ih : ∀ r r' n' k l s s', keyN h n r = some k → keyN h n' r' = some l → k ++ s = l ++ s' → KeyEq h r r' ∧ s = s') :
    ∀ (xs ys : List PRef) n' ks ls s s', xs.length = ys.length → xs.mapM (keyN h n) = some ks → ys.mapM (keyN h n') = some ls →
    ks.flatten ++ s = ls.flatten ++ s' → KeysEq h xs ys ∧ s = s'
  | [], [], _, _, _, _, _, _, hk, hl, he => by cases hk; cases hl; exact ⟨.nil, he⟩
  | [], _ :: _, _, _, _, _, _, h1, _, _, _ => by cases h1
  | _ :: _, [], _, _, _, _, _, h1, _, _, _ => by cases h1
  | x :: xs, y :: ys, n', ks, ls, s, s', h1, hk, hl, he => by
    rw [List.mapM_cons] at hk hl
    simp only [Option.bind_eq_bind, Option.bind_eq_some_iff, pure] at hk hl
    obtain ⟨k, k1, ks', k2, e⟩ := hk
    obtain ⟨l, l1, ls', l2, e'⟩ := hl
    cases e; cases e'
    simp only [List.flatten_cons, List.append_assoc] at he
    obtain ⟨g1, g2⟩ := ih _ _ _ _ _ _ _ k1 l1 he
    obtain ⟨g3, g4⟩ := keys_split n ih xs ys n' ks' ls' s s' (by simpa using h1) k2 l2 g2
    exact ⟨.cons g1 g3, g4⟩

theorem key_split {h : PHeap} : ∀ (n : Nat) (r r' : PRef) n' k l s s', keyN h n r = some k → keyN h n' r' = some l →
    k ++ s = l ++ s' → KeyEq h r r' ∧ s = s'
  | 0, _, _, _, _, _, _, _, hk, _, _ => by cases hk
  | _ + 1, _, _, 0, _, _, _, _, _, hl, _ => by cases hl
  | n + 1, r, r', n' + 1, k, l, s, s', hk, hl, he => by
    rcases key_head hk with ⟨rfl, rfl⟩ | ⟨i, rfl, hi⟩ | ⟨x, rfl, rfl, hx⟩ | ⟨a, t, rfl, rfl, ha⟩ | ⟨a, t, rfl, rfl, ha⟩ | ⟨xs, ks, rfl, hx, hks⟩ <;>
    rcases key_head hl with ⟨rfl, rfl⟩ | ⟨j, rfl, hj⟩ | ⟨y, rfl, rfl, hy⟩ | ⟨b, u, rfl, rfl, hb⟩ | ⟨b, u, rfl, rfl, hb⟩ | ⟨ys, ls, rfl, hy, hls⟩ <;>
    simp only [List.cons_append, List.nil_append, List.cons.injEq, reduceCtorEq, false_and, true_and, KeyTok.int.injEq, KeyTok.frac.injEq,
      KeyTok.str.injEq, KeyTok.bytes.injEq, KeyTok.tup.injEq] at he
    · exact ⟨.none, he⟩
    · obtain ⟨rfl, he⟩ := he; exact ⟨.num hi hj, he⟩
    · obtain ⟨rfl, he⟩ := he
      rcases hx with hx | ⟨q, hq⟩
      · exact ⟨.inf hx, he⟩
      · exact ⟨.num hq hq, he⟩
    · obtain ⟨rfl, he⟩ := he; exact ⟨.str ha hb, he⟩
    · obtain ⟨rfl, he⟩ := he; exact ⟨.bytes ha hb, he⟩
    · obtain ⟨hlen, he⟩ := he
      obtain ⟨g1, g2⟩ := keys_split n (key_split n) xs ys n' ks ls s s' hlen hks hls he
      exact ⟨.tuple hx hy g1, g2⟩

end Verif.Lemmas.Pickle
