import Verif.Lemmas.LockFair
/-!
# C173: nobody waits for ever for a `SlidingLock`

Endless runs of finitely many processes in which a process that is using the lock is always given another turn.
-/
namespace Verif.Props
open Verif.Model.LockTS Verif.Lemmas.LockTS Verif.Spec.LockFair

/-- C173, in full: every process that asks for the lock acquires it -/
def C173_full : Prop :=
  ∀ (ι : Type) [DecidableEq ι] (L : List ι) (c0 : Nat) (sch : Nat → ι), (∀ t, sch t ∈ L) → Fair c0 sch →
    ∀ t i, Asking ((endless c0 sch t).pc i) → ∃ u, t ≤ u ∧ Within ((endless c0 sch u).pc i)

/-! ## A run in which one process never acquires -/

/-- process `false` asks for the lock and reads the count; process `true` acquires; from then on `true` goes out and in
again between any two turns of `false` -/
def chase (t : Nat) : Bool := if t < 2 then false else if t < 7 then true else (t - 7) % 9 != 0

/-- a state of two processes -/
def duo (c : Nat) (mk lk : Nat → Bool) (p q : Pc) : St Bool := ⟨c, mk, lk, fun b => if b then q else p⟩

/-- only the block `n` -/
def onlyOne (n : Nat) : Nat → Bool := put (fun _ => false) n true

theorem put_duo_true (p q r : Pc) : put (fun b : Bool => if b then q else p) true r = fun b => if b then r else p := by
  funext b; cases b <;> simp [put]

theorem put_duo_false (p q r : Pc) : put (fun b : Bool => if b then q else p) false r = fun b => if b then q else r := by
  funext b; cases b <;> simp [put]

theorem onlyOne_off (n : Nat) : put (onlyOne n) n false = fun _ => false := by
  funext m; by_cases h : m = n <;> simp [onlyOne, put, h]

theorem onlyOne_self (n : Nat) : onlyOne n n = true := by simp [onlyOne, put]

/-- `true` is inside with the slot `r + 1`, and `false` is about to try that slot -/
def caught (r : Nat) : St Bool := duo r (onlyOne (r + 1)) (onlyOne (r + 1)) (.marking 0 (r + 1)) (.inside (r + 1) true)

theorem chase_first (r : Nat) : chase (7 + 9 * r) = false := by
  unfold chase
  rw [if_neg (by omega), if_neg (by omega), show 7 + 9 * r - 7 = 9 * r by omega, Nat.mul_mod_right]; rfl

theorem chase_rest (r s : Nat) (h1 : 1 ≤ s) (h2 : s < 9) : chase (7 + 9 * r + s) = true := by
  unfold chase
  rw [if_neg (by omega), if_neg (by omega), show 7 + 9 * r + s - 7 = s + 9 * r by omega, Nat.add_mul_mod_self_left,
    Nat.mod_eq_of_lt h2]
  simp; omega

theorem round_first (r : Nat) : next (caught r) false =
    duo r (onlyOne (r + 1)) (onlyOne (r + 1)) (.marking 0 (r + 2)) (.inside (r + 1) true) := by
  simp [next, caught, duo, onlyOne_self, put_duo_false]

theorem round_rest (r : Nat) : runs (next (caught r) false) (List.replicate 8 true) = caught (r + 1) := by
  rw [round_first]
  have h : put (fun _ : Nat => false) (r + 1 + 1) true (r + 1) = false := by simp [put]
  simp [runs, next, duo, put_duo_true, onlyOne_off, caught, List.replicate, h]
  constructor <;> rfl

theorem endless_rest (c0 : Nat) (r k : Nat) (hk : k ≤ 8) :
    endless c0 chase (7 + 9 * r + 1 + k) = runs (endless c0 chase (7 + 9 * r + 1)) (List.replicate k true) := by
  induction k with
  | zero => rfl
  | succ k ih =>
    rw [List.replicate_succ', runs_append, ← ih (by omega)]
    show next (endless c0 chase (7 + 9 * r + 1 + k)) (chase (7 + 9 * r + 1 + k)) = _
    rw [show 7 + 9 * r + 1 + k = 7 + 9 * r + (1 + k) by omega, chase_rest r (1 + k) (by omega) (by omega)]
    rfl

theorem endless_caught (r : Nat) : endless 0 chase (7 + 9 * r) = caught r := by
  induction r with
  | zero =>
    rw [endless_runs]
    have : (List.range (7 + 9 * 0)).map chase = [false, false, true, true, true, true, true] := by decide
    rw [this]
    have hpc : (runs (start 0) [false, false, true, true, true, true, true]).pc = (caught 0).pc := by
      funext b; cases b <;> rfl
    show (⟨_, _, _, (runs (start 0) [false, false, true, true, true, true, true]).pc⟩ : St Bool) = _
    rw [hpc]; rfl
  | succ r ih =>
    rw [show 7 + 9 * (r + 1) = 7 + 9 * r + 1 + 8 by omega, endless_rest 0 r 8 (Nat.le_refl _)]
    have : endless 0 chase (7 + 9 * r + 1) = next (caught r) false := by
      show next (endless 0 chase (7 + 9 * r)) (chase (7 + 9 * r)) = _
      rw [ih, chase_first]
    rw [this, round_rest]

/-- `false` is trying one slot after another -/
theorem chase_false (t : Nat) (ht : 7 ≤ t) : ∃ k, (endless 0 chase t).pc false = .marking 0 k := by
  obtain ⟨r, s, hs, rfl⟩ : ∃ r s, s < 9 ∧ t = 7 + 9 * r + s :=
    ⟨(t - 7) / 9, (t - 7) % 9, Nat.mod_lt _ (by omega), by have := Nat.div_add_mod (t - 7) 9; omega⟩
  cases s with
  | zero => exact ⟨r + 1, by rw [show 7 + 9 * r + 0 = 7 + 9 * r from rfl, endless_caught]; rfl⟩
  | succ s =>
    refine ⟨r + 2, ?_⟩
    have : endless 0 chase (7 + 9 * r + 1) = next (caught r) false := by
      show next (endless 0 chase (7 + 9 * r)) (chase (7 + 9 * r)) = _
      rw [endless_caught, chase_first]
    rw [show 7 + 9 * r + (s + 1) = 7 + 9 * r + 1 + s by omega, endless_rest 0 r s (by omega), this, round_first]
    have hq : ∀ (n : Nat) (σ : St Bool), (runs σ (List.replicate n true)).pc false = σ.pc false := by
      intro n
      induction n with
      | zero => exact fun _ => rfl
      | succ n ih =>
        intro σ
        show (runs (next σ true) (List.replicate n true)).pc false = _
        rw [ih, next_pc_ne σ (by decide)]
    rw [hq]; rfl

theorem chase_fair (c0 : Nat) : Fair c0 chase := by
  intro t i _
  cases i with
  | false => exact ⟨7 + 9 * t, by omega, chase_first t⟩
  | true => exact ⟨7 + 9 * t + 1, by omega, chase_rest t 1 (by omega) (by omega)⟩

theorem chase_mem (t : Nat) : chase t ∈ [false, true] := by cases chase t <;> simp

/-- C173 is false of the code: a process that looks for a slot may find every slot it tries taken, for ever -/
theorem C173_full_false : ¬ C173_full := by
  intro h
  obtain ⟨u, hu, n, own, e⟩ := h Bool [false, true] 0 chase chase_mem (chase_fair 0) 7 false
    (.inr (.inl (by obtain ⟨k, hk⟩ := chase_false 7 (Nat.le_refl _); exact ⟨0, k, hk⟩)))
  obtain ⟨k, hk⟩ := chase_false u hu
  rw [hk] at e
  cases e

/-- in that run the other process is inside again and again -/
theorem C173_starved : (∀ t, ∃ u, t ≤ u ∧ Within ((endless 0 chase u).pc true)) ∧
    ∀ u, 7 ≤ u → Asking ((endless 0 chase u).pc false) ∧ ¬ Within ((endless 0 chase u).pc false) := by
  refine ⟨fun t => ⟨7 + 9 * t, by omega, t + 1, true, by rw [endless_caught]; rfl⟩, fun u hu => ?_⟩
  obtain ⟨k, hk⟩ := chase_false u hu
  exact ⟨.inr (.inl ⟨0, k, hk⟩), by rintro ⟨n, own, e⟩; rw [hk] at e; cases e⟩

/-! ## What holds -/

variable {ι : Type} [DecidableEq ι]

/-- C173, the part that holds: a process that has its slot acquires, however many processes there are and whatever they do -/
theorem C173_slot_then_inside_partial (L : List ι) (c0 : Nat) (sch : Nat → ι) (hL : ∀ t, sch t ∈ L) (hf : Fair c0 sch)
    (t : Nat) (i : ι) (h : Slotted ((endless c0 sch t).pc i)) : ∃ u, t ≤ u ∧ Within ((endless c0 sch u).pc i) :=
  slot_then_inside hL hf h

/-- when some process asks for the lock, some process acquires it -/
theorem C173_someone (L : List ι) (c0 : Nat) (sch : Nat → ι) (hL : ∀ t, sch t ∈ L) (hf : Fair c0 sch)
    (t : Nat) (i : ι) (h : Asking ((endless c0 sch t).pc i)) : ∃ u j, t ≤ u ∧ Within ((endless c0 sch u).pc j) :=
  someone_inside hL hf h

/-- fair or not: after any beginning, critical sections with a slot below `N` end only so often, so a process with the slot
`N` is not overtaken by processes with lower slots more often than that -/
theorem C173_overtaken (L : List ι) (c0 : Nat) (sched t : List ι) (ht : ∀ i ∈ t, i ∈ L) (N : Nat) :
    lowerExits N (runs (start c0) sched) t ≤ L.length * (bypassBound L.length N + 1) := by
  by_cases hk : 1 ≤ L.length
  · have h1 := weight_runs N L (runs (start c0) sched) t ht
    have h2 := weight_le N L (runs (start c0) sched) hk
    omega
  · cases t with
    | nil => simp [lowerExits]
    | cons i t => exact absurd (List.length_pos_of_mem (ht i (.head _))) hk

/-- process `true` has a slot at time 6, and so again in every later round of the endless run above -/
example : ∃ u, 6 ≤ u ∧ Within ((endless 0 chase u).pc true) :=
  C173_slot_then_inside_partial [false, true] 0 chase chase_mem (chase_fair 0) 6 true
    (.inr ⟨0, 1, 1, by rw [endless_runs]; decide⟩)

example : ∃ u j, 2 ≤ u ∧ Within ((endless 0 chase u).pc j) :=
  C173_someone [false, true] 0 chase chase_mem (chase_fair 0) 2 false (.inr (.inl ⟨0, 1, by rw [endless_runs]; decide⟩))

/-- process 1 goes in and out with slot 1, below the slot 2 of process 2 -/
example : lowerExits 2 (start (ι := Nat) 0) [1, 1, 1, 1, 2, 2, 2, 2, 2, 1, 1, 1] = 1 := by decide

end Verif.Props
