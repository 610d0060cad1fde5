import Verif.Model.LockTS
/-! # Invariants of `SlidingLock` -/
namespace Verif.Lemmas.LockTS
open Verif.Model.LockTS

variable {ι : Type} [DecidableEq ι]

/-- the slot of a process that has one -/
def num? : Pc → Option Nat
  | .placing _ n => some n
  | .scanning _ n _ => some n
  | .inside n _ => some n
  | .unlocking n => some n
  | .unmarking n => some n
  | _ => none

/-- the slot of a process that has made its lock block and not yet unlinked it -/
def holds? : Pc → Option Nat
  | .scanning _ n _ => some n
  | .inside n true => some n
  | .unlocking n => some n
  | _ => none

/-- what is known of a process on its own -/
def PcOK : Pc → Prop
  | .marking f k => f < k
  | .placing f n => f < n
  | .scanning f n d => f < n ∧ 1 ≤ d ∧ f + d ≤ n
  | .inside _ own => own = true
  | _ => True

theorem holds_num {p : Pc} {n : Nat} (h : holds? p = some n) : num? p = some n := by
  cases p with
  | inside m own => cases own <;> simp_all [holds?, num?]
  | _ => simp_all [holds?, num?]

/-- holds in every reachable state -/
structure Inv (σ : St ι) : Prop where
  ok : ∀ i, PcOK (σ.pc i)
  marker : ∀ n, σ.marker n = true ↔ ∃ i, num? (σ.pc i) = some n
  lock : ∀ n, σ.lock n = true ↔ ∃ i, holds? (σ.pc i) = some n
  uniq : ∀ i j n, num? (σ.pc i) = some n → num? (σ.pc j) = some n → i = j

theorem put_self {κ α : Type} [DecidableEq κ] (f : κ → α) (k : κ) (v : α) : put f k v k = v := by simp [put]
theorem put_ne {κ α : Type} [DecidableEq κ] (f : κ → α) {k x : κ} (v : α) (h : x ≠ k) : put f k v x = f x := by simp [put, h]

/-- a step that changes neither marker nor lock -/
theorem Inv.move {σ : St ι} (h : Inv σ) {i : ι} {p : Pc} {c : Nat} (hok : PcOK p) (hn : num? p = num? (σ.pc i))
    (hh : holds? p = holds? (σ.pc i)) : Inv { σ with count := c, pc := put σ.pc i p } := by
  have en : ∀ j, num? (put σ.pc i p j) = num? (σ.pc j) := fun j => by
    by_cases hj : j = i
    · subst hj; rw [put_self, hn]
    · rw [put_ne _ _ hj]
  have eh : ∀ j, holds? (put σ.pc i p j) = holds? (σ.pc j) := fun j => by
    by_cases hj : j = i
    · subst hj; rw [put_self, hh]
    · rw [put_ne _ _ hj]
  refine ⟨fun j => ?_, fun n => ?_, fun n => ?_, fun a b n => ?_⟩
  · by_cases hj : j = i
    · subst hj; show PcOK (put σ.pc j p j); rw [put_self]; exact hok
    · show PcOK (put σ.pc i p j); rw [put_ne _ _ hj]; exact h.ok j
  · simp only [en]; exact h.marker n
  · simp only [eh]; exact h.lock n
  · simp only [en]; exact h.uniq a b n

theorem inv_start (c0 : Nat) : Inv (start (ι := ι) c0) :=
  ⟨fun _ => trivial, fun n => by simp [start, num?], fun n => by simp [start, holds?], fun i j n => by simp [start, num?]⟩

theorem inv_next {σ : St ι} (h : Inv σ) (i : ι) : Inv (next σ i) := by
  have hi := h.ok i
  unfold next
  split
  · next e => exact h.move (c := σ.count) trivial (by rw [e]; rfl) (by rw [e]; rfl)
  · next e => exact h.move (c := σ.count) (Nat.lt_succ_self _) (by rw [e]; rfl) (by rw [e]; rfl)
  · next f k e =>
    rw [e] at hi
    have hi : f < k := hi
    split
    · exact h.move (c := σ.count) (show f < k + 1 by omega) (by rw [e]; rfl) (by rw [e]; rfl)
    · next hm =>
      have hfree : ∀ j, num? (σ.pc j) ≠ some k := fun j hj => hm ((h.marker k).2 ⟨j, hj⟩)
      refine ⟨fun j => ?_, fun n => ?_, fun n => ?_, fun a b n => ?_⟩
      · by_cases hj : j = i
        · subst hj; show PcOK (put σ.pc j _ j); rw [put_self]; exact hi
        · show PcOK (put σ.pc i _ j); rw [put_ne _ _ hj]; exact h.ok j
      · show put σ.marker k true n = true ↔ _
        dsimp only
        by_cases hn : n = k
        · subst hn; rw [put_self]; simp only [true_iff]; exact ⟨i, by rw [put_self]; rfl⟩
        · rw [put_ne _ _ hn, h.marker n]
          constructor
          · rintro ⟨j, hj⟩
            refine ⟨j, ?_⟩
            by_cases hji : j = i
            · subst hji; rw [e] at hj; simp [num?] at hj
            · rwa [put_ne _ _ hji]
          · rintro ⟨j, hj⟩
            by_cases hji : j = i
            · subst hji; rw [put_self] at hj; simp [num?] at hj; exact absurd hj.symm hn
            · rw [put_ne _ _ hji] at hj; exact ⟨j, hj⟩
      · show σ.lock n = true ↔ _
        dsimp only
        rw [h.lock n]
        have eh : ∀ j, holds? (put σ.pc i (.placing f k) j) = holds? (σ.pc j) := fun j => by
          by_cases hj : j = i
          · subst hj; rw [put_self, e]; rfl
          · rw [put_ne _ _ hj]
        simp only [eh]
      · show num? (put σ.pc i _ a) = some n → num? (put σ.pc i _ b) = some n → a = b
        by_cases ha : a = i <;> by_cases hb : b = i
        · intros; rw [ha, hb]
        · subst ha; rw [put_self, put_ne _ _ hb]; intro h1 h2; simp [num?] at h1; subst h1; exact absurd h2 (hfree b)
        · subst hb; rw [put_self, put_ne _ _ ha]; intro h1 h2; simp [num?] at h2; subst h2; exact absurd h1 (hfree a)
        · rw [put_ne _ _ ha, put_ne _ _ hb]; exact h.uniq a b n
  · next f n e =>
    rw [e] at hi
    have hi : f < n := hi
    have hno : σ.lock n = false := by
      by_contra hc
      obtain ⟨j, hj⟩ := (h.lock n).1 (by simpa using hc)
      have := h.uniq i j n (by rw [e]; rfl) (holds_num hj)
      subst this
      rw [e] at hj; simp [holds?] at hj
    rw [hno]
    simp only [Bool.false_eq_true, if_false]
    have en : ∀ j, num? (put σ.pc i (.scanning f n (n - f)) j) = num? (σ.pc j) := fun j => by
      by_cases hj : j = i
      · subst hj; rw [put_self, e]; rfl
      · rw [put_ne _ _ hj]
    refine ⟨fun j => ?_, fun m => ?_, fun m => ?_, fun a b m => ?_⟩
    · by_cases hj : j = i
      · subst hj; show PcOK (put σ.pc j _ j); rw [put_self]; exact ⟨hi, by omega, by omega⟩
      · show PcOK (put σ.pc i _ j); rw [put_ne _ _ hj]; exact h.ok j
    · simp only [en]; exact h.marker m
    · show put σ.lock n true m = true ↔ _
      dsimp only
      by_cases hm : m = n
      · subst hm; rw [put_self]; simp only [true_iff]; exact ⟨i, by rw [put_self]; rfl⟩
      · rw [put_ne _ _ hm, h.lock m]
        constructor
        · rintro ⟨j, hj⟩
          refine ⟨j, ?_⟩
          by_cases hji : j = i
          · subst hji; rw [e] at hj; simp [holds?] at hj
          · rwa [put_ne _ _ hji]
        · rintro ⟨j, hj⟩
          by_cases hji : j = i
          · subst hji; rw [put_self] at hj; simp [holds?] at hj; exact absurd hj.symm hm
          · rw [put_ne _ _ hji] at hj; exact ⟨j, hj⟩
    · simp only [en]; exact h.uniq a b m
  · next f n d e =>
    rw [e] at hi
    have hi : f < n ∧ 1 ≤ d ∧ f + d ≤ n := hi
    split
    · exact h.move (c := σ.count) (show PcOK (.scanning f n (n - f)) from ⟨hi.1, by omega, by omega⟩) (by rw [e]; rfl)
        (by rw [e]; rfl)
    · split
      · exact h.move (c := σ.count) rfl (by rw [e]; rfl) (by rw [e]; rfl)
      · exact h.move (c := σ.count) (show PcOK (.scanning f n (d - 1)) from ⟨hi.1, by omega, by omega⟩) (by rw [e]; rfl)
          (by rw [e]; rfl)
  · next n own e =>
    rw [e] at hi
    have hi : own = true := hi
    subst hi
    exact h.move trivial (by rw [e]; rfl) (by rw [e]; rfl)
  · next n e =>
    have en : ∀ j, num? (put σ.pc i (.unmarking n) j) = num? (σ.pc j) := fun j => by
      by_cases hj : j = i
      · subst hj; rw [put_self, e]; rfl
      · rw [put_ne _ _ hj]
    refine ⟨fun j => ?_, fun m => ?_, fun m => ?_, fun a b m => ?_⟩
    · by_cases hj : j = i
      · subst hj; show PcOK (put σ.pc j _ j); rw [put_self]; trivial
      · show PcOK (put σ.pc i _ j); rw [put_ne _ _ hj]; exact h.ok j
    · simp only [en]; exact h.marker m
    · show put σ.lock n false m = true ↔ _
      dsimp only
      by_cases hm : m = n
      · subst hm; rw [put_self]
        simp only [Bool.false_eq_true, false_iff]
        rintro ⟨j, hj⟩
        by_cases hji : j = i
        · subst hji; rw [put_self] at hj; simp [holds?] at hj
        · rw [put_ne _ _ hji] at hj
          exact hji (h.uniq j i m (holds_num hj) (by rw [e]; rfl))
      · rw [put_ne _ _ hm, h.lock m]
        constructor
        · rintro ⟨j, hj⟩
          refine ⟨j, ?_⟩
          by_cases hji : j = i
          · subst hji; rw [e] at hj; simp [holds?] at hj; exact absurd hj.symm hm
          · rwa [put_ne _ _ hji]
        · rintro ⟨j, hj⟩
          by_cases hji : j = i
          · subst hji; rw [put_self] at hj; simp [holds?] at hj
          · rw [put_ne _ _ hji] at hj; exact ⟨j, hj⟩
    · simp only [en]; exact h.uniq a b m
  · next n e =>
    refine ⟨fun j => ?_, fun m => ?_, fun m => ?_, fun a b m => ?_⟩
    · by_cases hj : j = i
      · subst hj; show PcOK (put σ.pc j _ j); rw [put_self]; trivial
      · show PcOK (put σ.pc i _ j); rw [put_ne _ _ hj]; exact h.ok j
    · show put σ.marker n false m = true ↔ _
      dsimp only
      by_cases hm : m = n
      · subst hm; rw [put_self]
        simp only [Bool.false_eq_true, false_iff]
        rintro ⟨j, hj⟩
        by_cases hji : j = i
        · subst hji; rw [put_self] at hj; simp [num?] at hj
        · rw [put_ne _ _ hji] at hj
          exact hji (h.uniq j i m hj (by rw [e]; rfl))
      · rw [put_ne _ _ hm, h.marker m]
        constructor
        · rintro ⟨j, hj⟩
          refine ⟨j, ?_⟩
          by_cases hji : j = i
          · subst hji; rw [e] at hj; simp [num?] at hj; exact absurd hj.symm hm
          · rwa [put_ne _ _ hji]
        · rintro ⟨j, hj⟩
          by_cases hji : j = i
          · subst hji; rw [put_self] at hj; simp [num?] at hj
          · rw [put_ne _ _ hji] at hj; exact ⟨j, hj⟩
    · show σ.lock m = true ↔ _
      dsimp only
      rw [h.lock m]
      have eh : ∀ j, holds? (put σ.pc i .out j) = holds? (σ.pc j) := fun j => by
        by_cases hj : j = i
        · subst hj; rw [put_self, e]; rfl
        · rw [put_ne _ _ hj]
      simp only [eh]
    · show num? (put σ.pc i _ a) = some m → num? (put σ.pc i _ b) = some m → a = b
      by_cases ha : a = i <;> by_cases hb : b = i
      · intros; rw [ha, hb]
      · subst ha; rw [put_self]; intro h1; simp [num?] at h1
      · subst hb; rw [put_self]; intro _ h2; simp [num?] at h2
      · rw [put_ne _ _ ha, put_ne _ _ hb]; exact h.uniq a b m

theorem inv_runs {σ : St ι} (h : Inv σ) (sched : List ι) : Inv (runs σ sched) := by
  induction sched generalizing σ with
  | nil => exact h
  | cons i t ih => exact ih (inv_next h i)

end Verif.Lemmas.LockTS
