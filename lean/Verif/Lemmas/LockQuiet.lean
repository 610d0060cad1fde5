import Verif.Lemmas.LockTS
/-!
# `SlidingLock` when doorways are undisturbed

The doorway of a process is the stretch from reading the count block to creating its lock block.
-/
namespace Verif.Lemmas.LockTS
open Verif.Model.LockTS

variable {ι : Type} [DecidableEq ι]

/-- in the doorway: has read the count block, has not created its lock block -/
def inDoor : Pc → Bool
  | .marking _ _ => true
  | .placing _ _ => true
  | _ => false

/-- steps that do no harm to a process in its doorway: all but those of another doorway, and the one that leaves the
critical section by writing the count block -/
def calm : Pc → Bool
  | .out => true
  | .scanning _ _ _ => true
  | .unlocking _ => true
  | .unmarking _ => true
  | _ => false

/-- process `i` may move without disturbing a doorway -/
def Quiet (σ : St ι) (i : ι) : Prop := ∀ j, j ≠ i → inDoor (σ.pc j) = true → calm (σ.pc i) = true

/-- a schedule that disturbs no doorway -/
def QuietRun (σ : St ι) : List ι → Prop
  | [] => True
  | i :: t => Quiet σ i ∧ QuietRun (next σ i) t

/-- the slot of a process that has one and has not left the critical section -/
def act? : Pc → Option Nat
  | .placing _ n => some n
  | .scanning _ n _ => some n
  | .inside n _ => some n
  | _ => none

/-- slots of such processes -/
def Act (σ : St ι) (n : Nat) : Prop := ∃ i, act? (σ.pc i) = some n

theorem act_num {p : Pc} {n : Nat} (h : act? p = some n) : num? p = some n := by cases p <;> simp_all [act?, num?]

/-- what is known of a process in relation to the count and the slots in use -/
def D (c : Nat) (A : Nat → Prop) : Pc → Prop
  | .marking f k => f = c ∧ ∀ m, f < m → m < k → A m
  | .placing f n => f = c ∧ ∀ m, A m → m ≤ n
  | .scanning f n d => f ≤ c ∧ ∀ m, f + d ≤ m → m < n → ¬ A m
  | .inside n _ => n = c + 1
  | .unlocking n => n ≤ c
  | .unmarking n => n ≤ c
  | _ => True

/-- holds as long as no doorway is disturbed -/
structure QInv (σ : St ι) : Prop extends Inv σ where
  rel : ∀ i, D σ.count (Act σ) (σ.pc i)
  above : ∀ n, Act σ n → σ.count < n
  contig : ∀ n k, Act σ n → σ.count < k → k < n → Act σ k
  door : ∀ i j, inDoor (σ.pc i) = true → inDoor (σ.pc j) = true → i = j

theorem qinv_start (c0 : Nat) : QInv (start (ι := ι) c0) :=
  { inv_start c0 with
    rel := fun _ => trivial
    above := fun n ⟨i, h⟩ => by simp [start, act?] at h
    contig := fun n k ⟨i, h⟩ => by simp [start, act?] at h
    door := fun i j h => by simp [start, inDoor] at h }

/-- a move of one process that changes neither the count nor the slots in use -/
theorem QInv.move {σ : St ι} (h : QInv σ) {i : ι} {p : Pc} {mk lk : Nat → Bool}
    (hinv : Inv { σ with marker := mk, lock := lk, pc := put σ.pc i p }) (ha : act? p = act? (σ.pc i))
    (hD : D σ.count (Act σ) p) (hd : inDoor p = true → inDoor (σ.pc i) = true ∨ ∀ j, j ≠ i → inDoor (σ.pc j) = false) :
    QInv { σ with marker := mk, lock := lk, pc := put σ.pc i p } := by
  have ea : ∀ j, act? (put σ.pc i p j) = act? (σ.pc j) := fun j => by
    by_cases hj : j = i
    · subst hj; rw [put_self, ha]
    · rw [put_ne _ _ hj]
  have eA : Act { σ with marker := mk, lock := lk, pc := put σ.pc i p } = Act σ := by
    funext n; simp only [Act, ea]
  have hdoor : ∀ j, j ≠ i → inDoor p = true → inDoor (σ.pc j) = true → False := fun j hj h1 h2 => by
    rcases hd h1 with h3 | h3
    · exact hj (h.door j i h2 h3)
    · rw [h3 j hj] at h2; simp at h2
  refine { hinv with rel := fun j => ?_, above := ?_, contig := ?_, door := fun a b => ?_ }
  · show D σ.count (Act _) (put σ.pc i p j)
    rw [eA]
    by_cases hj : j = i
    · subst hj; rw [put_self]; exact hD
    · rw [put_ne _ _ hj]; exact h.rel j
  · rw [eA]; exact h.above
  · rw [eA]; exact h.contig
  · show inDoor (put σ.pc i p a) = true → inDoor (put σ.pc i p b) = true → a = b
    by_cases ha' : a = i <;> by_cases hb : b = i
    · intros; rw [ha', hb]
    · subst ha'; rw [put_self, put_ne _ _ hb]; intro h1 h2; exact (hdoor b hb h1 h2).elim
    · subst hb; rw [put_self, put_ne _ _ ha']; intro h1 h2; exact (hdoor a ha' h2 h1).elim
    · rw [put_ne _ _ ha', put_ne _ _ hb]; exact h.door a b

theorem qinv_next {σ : St ι} (h : QInv σ) {i : ι} (hq : Quiet σ i) : QInv (next σ i) := by
  have hinv := inv_next h.toInv i
  have hi := h.rel i
  have hok := h.ok i
  cases e : σ.pc i with
  | out =>
    simp only [next, e] at hinv ⊢
    exact h.move hinv (by rw [e]; rfl) trivial (by simp [inDoor])
  | reading =>
    simp only [next, e] at hinv ⊢
    refine h.move hinv (by rw [e]; rfl) ⟨rfl, fun m h1 h2 => by omega⟩ (fun _ => Or.inr fun j hj => ?_)
    by_contra hc
    have := hq j hj (by simpa using hc)
    rw [e] at this; simp [calm] at this
  | marking f k =>
    rw [e] at hi hok
    obtain ⟨rfl, hi⟩ := hi
    have hok : σ.count < k := hok
    by_cases hm : σ.marker k = true
    · simp only [next, e, hm, if_true] at hinv ⊢
      refine h.move hinv (by rw [e]; rfl) ⟨rfl, fun m h1 h2 => ?_⟩ (fun _ => Or.inl (by rw [e]; rfl))
      by_cases hmk : m = k
      · subst hmk
        obtain ⟨j, hj⟩ := (h.marker m).1 hm
        have hrj := h.rel j
        cases ej : σ.pc j with
        | placing f n => rw [ej] at hj; exact ⟨j, by rw [ej]; exact hj⟩
        | scanning f n d => rw [ej] at hj; exact ⟨j, by rw [ej]; exact hj⟩
        | inside n own => rw [ej] at hj; exact ⟨j, by rw [ej]; exact hj⟩
        | unlocking n =>
          rw [ej] at hj hrj; simp only [num?, Option.some.injEq] at hj; subst hj
          have : n ≤ σ.count := hrj
          omega
        | unmarking n =>
          rw [ej] at hj hrj; simp only [num?, Option.some.injEq] at hj; subst hj
          have : n ≤ σ.count := hrj
          omega
        | _ => rw [ej] at hj; simp [num?] at hj
      · exact hi m h1 (by omega)
    · have hnk : ¬ Act σ k := fun ⟨j, hj⟩ => hm ((h.marker k).2 ⟨j, act_num hj⟩)
      have hlt : ∀ m, Act σ m → m < k := fun m hA => by
        by_contra hc
        rcases Nat.lt_or_ge k m with hkm | hkm
        · exact hnk (h.contig m k hA hok hkm)
        · exact hnk ((show m = k by omega) ▸ hA)
      rw [Bool.not_eq_true] at hm
      simp only [next, e, hm, Bool.false_eq_true, if_false] at hinv ⊢
      have eA : ∀ m, Act { σ with marker := put σ.marker k true, pc := put σ.pc i (.placing σ.count k) } m ↔
          Act σ m ∨ m = k := by
        intro m
        constructor
        · rintro ⟨j, hj⟩
          simp only at hj
          by_cases hji : j = i
          · subst hji; rw [put_self] at hj; simp [act?] at hj; exact Or.inr hj.symm
          · rw [put_ne _ _ hji] at hj; exact Or.inl ⟨j, hj⟩
        · rintro (⟨j, hj⟩ | rfl)
          · refine ⟨j, ?_⟩
            simp only
            by_cases hji : j = i
            · subst hji; rw [e] at hj; simp [act?] at hj
            · rwa [put_ne _ _ hji]
          · exact ⟨i, by simp only [put_self]; rfl⟩
      refine { hinv with rel := fun j => ?_, above := fun m hA => ?_, contig := fun n m hA h1 h2 => ?_, door := fun a b => ?_ }
      · show D σ.count _ (put σ.pc i (.placing σ.count k) j)
        by_cases hji : j = i
        · subst hji
          rw [put_self]
          refine ⟨rfl, fun m hA => ?_⟩
          rcases (eA m).1 hA with hA | hA
          · exact Nat.le_of_lt (hlt m hA)
          · omega
        · rw [put_ne _ _ hji]
          have hr := h.rel j
          cases ej : σ.pc j with
          | marking f' k' => exact absurd (h.door j i (by rw [ej]; rfl) (by rw [e]; rfl)) hji
          | placing f' n' => exact absurd (h.door j i (by rw [ej]; rfl) (by rw [e]; rfl)) hji
          | scanning f' n' d' =>
            rw [ej] at hr
            refine ⟨hr.1, fun m h1 h2 hA => ?_⟩
            rcases (eA m).1 hA with hA | hA
            · exact hr.2 m h1 h2 hA
            · have := hlt n' ⟨j, by rw [ej]; rfl⟩
              omega
          | inside n' o' => rw [ej] at hr; exact hr
          | unlocking n' => rw [ej] at hr; exact hr
          | unmarking n' => rw [ej] at hr; exact hr
          | out => trivial
          | reading => trivial
      · rcases (eA m).1 hA with hA | hA
        · exact h.above m hA
        · show σ.count < m; omega
      · have h1 : σ.count < m := h1
        rw [eA]
        rcases (eA n).1 hA with hA | hA
        · exact Or.inl (h.contig n m hA h1 h2)
        · exact Or.inl (hi m h1 (by omega))
      · show inDoor (put σ.pc i _ a) = true → inDoor (put σ.pc i _ b) = true → a = b
        have : ∀ j, inDoor (put σ.pc i (.placing σ.count k) j) = inDoor (σ.pc j) := fun j => by
          by_cases hj : j = i
          · subst hj; rw [put_self, e]; rfl
          · rw [put_ne _ _ hj]
        rw [this, this]; exact h.door a b
  | placing f n =>
    rw [e] at hi hok
    obtain ⟨rfl, hi⟩ := hi
    have hno : σ.lock n = false := by
      by_contra hc
      obtain ⟨j, hj⟩ := (h.lock n).1 (by simpa using hc)
      have := h.uniq i j n (by rw [e]; rfl) (holds_num hj)
      subst this
      rw [e] at hj; simp [holds?] at hj
    simp only [next, e, hno, Bool.false_eq_true, if_false] at hinv ⊢
    have hok : σ.count < n := hok
    exact h.move hinv (by rw [e]; rfl) ⟨Nat.le_refl _, fun m h1 h2 => by omega⟩ (by simp [inDoor])
  | scanning f n d =>
    rw [e] at hi hok
    obtain ⟨hfc, hi⟩ := hi
    obtain ⟨hfn, hd1, hdn⟩ := hok
    have hAn : Act σ n := ⟨i, by rw [e]; rfl⟩
    by_cases hl : σ.lock (f + (d - 1)) = true
    · simp only [next, e, hl, if_true] at hinv ⊢
      exact h.move hinv (by rw [e]; rfl) ⟨hfc, fun m h1 h2 => by omega⟩ (by simp [inDoor])
    · have hlock : ∀ j, holds? (σ.pc j) ≠ some (f + (d - 1)) := fun j hj => hl ((h.lock _).2 ⟨j, hj⟩)
      rw [Bool.not_eq_true] at hl
      by_cases hd : d ≤ 1
      · simp only [next, e, hl, Bool.false_eq_true, if_false, hd, if_true] at hinv ⊢
        refine h.move hinv (by rw [e]; rfl) ?_ (by simp [inDoor])
        show n = σ.count + 1
        have := h.above n hAn
        by_contra hne
        exact hi (σ.count + 1) (by omega) (by omega) (h.contig n _ hAn (by omega) (by omega))
      · simp only [next, e, hl, Bool.false_eq_true, if_false, hd] at hinv ⊢
        refine h.move hinv (by rw [e]; rfl) ⟨hfc, fun m h1 h2 hA => ?_⟩ (by simp [inDoor])
        by_cases hm : f + d ≤ m
        · exact hi m hm h2 hA
        · have hm' : m = f + (d - 1) := by omega
          obtain ⟨j, hj⟩ := hA
          have hr := h.rel j
          have hoj := h.ok j
          cases ej : σ.pc j with
          | placing f' n' =>
            rw [ej] at hj hr; simp only [act?, Option.some.injEq] at hj
            have := hr.2 n hAn
            omega
          | scanning f' n' d' => rw [ej] at hj; exact hlock j (by rw [ej, ← hm']; exact hj)
          | inside n' o' =>
            rw [ej] at hj hoj
            have : o' = true := hoj
            subst this
            exact hlock j (by rw [ej, ← hm']; exact hj)
          | _ => rw [ej] at hj; simp [act?] at hj
  | inside n own =>
    rw [e] at hi hok
    have hi : n = σ.count + 1 := hi
    have hok : own = true := hok
    subst hok
    simp only [next, e, if_true] at hinv ⊢
    have hnodoor : ∀ j, inDoor (σ.pc j) = false := fun j => by
      by_contra hc
      have hc : inDoor (σ.pc j) = true := by simpa using hc
      by_cases hji : j = i
      · subst hji; rw [e] at hc; simp [inDoor] at hc
      · have := hq j hji hc; rw [e] at this; simp [calm] at this
    have hun : ∀ j, j ≠ i → act? (σ.pc j) ≠ some n := fun j hj ha =>
      hj (h.uniq j i n (act_num ha) (by rw [e]; rfl))
    have eA : ∀ m, Act { σ with count := n, pc := put σ.pc i (.unlocking n) } m → Act σ m ∧ m ≠ n := by
      rintro m ⟨j, hj⟩
      simp only at hj
      by_cases hji : j = i
      · subst hji; rw [put_self] at hj; simp [act?] at hj
      · rw [put_ne _ _ hji] at hj; exact ⟨⟨j, hj⟩, fun hm => hun j hji (hm ▸ hj)⟩
    have eA' : ∀ m, Act σ m → m ≠ n → Act { σ with count := n, pc := put σ.pc i (.unlocking n) } m := by
      rintro m ⟨j, hj⟩ hm
      refine ⟨j, ?_⟩
      simp only
      by_cases hji : j = i
      · subst hji; rw [e] at hj; simp [act?] at hj; exact absurd hj.symm hm
      · rwa [put_ne _ _ hji]
    refine { hinv with rel := fun j => ?_, above := fun m hA => ?_, contig := fun n' m hA h1 h2 => ?_, door := fun a b => ?_ }
    · show D n _ (put σ.pc i (.unlocking n) j)
      by_cases hji : j = i
      · subst hji; rw [put_self]; exact Nat.le_refl n
      · rw [put_ne _ _ hji]
        have hr := h.rel j
        have hnd := hnodoor j
        cases ej : σ.pc j with
        | marking f' k' => rw [ej] at hnd; simp [inDoor] at hnd
        | placing f' n' => rw [ej] at hnd; simp [inDoor] at hnd
        | scanning f' n' d' =>
          rw [ej] at hr
          exact ⟨by have := hr.1; omega, fun m h1 h2 hA => hr.2 m h1 h2 (eA m hA).1⟩
        | inside n' o' =>
          rw [ej] at hr
          have hr : n' = σ.count + 1 := hr
          exact absurd (by rw [ej, hr, ← hi]; rfl) (hun j hji)
        | unlocking n' => rw [ej] at hr; have hr : n' ≤ σ.count := hr; show n' ≤ n; omega
        | unmarking n' => rw [ej] at hr; have hr : n' ≤ σ.count := hr; show n' ≤ n; omega
        | out => trivial
        | reading => trivial
    · have := h.above m (eA m hA).1
      have := (eA m hA).2
      show n < m
      omega
    · have h1 : n < m := h1
      exact eA' m (h.contig n' m (eA n' hA).1 (by omega) h2) (by omega)
    · show inDoor (put σ.pc i _ a) = true → _
      by_cases ha : a = i
      · subst ha; rw [put_self]; simp [inDoor]
      · rw [put_ne _ _ ha, hnodoor a]; simp
  | unlocking n =>
    rw [e] at hi
    simp only [next, e] at hinv ⊢
    exact h.move hinv (by rw [e]; rfl) hi (by simp [inDoor])
  | unmarking n =>
    simp only [next, e] at hinv ⊢
    exact h.move hinv (by rw [e]; rfl) trivial (by simp [inDoor])

theorem qinv_runs {σ : St ι} (h : QInv σ) (sched : List ι) (hq : QuietRun σ sched) : QInv (runs σ sched) := by
  induction sched generalizing σ with
  | nil => exact h
  | cons i t ih => exact ih (qinv_next h hq.1) hq.2

end Verif.Lemmas.LockTS
