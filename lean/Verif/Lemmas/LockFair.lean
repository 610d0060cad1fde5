import Verif.Lemmas.LockProgress
import Verif.Spec.LockFair
/-!
# `SlidingLock`: how often a waiting process is overtaken

For a slot `N`, every process that is about to use a slot `n < N` has a weight that covers all the slots below `N` that can be
used after it: when it leaves, all the processes that are then out may start from `n`, with slots above `n`.
-/
namespace Verif.Lemmas.LockTS
open Verif.Model.LockTS Verif.Spec.LockFair
variable {ι : Type} [DecidableEq ι]

/-- the weight of a process that uses, or tries, the slot `v` -/
def slotWeight (k N v : Nat) : Nat := bypassBound k (N - v)

/-- the weight of a process that will start from the count `c` -/
def countWeight (k N c : Nat) : Nat := if c < N then slotWeight k N (c + 1) + 1 else 0

def pcWeight (k N c : Nat) : Pc → Nat
  | .marking _ m => slotWeight k N m
  | .placing _ n => slotWeight k N n
  | .scanning _ n _ => slotWeight k N n
  | .inside n _ => slotWeight k N n
  | _ => countWeight k N c

def weight (k N : Nat) (L : List ι) (σ : St ι) : Nat := (L.map fun j => pcWeight k N σ.count (σ.pc j)).sum

theorem bypassBound_le_succ (k e : Nat) (hk : 1 ≤ k) : bypassBound k e < bypassBound k (e + 1) := by
  simp only [bypassBound]
  have : 1 * (bypassBound k e + 1) ≤ k * (bypassBound k e + 1) := Nat.mul_le_mul_right _ hk
  omega

theorem bypassBound_mono (k : Nat) (hk : 1 ≤ k) {a b : Nat} (h : a ≤ b) : bypassBound k a ≤ bypassBound k b := by
  induction h with
  | refl => exact Nat.le_refl _
  | step _ ih => exact Nat.le_trans ih (Nat.le_of_lt (bypassBound_le_succ k _ hk))

theorem slotWeight_anti (k N : Nat) (hk : 1 ≤ k) {v u : Nat} (h : v ≤ u) : slotWeight k N u ≤ slotWeight k N v :=
  bypassBound_mono k hk (by omega)

theorem slotWeight_lt {k N v : Nat} (h : v < N) : slotWeight k N v = k * countWeight k N v + 1 := by
  have : N - v = (N - (v + 1)) + 1 := by omega
  simp only [slotWeight, countWeight, if_pos h, this, bypassBound]

theorem countWeight_ge {k N v : Nat} (h : N ≤ v) : countWeight k N v = 0 := if_neg (by omega)

theorem sum_le_of {L : List ι} {f g : ι → Nat} (h : ∀ i, f i ≤ g i) : (L.map f).sum ≤ (L.map g).sum := by
  induction L with
  | nil => exact Nat.le_refl _
  | cons a t ih => simp only [List.map_cons, List.sum_cons]; have := h a; omega

theorem sum_split {L : List ι} (f : ι → Nat) {i : ι} (hi : i ∈ L) :
    (L.map fun j => if j = i then 0 else f j).sum + f i ≤ (L.map f).sum := by
  induction L with
  | nil => cases hi
  | cons a t ih =>
    simp only [List.map_cons, List.sum_cons]
    have hle : (t.map fun j => if j = i then 0 else f j).sum ≤ (t.map f).sum :=
      sum_le_of fun j => by split <;> omega
    by_cases ha : a = i
    · subst ha; rw [if_pos rfl]; omega
    · rw [if_neg ha]
      rcases List.mem_cons.1 hi with h | h
      · exact absurd h.symm ha
      · have := ih h; omega

theorem sum_add_const (L : List ι) (f : ι → Nat) (c : Nat) : (L.map fun j => f j + c).sum = (L.map f).sum + L.length * c := by
  induction L with
  | nil => simp
  | cons a t ih =>
    simp only [List.map_cons, List.sum_cons, List.length_cons, ih, Nat.add_mul, Nat.one_mul]; omega

/-- the steps that do not write the count -/
theorem weight_move {k N : Nat} {L : List ι} {σ τ : St ι} {i : ι} (hc : τ.count = σ.count) (hj : ∀ j, j ≠ i → τ.pc j = σ.pc j)
    (hi : pcWeight k N σ.count (τ.pc i) ≤ pcWeight k N σ.count (σ.pc i)) : weight k N L τ ≤ weight k N L σ := by
  unfold weight
  rw [hc]
  apply sum_le_of
  intro j
  by_cases h : j = i
  · subst h; exact hi
  · rw [hj j h]; exact Nat.le_refl _

/-- no step adds weight; leaving the critical section with a slot below `N` takes some away -/
theorem weight_next (N : Nat) (L : List ι) (σ : St ι) {i : ι} (hi : i ∈ L) :
    weight L.length N L (next σ i) + lowerExits N σ [i] ≤ weight L.length N L σ := by
  have hk : 1 ≤ L.length := List.length_pos_of_mem hi
  have hother : ∀ j, j ≠ i → (next σ i).pc j = σ.pc j := fun j h => next_pc_ne σ h
  by_cases hin : ∃ n own, σ.pc i = .inside n own
  · obtain ⟨n, own, e⟩ := hin
    have hcount : (next σ i).count = n := by simp [next, e]
    have hpc : (next σ i).pc i = if own then .unlocking n else .unmarking n := by simp [next, e, put_self]
    have hself : pcWeight L.length N n ((next σ i).pc i) = countWeight L.length N n := by
      rw [hpc]; cases own <;> rfl
    have hle : lowerExits N σ [i] = if n < N then 1 else 0 := by simp [lowerExits, e]
    rw [hle]
    by_cases hn : n < N
    · rw [if_pos hn]
      have h1 : weight L.length N L (next σ i) ≤
          (L.map fun j => (if j = i then 0 else pcWeight L.length N σ.count (σ.pc j)) + countWeight L.length N n).sum := by
        unfold weight
        rw [hcount]
        apply sum_le_of
        intro j
        by_cases h : j = i
        · subst h; rw [hself, if_pos rfl]; omega
        · rw [hother j h, if_neg h]
          cases hj : σ.pc j <;> simp only [pcWeight] <;> omega
      rw [sum_add_const] at h1
      have h2 := sum_split (L := L) (fun j => pcWeight L.length N σ.count (σ.pc j)) hi
      have h3 : pcWeight L.length N σ.count (σ.pc i) = L.length * countWeight L.length N n + 1 := by
        rw [e]; exact slotWeight_lt hn
      rw [h3] at h2
      unfold weight at h1 ⊢
      omega
    · rw [if_neg hn]
      have hz : countWeight L.length N n = 0 := countWeight_ge (by omega)
      show weight L.length N L (next σ i) ≤ _
      unfold weight
      rw [hcount]
      apply sum_le_of
      intro j
      by_cases h : j = i
      · subst h; rw [hself, hz]; omega
      · rw [hother j h]
        cases hj : σ.pc j <;> simp only [pcWeight] <;> omega
  · have hle : lowerExits N σ [i] = 0 := by
      cases e : σ.pc i with
      | inside n own => exact absurd ⟨n, own, e⟩ hin
      | _ => simp [lowerExits, e]
    rw [hle]
    show weight L.length N L (next σ i) ≤ _
    have hcount : (next σ i).count = σ.count := by
      cases e : σ.pc i with
      | inside n own => exact absurd ⟨n, own, e⟩ hin
      | _ => simp only [next, e] <;> (try split) <;> (try split) <;> rfl
    refine weight_move (i := i) hcount hother ?_
    cases e : σ.pc i with
    | out => simp [next, e, put_self, pcWeight]
    | reading =>
      have : (next σ i).pc i = .marking σ.count (σ.count + 1) := by simp [next, e, put_self]
      rw [this]
      simp only [pcWeight, countWeight]
      split
      · omega
      · rename_i h
        have : N - (σ.count + 1) = 0 := by omega
        simp [slotWeight, this, bypassBound]
    | marking f m =>
      by_cases hm : σ.marker m = true
      · have : (next σ i).pc i = .marking f (m + 1) := by simp [next, e, hm, put_self]
        rw [this]
        exact slotWeight_anti _ _ hk (by omega)
      · have : (next σ i).pc i = .placing f m := by simp [next, e, hm, put_self]
        rw [this]
        exact Nat.le_refl _
    | placing f n =>
      by_cases hl : σ.lock n = true
      · have : (next σ i).pc i = .inside n false := by simp [next, e, hl, put_self]
        rw [this]; exact Nat.le_refl _
      · have : (next σ i).pc i = .scanning f n (n - f) := by simp [next, e, hl, put_self]
        rw [this]; exact Nat.le_refl _
    | scanning f n d =>
      by_cases hl : σ.lock (f + (d - 1)) = true
      · have : (next σ i).pc i = .scanning f n (n - f) := by simp [next, e, hl, put_self]
        rw [this]; exact Nat.le_refl _
      · by_cases hd : d ≤ 1
        · have : (next σ i).pc i = .inside n true := by
            simp only [next, e]; rw [if_neg hl, if_pos hd]; exact put_self ..
          rw [this]; exact Nat.le_refl _
        · have : (next σ i).pc i = .scanning f n (d - 1) := by simp [next, e, hl, hd, put_self]
          rw [this]; exact Nat.le_refl _
    | inside n own => exact absurd ⟨n, own, e⟩ hin
    | unlocking n => simp [next, e, put_self, pcWeight]
    | unmarking n => simp [next, e, put_self, pcWeight]

theorem weight_runs (N : Nat) (L : List ι) (σ : St ι) (t : List ι) (ht : ∀ i ∈ t, i ∈ L) :
    weight L.length N L (runs σ t) + lowerExits N σ t ≤ weight L.length N L σ := by
  induction t generalizing σ with
  | nil => exact Nat.le_refl _
  | cons i t ih =>
    have h1 := weight_next N L σ (ht i (.head _))
    have h2 := ih (next σ i) fun j hj => ht j (.tail _ hj)
    have h3 : lowerExits N σ (i :: t) = lowerExits N σ [i] + lowerExits N (next σ i) t := by simp [lowerExits]
    rw [h3]
    show weight L.length N L (runs (next σ i) t) + _ ≤ _
    omega

theorem pcWeight_le (k N c : Nat) (hk : 1 ≤ k) (p : Pc) : pcWeight k N c p ≤ bypassBound k N + 1 := by
  have h : ∀ v, slotWeight k N v ≤ bypassBound k N := fun v => bypassBound_mono k hk (by omega)
  have hc : countWeight k N c ≤ bypassBound k N + 1 := by
    unfold countWeight
    split
    · have := h (c + 1); omega
    · omega
  cases p <;> simp only [pcWeight] <;> first | exact hc | exact Nat.le_succ_of_le (h _)

theorem weight_le (N : Nat) (L : List ι) (σ : St ι) (hk : 1 ≤ L.length) :
    weight L.length N L σ ≤ L.length * (bypassBound L.length N + 1) := by
  have : ∀ M : List ι, (M.map fun j => pcWeight L.length N σ.count (σ.pc j)).sum ≤ M.length * (bypassBound L.length N + 1) := by
    intro M
    induction M with
    | nil => simp
    | cons a t ih =>
      simp only [List.map_cons, List.sum_cons, List.length_cons, Nat.add_mul, Nat.one_mul]
      have := pcWeight_le L.length N σ.count hk (σ.pc a)
      omega
  exact this L

/-! ## Endless runs -/

theorem endless_runs (c0 : Nat) (sch : Nat → ι) (t : Nat) : endless c0 sch t = runs (start c0) ((List.range t).map sch) := by
  induction t with
  | zero => rfl
  | succ t ih => rw [List.range_succ, List.map_append, runs_append, ← ih]; rfl

theorem inv_endless (c0 : Nat) (sch : Nat → ι) (t : Nat) : Inv (endless c0 sch t) := by
  rw [endless_runs]; exact inv_runs (inv_start c0) _

/-- numbers that never grow stay the same from some time on -/
theorem settles (f : Nat → Nat) (h : ∀ t, f (t + 1) ≤ f t) : ∃ t0, ∀ t, t0 ≤ t → f t = f t0 := by
  have hle : ∀ a b, a ≤ b → f b ≤ f a := by
    intro a b hab
    induction hab with
    | refl => exact Nat.le_refl _
    | step _ ih => exact Nat.le_trans (h _) ih
  obtain ⟨m, ⟨t0, hm⟩, hmin⟩ := least (P := fun m => ∃ t, f t = m) ⟨0, rfl⟩
  refine ⟨t0, fun t ht => ?_⟩
  have h1 := hle t0 t ht
  have h2 := hmin (f t)
  by_contra hne
  exact h2 (by omega) ⟨t, rfl⟩

/-- a process does its next operation at some time, and has not moved until then -/
theorem next_turn {c0 : Nat} {sch : Nat → ι} (hf : Fair c0 sch) {t : Nat} {i : ι} (h : (endless c0 sch t).pc i ≠ .out) :
    ∃ u, t ≤ u ∧ sch u = i ∧ (endless c0 sch u).pc i = (endless c0 sch t).pc i := by
  obtain ⟨u0, hu0⟩ := hf t i h
  obtain ⟨u, ⟨hu1, hu2⟩, hmin⟩ := least (P := fun u => t ≤ u ∧ sch u = i) hu0
  refine ⟨u, hu1, hu2, ?_⟩
  have : ∀ s, t ≤ s → s ≤ u → (endless c0 sch s).pc i = (endless c0 sch t).pc i := by
    intro s hts
    induction hts with
    | refl => intro _; rfl
    | @step s hts ih =>
      intro hs
      have hts : t ≤ s := hts
      have hne : i ≠ sch s := fun hh => hmin s (by omega) ⟨hts, hh.symm⟩
      show (next (endless c0 sch s) (sch s)).pc i = _
      rw [next_pc_ne _ hne]
      exact ih (by omega)
  exact this u hu1 (Nat.le_refl _)

theorem support_endless (c0 : Nat) {sch : Nat → ι} {L : List ι} (hL : ∀ t, sch t ∈ L) (t : Nat) : Support (endless c0 sch t) L := by
  induction t with
  | zero => exact fun _ _ => rfl
  | succ t ih => exact support_next ih (hL t)

/-- has the slot `m`, and will look at the lock blocks from `f` on -/
def SlotOf (f m : Nat) (p : Pc) : Prop := p = .placing f m ∨ ∃ d, p = .scanning f m d

theorem SlotOf.num {f m : Nat} {p : Pc} (h : SlotOf f m p) : num? p = some m := by
  rcases h with h | ⟨d, h⟩ <;> rw [h] <;> rfl

theorem SlotOf.not_out {f m : Nat} {p : Pc} (h : SlotOf f m p) : p ≠ .out := by
  rcases h with h | ⟨d, h⟩ <;> rw [h] <;> simp

theorem slotted_of {p : Pc} (h : Slotted p) : ∃ f m, SlotOf f m p := by
  rcases h with ⟨f, n, h⟩ | ⟨f, n, d, h⟩
  · exact ⟨f, n, .inl h⟩
  · exact ⟨f, n, .inr ⟨d, h⟩⟩

theorem slot_step {σ : St ι} (i : ι) {j : ι} {f m : Nat} (h : SlotOf f m (σ.pc j)) :
    SlotOf f m ((next σ i).pc j) ∨ ∃ own, (next σ i).pc j = .inside m own := by
  by_cases hji : j = i
  · subst hji
    rcases h with e | ⟨d, e⟩
    · by_cases hl : σ.lock m = true
      · exact .inr ⟨false, by simp [next, e, hl, put_self]⟩
      · exact .inl (.inr ⟨m - f, by simp [next, e, hl, put_self]⟩)
    · by_cases hl : σ.lock (f + (d - 1)) = true
      · exact .inl (.inr ⟨m - f, by simp [next, e, hl, put_self]⟩)
      · by_cases hd : d ≤ 1
        · exact .inr ⟨true, by simp only [next, e]; rw [if_neg hl, if_pos hd]; exact put_self ..⟩
        · exact .inl (.inr ⟨d - 1, by simp only [next, e]; rw [if_neg hl, if_neg hd]; exact put_self ..⟩)
  · rw [next_pc_ne σ hji]; exact .inl h

theorem slot_stays {c0 : Nat} {sch : Nat → ι} {t : Nat} {j : ι} {f m : Nat} (h : SlotOf f m ((endless c0 sch t).pc j))
    (hn : ∀ u own, t ≤ u → (endless c0 sch u).pc j ≠ .inside m own) :
    ∀ u, t ≤ u → SlotOf f m ((endless c0 sch u).pc j) := by
  intro u hu
  induction hu with
  | refl => exact h
  | @step u hu ih =>
    have hu : t ≤ u := hu
    rcases slot_step (sch u) ih with h1 | ⟨own, h1⟩
    · exact h1
    · exact absurd h1 (hn (u + 1) own (by omega))

/-- a lock block that is not there is made only by a process that has its slot -/
theorem lock_stays_off {σ : St ι} {i : ι} {m : Nat} (hl : σ.lock m = false) (hno : ∀ f, σ.pc i ≠ .placing f m) :
    (next σ i).lock m = false := by
  cases e : σ.pc i with
  | placing f n =>
    have hne : m ≠ n := fun hh => hno f (hh ▸ e)
    by_cases h : σ.lock n = true
    · simp [next, e, h, hl]
    · simp [next, e, h, put_ne _ _ hne, hl]
  | unlocking n =>
    by_cases h : m = n
    · subst h; simp [next, e, put_self]
    · simp [next, e, put_ne _ _ h, hl]
  | _ => simp only [next, e] <;> (try split) <;> (try split) <;> exact hl

/-- no process with a slot below `m` has one to come: the lock blocks below `m` are gone for good at some time -/
theorem locks_clear {c0 : Nat} {sch : Nat → ι} (hf : Fair c0 sch) {t m : Nat}
    (hslot : ∀ u n f j, t ≤ u → n < m → ¬ SlotOf f n ((endless c0 sch u).pc j))
    (hin : ∀ u n j own, t ≤ u → n < m → (endless c0 sch u).pc j ≠ .inside n own) :
    ∃ t', t ≤ t' ∧ ∀ u, t' ≤ u → ∀ n, n < m → (endless c0 sch u).lock n = false := by
  have hstay : ∀ n, n < m → ∀ s, t ≤ s → (endless c0 sch s).lock n = false → ∀ u, s ≤ u → (endless c0 sch u).lock n = false := by
    intro n hn s hs h0 u hu
    induction hu with
    | refl => exact h0
    | @step u hu ih =>
      have hu : s ≤ u := hu
      exact lock_stays_off ih fun f e => hslot u n f _ (by omega) hn (.inl e)
  have hone : ∀ n, n < m → ∃ s, t ≤ s ∧ (endless c0 sch s).lock n = false := by
    intro n hn
    by_cases h0 : (endless c0 sch t).lock n = true
    · obtain ⟨j, hj⟩ := ((inv_endless c0 sch t).lock n).1 h0
      have e : (endless c0 sch t).pc j = .unlocking n := by
        cases e : (endless c0 sch t).pc j with
        | scanning f a d =>
          rw [e] at hj
          simp only [holds?, Option.some.injEq] at hj
          subst hj
          exact absurd (.inr ⟨d, e⟩) (hslot t a f j (Nat.le_refl _) hn)
        | inside a own =>
          rw [e] at hj
          cases own <;> simp only [holds?, Option.some.injEq, reduceCtorEq] at hj
          subst hj
          exact absurd e (hin t a j true (Nat.le_refl _) hn)
        | unlocking a => rw [e] at hj; simp only [holds?, Option.some.injEq] at hj; rw [hj]
        | _ => rw [e] at hj; simp [holds?] at hj
      obtain ⟨u, hu1, hu2, hu3⟩ := next_turn hf (t := t) (i := j) (by rw [e]; simp)
      refine ⟨u + 1, by omega, ?_⟩
      show (next (endless c0 sch u) (sch u)).lock n = false
      rw [hu2]
      simp [next, hu3, e, put_self]
    · exact ⟨t, Nat.le_refl _, by simpa using h0⟩
  have hall : ∀ b, b ≤ m → ∃ t', t ≤ t' ∧ ∀ u, t' ≤ u → ∀ n, n < b → (endless c0 sch u).lock n = false := by
    intro b
    induction b with
    | zero => exact fun _ => ⟨t, Nat.le_refl _, fun u _ n hn => absurd hn (by omega)⟩
    | succ b ih =>
      intro hb
      obtain ⟨t1, h1, h2⟩ := ih (by omega)
      obtain ⟨s, h3, h4⟩ := hone b (by omega)
      refine ⟨t1 + s, by omega, fun u hu n hn => ?_⟩
      by_cases hnb : n = b
      · subst hnb; exact hstay n (by omega) s h3 h4 u (by omega)
      · exact h2 u (by omega) n (by omega)
  exact hall m (Nat.le_refl _)

/-- nothing below its slot is locked any more: it gets inside -/
theorem gets_inside {c0 : Nat} {sch : Nat → ι} (hf : Fair c0 sch) {t : Nat} {j : ι} {f m : Nat}
    (h : SlotOf f m ((endless c0 sch t).pc j)) (hclear : ∀ u, t ≤ u → ∀ n, n < m → (endless c0 sch u).lock n = false) :
    ∃ u own, t ≤ u ∧ (endless c0 sch u).pc j = .inside m own := by
  have hscan : ∀ d t, (∀ u, t ≤ u → ∀ n, n < m → (endless c0 sch u).lock n = false) →
      (endless c0 sch t).pc j = .scanning f m d → ∃ u own, t ≤ u ∧ (endless c0 sch u).pc j = .inside m own := by
    intro d
    induction d using Nat.strongRecOn with
    | _ d ih =>
      intro t hclear e
      have hok : PcOK ((endless c0 sch t).pc j) := (inv_endless c0 sch t).ok j
      rw [e] at hok
      obtain ⟨h1, h2, h3⟩ := hok
      obtain ⟨u, hu1, hu2, hu3⟩ := next_turn hf (t := t) (i := j) (by rw [e]; simp)
      rw [e] at hu3
      have hl : ¬ (endless c0 sch u).lock (f + (d - 1)) = true := by
        rw [hclear u hu1 _ (by omega)]; simp
      by_cases hd : d ≤ 1
      · refine ⟨u + 1, true, by omega, ?_⟩
        show (next (endless c0 sch u) (sch u)).pc j = _
        rw [hu2]; simp only [next, hu3]; rw [if_neg hl, if_pos hd]; exact put_self ..
      · obtain ⟨v, own, hv1, hv2⟩ := ih (d - 1) (by omega) (u + 1) (fun w hw => hclear w (by omega)) (by
          show (next (endless c0 sch u) (sch u)).pc j = _
          rw [hu2]; simp only [next, hu3]; rw [if_neg hl, if_neg hd]; exact put_self ..)
        exact ⟨v, own, by omega, hv2⟩
  rcases h with e | ⟨d, e⟩
  · obtain ⟨u, hu1, hu2, hu3⟩ := next_turn hf (t := t) (i := j) (by rw [e]; simp)
    rw [e] at hu3
    rcases slot_step (σ := endless c0 sch u) (sch u) (.inl hu3) with h1 | ⟨own, h1⟩
    · rcases h1 with h1 | ⟨d, h1⟩
      · exfalso
        rw [hu2] at h1
        by_cases hl : (endless c0 sch u).lock m = true <;> simp [next, hu3, hl, put_self] at h1
      · obtain ⟨v, own, hv1, hv2⟩ := hscan d (u + 1) (fun w hw => hclear w (by omega)) h1
        exact ⟨v, own, by omega, hv2⟩
    · exact ⟨u + 1, own, by omega, h1⟩
  · exact hscan d t hclear e

/-- from some time on, no process is inside with a slot below `N` -/
theorem no_lower_inside {c0 : Nat} {sch : Nat → ι} {L : List ι} (hL : ∀ t, sch t ∈ L) (hf : Fair c0 sch) (N : Nat) :
    ∃ t0, ∀ u n j own, t0 ≤ u → n < N → (endless c0 sch u).pc j ≠ .inside n own := by
  have hstep := fun t => weight_next N L (endless c0 sch t) (hL t)
  obtain ⟨t0, h0⟩ := settles (fun t => weight L.length N L (endless c0 sch t)) fun t => by
    have : weight L.length N L (endless c0 sch (t + 1)) + _ ≤ _ := hstep t
    omega
  refine ⟨t0, fun u n j own hu hn e => ?_⟩
  obtain ⟨v, hv1, hv2, hv3⟩ := next_turn hf (t := u) (i := j) (by rw [e]; simp)
  have h1 : weight L.length N L (endless c0 sch (v + 1)) + lowerExits N (endless c0 sch v) [sch v] ≤ _ := hstep v
  have h2 : weight L.length N L (endless c0 sch v) = _ := h0 v (by omega)
  have h3 : weight L.length N L (endless c0 sch (v + 1)) = _ := h0 (v + 1) (by omega)
  have h4 : lowerExits N (endless c0 sch v) [sch v] = 1 := by
    simp [lowerExits, hv2, hv3, e, hn]
  omega

theorem slot_then_inside {c0 : Nat} {sch : Nat → ι} {L : List ι} (hL : ∀ t, sch t ∈ L) (hf : Fair c0 sch) {t : Nat} {i : ι}
    (h : Slotted ((endless c0 sch t).pc i)) : ∃ u, t ≤ u ∧ Within ((endless c0 sch u).pc i) := by
  by_contra hcon
  have hnever : ∀ u n own, t ≤ u → (endless c0 sch u).pc i ≠ .inside n own := fun u n own hu e => hcon ⟨u, hu, n, own, e⟩
  obtain ⟨f, N, hs⟩ := slotted_of h
  have hsi := slot_stays hs fun u own hu => hnever u N own hu
  obtain ⟨t0, h0⟩ := no_lower_inside hL hf N
  obtain ⟨m, ⟨u, hu, j, g, hj⟩, hmin⟩ := least (P := fun m => ∃ u, t + t0 ≤ u ∧ ∃ j g, SlotOf g m ((endless c0 sch u).pc j))
    (n := N) ⟨t + t0, Nat.le_refl _, i, f, hsi _ (by omega)⟩
  have hmN : m ≤ N := by
    by_contra hc
    exact hmin N (by omega) ⟨t + t0, Nat.le_refl _, i, f, hsi _ (by omega)⟩
  have hjn : ∀ v own, u ≤ v → (endless c0 sch v).pc j ≠ .inside m own := by
    intro v own hv
    by_cases hm : m < N
    · exact h0 v m j own (by omega) hm
    · have : m = N := by omega
      subst this
      have hji : j = i := (inv_endless c0 sch u).uniq j i m hj.num (hsi u (by omega)).num
      subst hji
      exact hnever v m own (by omega)
  obtain ⟨t', ht', hclear⟩ := locks_clear hf (t := u) (m := m)
    (fun v n g' j' hv hn hs' => hmin n hn ⟨v, by omega, j', g', hs'⟩)
    (fun v n j' own hv hn => h0 v n j' own (by omega) (by omega))
  obtain ⟨v, own, hv, he⟩ := gets_inside hf (slot_stays hj hjn t' ht') hclear
  exact hjn v own (by omega) he

theorem someone_inside {c0 : Nat} {sch : Nat → ι} {L : List ι} (hL : ∀ t, sch t ∈ L) (hf : Fair c0 sch) {t : Nat} {i : ι}
    (h : Asking ((endless c0 sch t).pc i)) : ∃ u j, t ≤ u ∧ Within ((endless c0 sch u).pc j) := by
  by_contra hcon
  have hnos : ∀ u j, t ≤ u → ¬ Slotted ((endless c0 sch u).pc j) := by
    intro u j hu hs
    obtain ⟨v, hv, hw⟩ := slot_then_inside hL hf hs
    exact hcon ⟨v, j, by omega, hw⟩
  obtain ⟨B, hB⟩ := slots_bounded (inv_endless c0 sch t) (support_endless c0 hL t)
  have hmk : ∀ u, t ≤ u → ∀ m, B < m → (endless c0 sch u).marker m = false := by
    intro u hu
    induction hu with
    | refl => exact hB
    | @step u hu ih =>
      have hu : t ≤ u := hu
      intro m hm
      have hm0 := ih m hm
      have hns : ¬ Slotted ((next (endless c0 sch u) (sch u)).pc (sch u)) := hnos (u + 1) (sch u) (by omega)
      show (next (endless c0 sch u) (sch u)).marker m = false
      cases e : (endless c0 sch u).pc (sch u) with
      | marking f k =>
        by_cases hk : (endless c0 sch u).marker k = true
        · simp [next, e, hk, hm0]
        · exact absurd (.inl ⟨f, k, by simp [next, e, hk, put_self]⟩) hns
      | unmarking n =>
        by_cases hmn : m = n
        · subst hmn; simp [next, e, put_self]
        · simp [next, e, put_ne _ _ hmn, hm0]
      | _ => simp only [next, e] <;> (try split) <;> (try split) <;> exact hm0
  have hmark : ∀ w u f k, t ≤ u → B + 1 - k = w → (endless c0 sch u).pc i = .marking f k → False := by
    intro w
    induction w with
    | zero =>
      intro u f k hu hw e
      obtain ⟨v, hv1, hv2, hv3⟩ := next_turn hf (t := u) (i := i) (by rw [e]; simp)
      have hk := hmk v (by omega) k (by omega)
      refine hnos (v + 1) i (by omega) (.inl ⟨f, k, ?_⟩)
      show (next (endless c0 sch v) (sch v)).pc i = _
      rw [hv2]
      simp [next, hv3, e, hk, put_self]
    | succ w ih =>
      intro u f k hu hw e
      obtain ⟨v, hv1, hv2, hv3⟩ := next_turn hf (t := u) (i := i) (by rw [e]; simp)
      by_cases hk : (endless c0 sch v).marker k = true
      · refine ih (v + 1) f (k + 1) (by omega) (by omega) ?_
        show (next (endless c0 sch v) (sch v)).pc i = _
        rw [hv2]
        simp [next, hv3, e, hk, put_self]
      · refine hnos (v + 1) i (by omega) (.inl ⟨f, k, ?_⟩)
        show (next (endless c0 sch v) (sch v)).pc i = _
        rw [hv2]
        simp [next, hv3, e, hk, put_self]
  rcases h with e | ⟨f, k, e⟩ | hs
  · obtain ⟨v, hv1, hv2, hv3⟩ := next_turn hf (t := t) (i := i) (by rw [e]; simp)
    refine hmark _ (v + 1) (endless c0 sch v).count ((endless c0 sch v).count + 1) (by omega) rfl ?_
    show (next (endless c0 sch v) (sch v)).pc i = _
    rw [hv2]
    simp [next, hv3, e, put_self]
  · exact hmark _ t f k (Nat.le_refl _) rfl e
  · exact hnos t i (Nat.le_refl _) hs

end Verif.Lemmas.LockTS
