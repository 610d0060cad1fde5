import Verif.Lemmas.LockQuiet
/-! # `SlidingLock`: progress, and dead holders -/
namespace Verif.Lemmas.LockTS
open Verif.Model.LockTS

variable {ι : Type} [DecidableEq ι]

/-- how far a process is from being out -/
def rank : Pc → Nat
  | .out => 0
  | .unmarking _ => 1
  | .unlocking _ => 2
  | .inside _ _ => 3
  | .scanning _ _ _ => 4
  | .placing _ _ => 5
  | .marking _ _ => 6
  | .reading => 7

def total (σ : St ι) (L : List ι) : Nat := (L.map fun i => rank (σ.pc i)).sum

theorem sum_lt {L : List ι} {f g : ι → Nat} (hle : ∀ i, f i ≤ g i) {i : ι} (hi : i ∈ L) (hlt : f i < g i) :
    (L.map f).sum < (L.map g).sum := by
  have hle' : ∀ L : List ι, (L.map f).sum ≤ (L.map g).sum := fun L => by
    induction L with
    | nil => simp
    | cons a t ih => simp only [List.map_cons, List.sum_cons]; have := hle a; omega
  induction L with
  | nil => simp at hi
  | cons a t ih =>
    simp only [List.map_cons, List.sum_cons]
    rcases List.mem_cons.1 hi with h | h
    · subst h; have := hle' t; omega
    · have := ih h; have := hle a; omega

/-- no process outside `L` is using the lock -/
def Support (σ : St ι) (L : List ι) : Prop := ∀ i, i ∉ L → σ.pc i = .out

theorem next_pc_ne (σ : St ι) {i j : ι} (h : j ≠ i) : (next σ i).pc j = σ.pc j := by
  unfold next
  split <;> (try split) <;> (try split) <;> simp only [put_ne _ _ h]

theorem support_next {σ : St ι} {L : List ι} (h : Support σ L) {i : ι} (hi : i ∈ L) : Support (next σ i) L := by
  intro j hj
  have hne : j ≠ i := fun e => hj (e ▸ hi)
  rw [next_pc_ne σ hne]
  exact h j hj

theorem support_runs {σ : St ι} {L : List ι} (h : Support σ L) (t : List ι) (ht : ∀ i ∈ t, i ∈ L) :
    Support (runs σ t) L := by
  induction t generalizing σ with
  | nil => exact h
  | cons i t ih => exact ih (support_next h (ht i List.mem_cons_self)) fun j hj => ht j (List.mem_cons_of_mem _ hj)

theorem support_start (c0 : Nat) (sched : List ι) : Support (runs (start c0) sched) sched :=
  support_runs (fun _ _ => rfl) sched fun _ h => h

/-- one step that brings its process closer -/
theorem total_next {σ : St ι} {L : List ι} {i : ι} (hi : i ∈ L) (h : rank ((next σ i).pc i) < rank (σ.pc i)) :
    total (next σ i) L < total σ L := by
  refine sum_lt (fun j => ?_) hi h
  by_cases hj : j = i
  · subst hj; exact Nat.le_of_lt h
  · rw [next_pc_ne σ hj]; exact Nat.le_refl _

/-- a bound on the slots in use -/
theorem slots_bounded {σ : St ι} {L : List ι} (h : Inv σ) (hs : Support σ L) : ∃ B, ∀ m, B < m → σ.marker m = false := by
  have : ∀ l : List ι, ∃ B, ∀ i ∈ l, ∀ n, num? (σ.pc i) = some n → n ≤ B := by
    intro l
    induction l with
    | nil => exact ⟨0, by simp⟩
    | cons a t ih =>
      obtain ⟨B, hB⟩ := ih
      refine ⟨B + (num? (σ.pc a)).getD 0, ?_⟩
      intro i hi n hn
      rcases List.mem_cons.1 hi with h | h
      · subst h; rw [hn]; simp
      · have := hB i h n hn; omega
  obtain ⟨B, hB⟩ := this L
  refine ⟨B, fun m hm => ?_⟩
  by_contra hc
  obtain ⟨i, hi⟩ := (h.marker m).1 (by simpa using hc)
  by_cases hL : i ∈ L
  · have := hB i hL m hi; omega
  · rw [hs i hL] at hi; simp [num?] at hi

/-- a process looking for a slot finds one -/
theorem marking_ends {σ : St ι} {i : ι} {f k B : Nat} (hB : ∀ m, B < m → σ.marker m = false) (e : σ.pc i = .marking f k) :
    ∃ n, rank ((runs σ (List.replicate n i)).pc i) < 6 ∧ ∀ j, j ≠ i → (runs σ (List.replicate n i)).pc j = σ.pc j := by
  generalize hw : B + 1 - k = w
  induction w generalizing σ k with
  | zero =>
    have hm : σ.marker k = false := hB k (by omega)
    refine ⟨1, ?_, fun j hj => next_pc_ne σ hj⟩
    simp [runs, next, e, hm, put_self, rank]
  | succ w ih =>
    by_cases hm : σ.marker k = true
    · have e1 : (next σ i).pc i = .marking f (k + 1) := by simp [next, e, hm, put_self]
      have hB1 : ∀ m, B < m → (next σ i).marker m = false := by simpa [next, e, hm] using hB
      obtain ⟨n, h1, h2⟩ := ih hB1 e1 (by omega)
      refine ⟨n + 1, h1, fun j hj => ?_⟩
      have := h2 j hj
      rw [next_pc_ne σ hj] at this
      exact this
    · rw [Bool.not_eq_true] at hm
      refine ⟨1, ?_, fun j hj => next_pc_ne σ hj⟩
      simp [runs, next, e, hm, put_self, rank]

/-- a process that finds no earlier lock block acquires -/
theorem scanning_ends {σ : St ι} {i : ι} {f n d : Nat} (hd : 1 ≤ d) (e : σ.pc i = .scanning f n d)
    (hl : ∀ m, f ≤ m → m < f + d → σ.lock m = false) :
    ∃ k, (runs σ (List.replicate k i)).pc i = .inside n true ∧
      ∀ j, j ≠ i → (runs σ (List.replicate k i)).pc j = σ.pc j := by
  induction d generalizing σ with
  | zero => omega
  | succ d ih =>
    have hm : σ.lock (f + d) = false := hl _ (by omega) (by omega)
    cases d with
    | zero =>
      refine ⟨1, ?_, fun j hj => next_pc_ne σ hj⟩
      have hm : σ.lock f = false := hm
      simp [runs, next, e, hm, put_self]
    | succ d =>
      have e1 : (next σ i).pc i = .scanning f n (d + 1) := by simp [next, e, hm, put_self]
      have hl1 : (next σ i).lock = σ.lock := by simp [next, e, hm]
      obtain ⟨k, h1, h2⟩ := ih (by omega) e1 (by rw [hl1]; exact fun m h1 h2 => hl m h1 (by omega))
      refine ⟨k + 1, h1, fun j hj => ?_⟩
      have := h2 j hj
      rw [next_pc_ne σ hj] at this
      exact this

/-- the smallest element of a nonempty bounded set of slots -/
theorem least {P : Nat → Prop} {n : Nat} (h : P n) : ∃ m, P m ∧ ∀ k, k < m → ¬ P k := by
  induction n using Nat.strongRecOn with
  | _ n ih =>
    by_cases hc : ∃ k, k < n ∧ P k
    · obtain ⟨k, hk, hp⟩ := hc; exact ih k hk hp
    · exact ⟨n, h, fun k hk hp => hc ⟨k, hk, hp⟩⟩

theorem total_of_runs {σ τ : St ι} {L : List ι} {i : ι} (hi : i ∈ L) (h : rank (τ.pc i) < rank (σ.pc i))
    (ho : ∀ j, j ≠ i → τ.pc j = σ.pc j) : total τ L < total σ L := by
  refine sum_lt (fun j => ?_) hi h
  by_cases hj : j = i
  · subst hj; exact Nat.le_of_lt h
  · rw [ho j hj]; exact Nat.le_refl _

/-- as long as some process is using the lock, some process can come closer to being out -/
theorem progress {σ : St ι} {L : List ι} (h : Inv σ) (hs : Support σ L) {i : ι} (hi : σ.pc i ≠ .out) :
    ∃ t, (∀ j ∈ t, j ∈ L) ∧ total (runs σ t) L < total σ L := by
  have mem : ∀ j, σ.pc j ≠ .out → j ∈ L := fun j hj => by by_contra hc; exact hj (hs j hc)
  by_cases hsimple : ∃ j, σ.pc j ≠ .out ∧ rank ((next σ j).pc j) < rank (σ.pc j)
  · obtain ⟨j, hj, hr⟩ := hsimple
    exact ⟨[j], by simpa using mem j hj, total_next (mem j hj) hr⟩
  by_cases hmark : ∃ j f k, σ.pc j = .marking f k
  · obtain ⟨j, f, k, e⟩ := hmark
    obtain ⟨B, hB⟩ := slots_bounded h hs
    obtain ⟨n, h1, h2⟩ := marking_ends hB e
    have hj : j ∈ L := mem j (by rw [e]; simp)
    exact ⟨List.replicate n j, fun x hx => by rw [List.eq_of_mem_replicate hx]; exact hj,
      total_of_runs hj (by rw [e]; exact h1) h2⟩
  -- all that use the lock are scanning
  have hscan : ∀ j, σ.pc j ≠ .out → ∃ f n d, σ.pc j = .scanning f n d := by
    intro j hj
    have hok := h.ok j
    cases e : σ.pc j with
    | out => exact absurd e hj
    | marking f k => exact absurd ⟨j, f, k, e⟩ hmark
    | scanning f n d => exact ⟨f, n, d, rfl⟩
    | reading => exact absurd ⟨j, hj, by simp [next, e, put_self, rank]⟩ hsimple
    | placing f n => exact absurd ⟨j, hj, by by_cases hl : σ.lock n = true <;> simp [next, e, hl, put_self, rank]⟩ hsimple
    | inside n own => exact absurd ⟨j, hj, by cases own <;> simp [next, e, put_self, rank]⟩ hsimple
    | unlocking n => exact absurd ⟨j, hj, by simp [next, e, put_self, rank]⟩ hsimple
    | unmarking n => exact absurd ⟨j, hj, by simp [next, e, put_self, rank]⟩ hsimple
  obtain ⟨f0, n0, d0, e0⟩ := hscan i hi
  obtain ⟨n, ⟨j, f, d, e⟩, hmin⟩ := least (P := fun n => ∃ j f d, σ.pc j = .scanning f n d) ⟨i, f0, d0, e0⟩
  have hok : PcOK (σ.pc j) := h.ok j
  rw [e] at hok
  obtain ⟨h1, h2, h3⟩ := hok
  obtain ⟨k, h4, h5⟩ := scanning_ends h2 e (by
    intro m hm1 hm2
    by_contra hc
    obtain ⟨a, ha⟩ := (h.lock m).1 (by simpa using hc)
    obtain ⟨fa, na, da, ea⟩ := hscan a (by intro ho; rw [ho] at ha; simp [holds?] at ha)
    rw [ea] at ha
    simp only [holds?, Option.some.injEq] at ha
    subst ha
    exact hmin na (by omega) ⟨a, fa, da, ea⟩)
  have hj : j ∈ L := mem j (by rw [e]; simp)
  exact ⟨List.replicate k j, fun x hx => by rw [List.eq_of_mem_replicate hx]; exact hj,
    total_of_runs hj (by rw [e, h4]; simp [rank]) h5⟩

theorem runs_append (σ : St ι) (a b : List ι) : runs σ (a ++ b) = runs (runs σ a) b := List.foldl_append

theorem all_finish {σ : St ι} {L : List ι} (h : Inv σ) (hs : Support σ L) :
    ∃ t, (∀ j ∈ t, j ∈ L) ∧ ∀ i, (runs σ t).pc i = .out := by
  generalize hw : total σ L = w
  induction w using Nat.strongRecOn generalizing σ with
  | _ w ih =>
    by_cases hex : ∃ i, σ.pc i ≠ .out
    · obtain ⟨i, hi⟩ := hex
      obtain ⟨t, ht, hlt⟩ := progress h hs hi
      obtain ⟨t', ht', h'⟩ := ih _ (by omega) (inv_runs h t) (support_runs hs t ht) rfl
      refine ⟨t ++ t', ?_, by rw [runs_append]; exact h'⟩
      intro j hj
      rcases List.mem_append.1 hj with hj | hj
      · exact ht j hj
      · exact ht' j hj
    · exact ⟨[], by simp, fun i => by by_contra hc; exact hex ⟨i, hc⟩⟩

/-- not yet inside -/
def waiting : Pc → Bool
  | .reading => true
  | .marking _ _ => true
  | .placing _ _ => true
  | .scanning _ _ _ => true
  | _ => false

/-- a process that waits and is later out has been inside in between -/
theorem waiting_then_inside {σ : St ι} {i : ι} (hw : waiting (σ.pc i) = true) (t : List ι)
    (ho : (runs σ t).pc i = .out) : ∃ t1 t2 n own, t = t1 ++ t2 ∧ (runs σ t1).pc i = .inside n own := by
  induction t generalizing σ with
  | nil => rw [show (runs σ []).pc i = σ.pc i from rfl] at ho; rw [ho] at hw; simp [waiting] at hw
  | cons j t ih =>
    by_cases hj : waiting ((next σ j).pc i) = true
    · obtain ⟨t1, t2, n, own, h1, h2⟩ := ih hj ho
      exact ⟨j :: t1, t2, n, own, by rw [h1]; rfl, h2⟩
    · by_cases hji : i = j
      · subst hji
        have : ∃ n own, (next σ i).pc i = .inside n own := by
          cases e : σ.pc i with
          | reading => simp [next, e, put_self, waiting] at hj
          | marking f k => by_cases hm : σ.marker k = true <;> simp [next, e, hm, put_self, waiting] at hj
          | placing f n =>
            by_cases hl : σ.lock n = true
            · exact ⟨n, false, by simp [next, e, hl, put_self]⟩
            · simp [next, e, hl, put_self, waiting] at hj
          | scanning f n d =>
            by_cases hl : σ.lock (f + (d - 1)) = true
            · simp [next, e, hl, put_self, waiting] at hj
            · by_cases hd : d ≤ 1
              · exact ⟨n, true, by simp only [next, e, hl, Bool.false_eq_true, if_false, hd, if_true, put_self]⟩
              · simp only [next, e, hl, Bool.false_eq_true, if_false, hd, put_self, waiting, not_true] at hj
          | _ => rw [e] at hw; simp [waiting] at hw
        obtain ⟨n, own, h⟩ := this
        exact ⟨[i], t, n, own, rfl, h⟩
      · rw [next_pc_ne σ hji] at hj; exact absurd hw hj

/-! ## dead holders -/

/-- the lock block `m` is there at every moment of the schedule -/
def LockStays (m : Nat) (σ : St ι) : List ι → Prop
  | [] => σ.lock m = true
  | i :: t => σ.lock m = true ∧ LockStays m (next σ i) t

/-- a process that has not looked at the lock block `m` yet, and will look at it before it acquires -/
def Behind (m : Nat) : Pc → Prop
  | .placing f n => f ≤ m ∧ m < n
  | .scanning f n d => f ≤ m ∧ m < n ∧ m < f + d
  | _ => False

theorem behind_stays {σ : St ι} (h : Inv σ) {i : ι} {m : Nat} (hb : Behind m (σ.pc i)) (t : List ι)
    (hl : LockStays m σ t) : Behind m ((runs σ t).pc i) := by
  induction t generalizing σ with
  | nil => exact hb
  | cons j t ih =>
    refine ih (inv_next h j) ?_ hl.2
    by_cases hji : i = j
    · subst hji
      have hlm := hl.1
      have hok := h.ok i
      cases e : σ.pc i with
      | placing f n =>
        rw [e] at hb
        obtain ⟨h1, h2⟩ := hb
        have hno : σ.lock n = false := by
          by_contra hc
          obtain ⟨j, hj⟩ := (h.lock n).1 (by simpa using hc)
          have := h.uniq i j n (by rw [e]; rfl) (holds_num hj)
          subst this
          rw [e] at hj; simp [holds?] at hj
        simp only [next, e, hno, Bool.false_eq_true, if_false, put_self]
        exact ⟨h1, h2, by omega⟩
      | scanning f n d =>
        rw [e] at hb hok
        obtain ⟨h1, h2, h3⟩ := hb
        obtain ⟨h4, h5, h6⟩ := hok
        by_cases hs : σ.lock (f + (d - 1)) = true
        · simp only [next, e, hs, if_true, put_self]
          exact ⟨h1, h2, by omega⟩
        · have hne : m ≠ f + (d - 1) := fun hc => hs (hc ▸ hlm)
          have hd : ¬ d ≤ 1 := by omega
          rw [Bool.not_eq_true] at hs
          simp only [next, e, hs, Bool.false_eq_true, if_false, hd, put_self]
          exact ⟨h1, h2, by omega⟩
      | _ => rw [e] at hb; exact hb.elim
    · rw [next_pc_ne σ hji]; exact hb

/-- not inside, and bound to have a slot above `m` -/
def Queued (m : Nat) : Pc → Prop
  | .out => True
  | .reading => True
  | .marking _ _ => True
  | .placing _ n => m < n
  | .scanning _ n _ => m < n
  | _ => False

theorem queued_stays {σ : St ι} (h : QInv σ) {i j : ι} {m : Nat} (ha : act? (σ.pc j) = some m)
    (hb : Queued m (σ.pc i)) (t : List ι) (hj : j ∉ t) (hq : QuietRun σ t) : Queued m ((runs σ t).pc i) := by
  induction t generalizing σ with
  | nil => exact hb
  | cons a t ih =>
    have haj : j ≠ a := fun e => hj (e ▸ List.mem_cons_self)
    have h' := qinv_next h hq.1
    have ha' : act? ((next σ a).pc j) = some m := by rw [next_pc_ne σ haj]; exact ha
    refine ih h' ha' ?_ (fun hm => hj (List.mem_cons_of_mem _ hm)) hq.2
    by_cases hai : i = a
    · subst hai
      have hA : Act (next σ i) m := ⟨j, ha'⟩
      have hA0 : Act σ m := ⟨j, ha⟩
      have hr := h'.rel i
      have hr0 := h.rel i
      cases e : σ.pc i with
      | out => simp [next, e, put_self, Queued]
      | reading => simp [next, e, put_self, Queued]
      | marking f k =>
        by_cases hm : σ.marker k = true
        · simp [next, e, hm, put_self, Queued]
        · rw [Bool.not_eq_true] at hm
          have e1 : (next σ i).pc i = .placing f k := by simp [next, e, hm, put_self]
          rw [e1] at hr ⊢
          have := hr.2 m hA
          have hne : m ≠ k := by
            rintro rfl
            have : σ.marker m = true := (h.marker m).2 ⟨j, act_num ha⟩
            rw [hm] at this; simp at this
          show m < k
          omega
      | placing f n =>
        rw [e] at hb
        have hno : σ.lock n = false := by
          by_contra hc
          obtain ⟨b, hb'⟩ := (h.lock n).1 (by simpa using hc)
          have := h.uniq i b n (by rw [e]; rfl) (holds_num hb')
          subst this
          rw [e] at hb'; simp [holds?] at hb'
        simp only [next, e, hno, Bool.false_eq_true, if_false, put_self]
        exact hb
      | scanning f n d =>
        rw [e] at hb
        have hb : m < n := hb
        by_cases hs : σ.lock (f + (d - 1)) = true
        · simp only [next, e, hs, if_true, put_self]; exact hb
        · rw [Bool.not_eq_true] at hs
          by_cases hd : d ≤ 1
          · have e1 : (next σ i).pc i = .inside n true := by
              simp only [next, e, hs, Bool.false_eq_true, if_false, hd, if_true, put_self]
            rw [e1] at hr
            have hr : n = (next σ i).count + 1 := hr
            have := h'.above m hA
            omega
          · simp only [next, e, hs, Bool.false_eq_true, if_false, hd, put_self]; exact hb
      | _ => rw [e] at hb; exact hb.elim
    · rw [next_pc_ne σ hai]; exact hb

end Verif.Lemmas.LockTS
