import Verif.Lemmas.SectRun
import Mathlib.Logic.Function.Iterate
import Mathlib.Algebra.BigOperators.Group.List.Lemmas
/-!
# A counter that processes increase under a claimed key
-/
namespace Verif.Lemmas
open Verif Verif.Model Verif.Spec
variable {V : Type}

/-- claims `lock`, trying `n` times; having it, replaces the value of `count` by the next and gives `lock` up -/
def bump (lock count : Key) (token : V) (next : V → V) : Nat → PadScript V Bool
  | 0 => .ret false
  | n + 1 => .call (.set lock token false) fun r => match r with
    | .error _ => bump lock count token next n
    | .ok _ => .call (.get count) fun r => match r with
      | .ok (.val v) => .call (.set count (next v) true) fun _ => .call (.del lock) fun _ => .ret true
      | _ => .call (.del lock) fun _ => .ret false

variable {lock count : Key} {token : V} {next : V → V} {guard : Str → Option Str} {nil : V → Bool}

theorem bump_plays {ok : Key → Prop} {good : V → Prop} (hl : ok lock) (hc : ok count) (ht : good token)
    (hn : ∀ v, good (next v)) (hg : guard count.text = some lock.text) (n : Nat) {held : Str → Prop} :
    (bump lock count token next n).PlaysBy guard ok good held := by
  induction n with
  | zero => trivial
  | succ n ih =>
    refine ⟨hl, ht, fun _ r => ?_, fun _ => ih⟩
    cases r with
    | error e => exact ⟨hl, Or.inl rfl, fun _ => trivial⟩
    | ok x =>
      cases x with
      | val v => exact ⟨hc, Or.inr ⟨_, hg, Or.inl rfl⟩, hn v, fun _ => ⟨hl, Or.inl rfl, fun _ => trivial⟩⟩
      | done => exact ⟨hl, Or.inl rfl, fun _ => trivial⟩
      | keys l => exact ⟨hl, Or.inl rfl, fun _ => trivial⟩

/-- what such a process does: it is refused some times; then, if it gets the key and sees a value, it sets the next one and
gives up the key -/
def Bumps (lock count : Str) (next : V → V) (nil : V → Bool) (b : Bool) : List (Str × Sect V) → Prop
  | [] => b = false
  | (k, .lost) :: t => k = lock ∧ Bumps lock count next nil b t
  | (k, .won sees) :: t => k = lock ∧ ∀ u, sees count = some u → nil u = false →
      b = true ∧ t = [(count, .put (next u)), (lock, .gave)]
  | _ => False

theorem bump_bumps (hg : guard count.text = some lock.text) (hne : count.text ≠ lock.text) (n : Nat)
    {calls : List (PadCall V × Except PyErr (PadOut V))} {b : Bool} (h : (bump lock count token next n).Follows calls b)
    {st st' : Str → Option V} {es : List (Str × Sect V)} (hl : SectLegal nil guard st calls es st') :
    Bumps lock.text count.text next nil b es := by
  induction n generalizing calls st es with
  | zero =>
    cases calls with
    | nil => obtain ⟨rfl, rfl⟩ := hl; exact Eq.symm h
    | cons => exact h.elim
  | succ n ih =>
    cases calls with
    | nil => exact h.elim
    | cons x t =>
      obtain ⟨o, r⟩ := x
      obtain ⟨rfl, h⟩ := h
      obtain ⟨st1, ev, es1, h1, rfl, h2⟩ := hl
      rcases h1 with ⟨rfl, _, sees, rfl, rfl⟩ | ⟨rfl, rfl, rfl⟩
      · refine ⟨rfl, fun u hu hnu => ?_⟩
        simp only at h
        cases t with
        | nil => exact h.elim
        | cons y t =>
          obtain ⟨o1, r1⟩ := y
          obtain ⟨rfl, h⟩ := h
          obtain ⟨st2, ev2, es2, ⟨rfl, rfl, h3⟩, rfl, h4⟩ := h2
          have := h3 u (by simp only [if_neg hne, hg, if_true]; exact hu)
          simp only [ownGet, hnu, Bool.false_eq_true, if_false] at this
          subst this
          simp only at h
          cases t with
          | nil => exact h.elim
          | cons z t =>
            obtain ⟨o2, r2⟩ := z
            obtain ⟨rfl, h⟩ := h
            obtain ⟨st3, ev3, es3, ⟨rfl, rfl, rfl⟩, rfl, h5⟩ := h4
            cases t with
            | nil => exact h.elim
            | cons z t =>
              obtain ⟨o3, r3⟩ := z
              obtain ⟨rfl, h⟩ := h
              obtain ⟨st4, ev4, es4, ⟨rfl, rfl, rfl⟩, rfl, h6⟩ := h5
              cases t with
              | nil =>
                obtain ⟨rfl, rfl⟩ := h6
                exact ⟨Eq.symm h, by simp [hg]⟩
              | cons => exact h.elim
      · exact ⟨rfl, ih h h2⟩

def isPut : Sect V → Bool
  | .put _ => true
  | _ => false

/-- what a process has still to do while it does not have the key -/
def BumpIdle (lock count : Str) (next : V → V) (nil : V → Bool) (b : Bool) (es : List (Str × Sect V)) : Prop :=
  Bumps lock count next nil b es ∨ es = []

/-- what the processes have still to do, when the key is free or taken -/
def Bumping (lock count : Str) (next : V → V) (nil : V → Bool) (bs : Nat → Bool) (T : Str → Holder) (R : Str → Option V)
    (rem : Nat → List (Str × Sect V)) : Prop :=
  (T lock = .free ∧ (∃ u, R count = some u ∧ nil u = false) ∧ ∀ i, BumpIdle lock count next nil (bs i) (rem i)) ∨
  ∃ i, T lock = .by i ∧ (∀ j, j ≠ i → BumpIdle lock count next nil (bs j) (rem j)) ∧ ∃ u, R count = some u ∧ nil u = false ∧
    (rem i = [(count, .put (next u)), (lock, .gave)] ∨ rem i = [(lock, .gave)])

theorem BumpIdle.cons {lock count : Str} {b : Bool} {x : Str × Sect V} {t : List (Str × Sect V)}
    (h : BumpIdle lock count next nil b (x :: t)) : Bumps lock count next nil b (x :: t) :=
  h.elim id (nomatch ·)

theorem sectsOf_cons (i j : Nat) (k : Str) (g : Sect V) (t : List (Nat × Str × Sect V)) :
    sectsOf j ((i, k, g) :: t) = if i = j then (k, g) :: sectsOf j t else sectsOf j t := by
  unfold sectsOf
  rw [List.filter_cons]
  by_cases h : i = j <;> simp [h]

theorem counted {lock count : Str} (hg : guard count = some lock) (hnx : ∀ v, nil (next v) = false) (bs : Nat → Bool)
    {events : List (Nat × Str × Sect V)} {T T' : Str → Holder} {R R' : Str → Option V}
    (hl : LegalSects guard T R events T' R') (hb : Bumping lock count next nil bs T R fun i => sectsOf i events) :
    R' count = (R count).map (next^[events.countP fun e => isPut e.2.2]) ∧ T' lock = .free ∧
      ∀ e ∈ events, ∀ sees, e.2.2 = .won sees → ∃ u, sees count = some u ∧ nil u = false := by
  induction events generalizing T R with
  | nil =>
    obtain ⟨rfl, rfl⟩ := hl
    refine ⟨by simp, ?_, by simp⟩
    rcases hb with ⟨h1, _⟩ | ⟨i, _, _, u, _, _, h | h⟩
    · exact h1
    · simp [sectsOf] at h
    · simp [sectsOf] at h
  | cons e t ih =>
    obtain ⟨i, k, g⟩ := e
    have hothers : ∀ j, j ≠ i → sectsOf j ((i, k, g) :: t) = sectsOf j t := fun j hj => by
      rw [sectsOf_cons, if_neg (Ne.symm hj)]
    have hself : sectsOf i ((i, k, g) :: t) = (k, g) :: sectsOf i t := by rw [sectsOf_cons, if_pos rfl]
    rcases hb with ⟨hfree, ⟨u, hu, hnu⟩, hall⟩ | ⟨i0, hby, hall, u, hu, hnu, hrem⟩
    · have hi := hall i
      simp only [hself] at hi
      replace hi := hi.cons
      cases g with
      | lost =>
        obtain ⟨rfl, _⟩ := hi
        exact absurd hfree hl.1
      | put v => exact hi.elim
      | gave => exact hi.elim
      | won sees =>
        obtain ⟨rfl, hi⟩ := hi
        obtain ⟨_, h2, h3⟩ := hl
        have hsee : sees count = some u := (h2 count hg).trans hu
        obtain ⟨_, hi⟩ := hi u hsee hnu
        obtain ⟨a1, a2, a3⟩ := ih h3 (Or.inr ⟨i, by simp [holderPut], fun j hj => by
          have := hall j
          simp only [hothers j hj] at this
          exact this, u, hu, hnu, Or.inl hi⟩)
        refine ⟨by rw [a1]; rfl, a2, fun e he => ?_⟩
        rcases List.mem_cons.1 he with rfl | he
        · rintro sees' hs
          injection hs with hs
          subst hs
          exact ⟨u, hsee, hnu⟩
        · exact a3 e he
    · by_cases hi : i = i0
      · subst hi
        simp only [hself] at hrem
        rcases hrem with hrem | hrem
        · injection hrem with h1 h2
          injection h1 with h1 h1'
          subst h1 h1'
          obtain ⟨_, h3⟩ := hl
          obtain ⟨a1, a2, a3⟩ := ih h3 (Or.inr ⟨i, hby, fun j hj => by
            have := hall j hj
            simp only [hothers j hj] at this
            exact this, next u, by simp [ownPut], hnx u, Or.inr h2⟩)
          refine ⟨?_, a2, fun e he => ?_⟩
          · rw [a1, hu, List.countP_cons]
            simp [ownPut, isPut, Function.iterate_succ]
          · rcases List.mem_cons.1 he with rfl | he
            · rintro sees' hs; cases hs
            · exact a3 e he
        · injection hrem with h1 h2
          injection h1 with h1 h1'
          subst h1 h1'
          obtain ⟨_, h3⟩ := hl
          obtain ⟨a1, a2, a3⟩ := ih h3 (Or.inl ⟨by simp [holderPut], ⟨u, hu, hnu⟩, fun j => by
            by_cases hj : j = i
            · subst hj
              exact Or.inr h2
            · have := hall j hj
              simp only [hothers j hj] at this
              exact this⟩)
          refine ⟨by rw [a1]; rfl, a2, fun e he => ?_⟩
          rcases List.mem_cons.1 he with rfl | he
          · rintro sees' hs; cases hs
          · exact a3 e he
      · have hb := hall i hi
        simp only [hself] at hb
        replace hb := hb.cons
        have hothers0 : sectsOf i0 ((i, k, g) :: t) = sectsOf i0 t := hothers i0 (Ne.symm hi)
        simp only [hothers0] at hrem
        cases g with
        | lost =>
          obtain ⟨rfl, hb⟩ := hb
          obtain ⟨_, h3⟩ := hl
          obtain ⟨a1, a2, a3⟩ := ih h3 (Or.inr ⟨i0, hby, fun j hj => by
            by_cases hji : j = i
            · subst hji; exact Or.inl hb
            · have := hall j hj
              simp only [hothers j hji] at this
              exact this, u, hu, hnu, hrem⟩)
          refine ⟨by rw [a1]; rfl, a2, fun e he => ?_⟩
          rcases List.mem_cons.1 he with rfl | he
          · rintro sees' hs; cases hs
          · exact a3 e he
        | put v => exact hb.elim
        | gave => exact hb.elim
        | won sees =>
          obtain ⟨rfl, _⟩ := hb
          have := hl.1
          rw [hby] at this
          cases this

theorem bumps_puts {lock count : Str} {b : Bool} {es : List (Str × Sect V)} (h : Bumps lock count next nil b es)
    (hw : ∀ e ∈ es, ∀ sees, e.2 = .won sees → ∃ u, sees count = some u ∧ nil u = false) :
    (es.countP fun e => isPut e.2) = if b then 1 else 0 := by
  induction es with
  | nil => cases h; rfl
  | cons e t ih =>
    obtain ⟨k, g⟩ := e
    cases g with
    | lost =>
      rw [List.countP_cons, ih h.2 fun e he => hw e (List.mem_cons_of_mem _ he)]
      simp [isPut]
    | won sees =>
      obtain ⟨u, h1, h2⟩ := hw _ (List.mem_cons_self ..) sees rfl
      obtain ⟨rfl, rfl⟩ := h.2 u h1 h2
      simp [isPut]
    | put v => exact h.elim
    | gave => exact h.elim

/-- counting events is counting those of each process -/
theorem countP_sects (q : Sect V → Bool) (n : Nat) (events : List (Nat × Str × Sect V)) (hn : ∀ e ∈ events, e.1 < n) :
    (events.countP fun e => q e.2.2) =
      ((List.range n).map fun i => (sectsOf i events).countP fun e => q e.2).sum := by
  induction events with
  | nil => simp [sectsOf]
  | cons e t ih =>
    obtain ⟨i, k, g⟩ := e
    rw [List.countP_cons, ih fun e he => hn e (List.mem_cons_of_mem _ he)]
    have hi : i < n := hn _ (List.mem_cons_self ..)
    have h1 : ((List.range n).map fun j => (sectsOf j ((i, k, g) :: t)).countP fun e => q e.2) =
        (List.range n).map fun j => ((sectsOf j t).countP fun e => q e.2) + if i = j then (if q g then 1 else 0) else 0 := by
      refine List.map_congr_left fun j _ => ?_
      rw [sectsOf_cons]
      by_cases h : i = j
      · rw [if_pos h, if_pos h, List.countP_cons]
      · rw [if_neg h, if_neg h]; rfl
    rw [h1, List.sum_map_add]
    congr 1
    have h2 : ∀ l : List Nat, l.Nodup →
        (l.map fun j => if i = j then (if q g then 1 else 0) else 0).sum = if i ∈ l then (if q g then 1 else 0) else 0 := by
      intro l hl
      induction l with
      | nil => rfl
      | cons a l ihl =>
        obtain ⟨ha, hl⟩ := List.nodup_cons.1 hl
        rw [List.map_cons, List.sum_cons, ihl hl]
        by_cases h : i = a
        · subst h; simp [ha]
        · simp [h]
    rw [h2 _ List.nodup_range, if_pos (List.mem_range.2 hi)]

end Verif.Lemmas
