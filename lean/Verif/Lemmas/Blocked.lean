import Verif.Lemmas.LockSeq
/-! # A lock that is never released: everyone who comes later waits for ever -/
namespace Verif.Lemmas
open Verif Verif.Model
variable {α : Type} {E : Env}

/-- the holder of number `fl + 1` has not let go; the numbers up to `n` are taken, from `n` on they are free -/
structure Blocked (s : Store) (name : Str) (fl n : Nat) : Prop where
  count : ∃ b, s.content (countAddr name) = some b ∧ fromLE b = fl
  two : fl + 2 ≤ n
  held : s.content (lockAddr name (fl + 1)) ≠ none
  taken : ∀ k, fl < k → k < n → s.content (markerAddr name k) ≠ none
  free : ∀ k, n ≤ k → s.content (markerAddr name k) = none ∧ s.content (lockAddr name k) = none

theorem names_of_ne_none {s : Store} {x : Str} (h : s.content x ≠ none) : ∃ i, s.names x = some i := by
  cases hn : s.names x with
  | none => exact absurd (content_none.2 hn) h
  | some i => exact ⟨i, rfl⟩

theorem run_renumber_blocked {s : Store} {name : Str} {fl n : Nat} (hb : Blocked s name fl n) (hok : NamesOK E name)
    (hn : n < 256 ^ 8) (fuel k : Nat) (hk : fl < k) (hkn : k ≤ n) :
    (renumber name fuel k).run E s = (.stuck, s) ∨
    (renumber name fuel k).run E s = (.ok n, s.created (markerAddr name n) 1) := by
  induction fuel generalizing k with
  | zero => exact Or.inl rfl
  | succ f ih =>
    rw [renumber, run_bind, run_attempt]
    by_cases hkn' : k = n
    · subst hkn'
      right
      rw [run_create (by omega) (hok.marker _ hn) (content_none.1 (hb.free k (Nat.le_refl _)).1)]
      rfl
    · obtain ⟨i, hi⟩ := names_of_ne_none (hb.taken k hk (by omega))
      rw [run_create_exists (by omega) (hok.marker _ (by omega)) hi]
      exact ih (k + 1) (by omega) (by omega)

theorem run_scan_blocked {s : Store} {name : Str} {fl : Nat} (hheld : s.content (lockAddr name (fl + 1)) ≠ none)
    (hok : NamesOK E name) (d : Nat) (hd : 2 ≤ d) (hb : fl + d < 256 ^ 8) :
    (scanLocks name fl d).run E s = (.ok false, s) := by
  induction d with
  | zero => omega
  | succ d ih =>
    rw [scanLocks, run_bind, run_existsBlock s (hok.lock _ (by omega)), andThen_ok]
    cases hx : s.names (lockAddr name (fl + d)) with
    | some i => rfl
    | none =>
      have h2 : 2 ≤ d := by
        by_contra hc
        have : d = 1 := by omega
        subst this
        exact hheld (content_none.2 hx)
      simp only [Option.isSome_none, Bool.false_eq_true, if_false]
      exact ih h2 (by omega)

theorem run_spin_blocked {s : Store} {name : Str} {fl number : Nat}
    (hheld : s.content (lockAddr name (fl + 1)) ≠ none) (hok : NamesOK E name) (hn : fl + 2 ≤ number)
    (hb : number < 256 ^ 8) (fuel : Nat) : (spin name fl number fuel).run E s = (.stuck, s) := by
  induction fuel with
  | zero => rfl
  | succ f ih =>
    rw [spin, run_bind, run_scan_blocked hheld hok _ (by omega) (by omega), andThen_ok]
    simpa using ih

/-- entering a lock that is not released never ends, and leaves it no freer -/
theorem run_lockEnter_blocked {s : Store} (w : s.WF) {name : Str} {fl n : Nat} (hb : Blocked s name fl n)
    (hok : NamesOK E name) (hn : n < 256 ^ 8) (fuel : Nat) :
    ∃ s' n', (lockEnter fuel name).run E s = (.stuck, s') ∧ s'.WF ∧ Blocked s' name fl n' ∧ n' ≤ n + 1 ∧
      SameOff (lockNames name) s s' := by
  obtain ⟨b, hcb, hfl⟩ := hb.count
  obtain ⟨c, hc, hcs⟩ := names_of_content hcb
  have two := hb.two
  have pre : (lockEnter fuel name).run E s = andThen E ((renumber name fuel (fl + 1)).run E s) (fun number => do
      match ← (create (lockAddr name number) 1).attempt with
      | .ok _ => do
        spin name fl number fuel
        pure { count := c, number, own := true }
      | .error .fileExists => pure { count := c, number, own := false }
      | .error e => do
        unlink (markerAddr name number)
        .raise e) := by
    rw [lockEnter, run_bind, run_openBlock_attach (by omega) hok.count hc, andThen_ok, run_bind, run_read, andThen_ok,
      hcs, hfl, run_bind]
    rfl
  rcases run_renumber_blocked hb hok hn fuel (fl + 1) (by omega) (by omega) with h | h
  · exact ⟨s, n, by rw [pre, h]; rfl, w, hb, by omega, SameOff.refl _ _⟩
  · have f1 := eff_created w (markerAddr name n) 1
    have hl : (s.created (markerAddr name n) 1).content (lockAddr name n) = none := by
      rw [f1.content, if_neg (by simp only [addr_lock, addr_marker, addr_inj]; simp)]; exact (hb.free n (Nat.le_refl _)).2
    have f2 := eff_created f1.wf (lockAddr name n) 1
    have hc2 : ∀ x, ((s.created (markerAddr name n) 1).created (lockAddr name n) 1).content x =
        if x = lockAddr name n then some [0] else if x = markerAddr name n then some [0] else s.content x := by
      intro x; rw [f2.content, f1.content]; rfl
    have hheld : ((s.created (markerAddr name n) 1).created (lockAddr name n) 1).content (lockAddr name (fl + 1)) ≠ none := by
      rw [hc2]
      split
      · simp
      · rw [if_neg (by simp only [addr_lock, addr_marker, addr_inj]; simp)]; exact hb.held
    refine ⟨_, n + 1, ?_, f2.wf, ⟨⟨b, ?_, hfl⟩, by omega, hheld, ?_, ?_⟩, Nat.le_refl _,
      (f1.sameOff (lockNames_marker name n)).trans (f2.sameOff (lockNames_lock name n))⟩
    · rw [pre, h, andThen_ok, run_bind, run_attempt, run_create (by omega) (hok.lock _ hn) (content_none.1 hl), asValue_ok,
        andThen_ok]
      simp only []
      rw [run_bind, run_spin_blocked hheld hok two hn, andThen_stuck]
    · rw [hc2, if_neg (by simp only [addr_lock, addr_count, addr_inj]; simp),
        if_neg (by simp only [addr_marker, addr_count, addr_inj]; simp)]
      exact hcb
    · intro k h1 h2
      rw [hc2, if_neg (by simp only [addr_lock, addr_marker, addr_inj]; simp)]
      simp only [addr_marker, addr_inj, Slot.marker.injEq]
      by_cases hk : k = n
      · simp [hk]
      · rw [if_neg hk]; exact hb.taken k h1 (by omega)
    · intro k hk
      have hne : k ≠ n := by omega
      refine ⟨?_, ?_⟩
      · rw [hc2, if_neg (by simp only [addr_lock, addr_marker, addr_inj]; simp),
          if_neg (by simp only [addr_marker, addr_inj, Slot.marker.injEq]; exact hne)]
        exact (hb.free k (by omega)).1
      · rw [hc2, if_neg (by simp only [addr_lock, addr_inj, Slot.lock.injEq]; exact hne),
          if_neg (by simp only [addr_lock, addr_marker, addr_inj]; simp)]
        exact (hb.free k (by omega)).2

theorem run_withLock_blocked {s : Store} (w : s.WF) {name : Str} {fl n : Nat} (hb : Blocked s name fl n)
    (hok : NamesOK E name) (hn : n < 256 ^ 8) (fuel : Nat) (body : Prog α) :
    ∃ s' n', (withLock (.sliding fuel) name body).run E s = (.stuck, s') ∧ s'.WF ∧ Blocked s' name fl n' ∧ n' ≤ n + 1 ∧
      SameOff (lockNames name) s s' := by
  obtain ⟨s', n', e, w', hb', hn', hs⟩ := run_lockEnter_blocked w hb hok hn fuel
  exact ⟨s', n', by rw [withLock, run_bind, e, andThen_stuck], w', hb', hn', hs⟩

/-- a lock just taken, its counter still at `fl`, blocks -/
theorem LockHeld.blocked {s : Store} {name : Str} {h : Held} {fl : Nat} (hh : LockHeld s name h) (hnum : h.number = fl + 1)
    (hfl : fromLE (s.segs h.count) = fl) : Blocked s name fl (fl + 2) := by
  refine ⟨⟨_, content_some hh.count, hfl⟩, Nat.le_refl _, ?_, ?_, ?_⟩
  · rw [hh.lock, if_pos hnum.symm]; simp
  · intro k h1 h2
    rw [hh.marker, if_pos (by omega)]; simp
  · intro k hk
    rw [hh.marker, hh.lock, if_neg (by omega)]
    exact ⟨rfl, rfl⟩

/-- taking a lock, and taking it again before letting go: the second never ends -/
theorem run_withLock_twice {s : Store} (w : s.WF) {name : Str} {fl : Nat} (hok : NamesOK E name)
    (hc : LockClean s name fl) (hb : fl + 2 < 256 ^ 5) (fuel : Nat) {β : Type} (body : Prog α) (k : α → Prog β) :
    ∃ s', (withLock (.sliding fuel) name (withLock (.sliding fuel) name body >>= k)).run E s = (.stuck, s') ∧ s'.WF ∧
      SameOff (lockNames name) s s' ∧ (0 < fuel → ∃ n, Blocked s' name fl n ∧ n ≤ fl + 3) := by
  have hp : (256 : Nat) ^ 5 < 256 ^ 8 := by decide
  cases Nat.eq_zero_or_pos fuel with
  | inl h0 =>
    subst h0
    obtain ⟨c, s1, e1, w1, n1, v1, l1, o1⟩ := run_openCount w hok hc
    refine ⟨s1, ?_, w1, o1.mono (fun x hx => hx ▸ lockNames_count name), by omega⟩
    rw [withLock, run_bind]
    have : (lockEnter 0 name).run E s = (.stuck, s1) := by
      rw [lockEnter, run_bind, e1, andThen_ok, run_bind, run_read, andThen_ok, run_bind]
      rfl
    rw [this, andThen_stuck]
  | inr hf =>
    obtain ⟨h, s1, e1, hnum, w1, hh, hs1, hfl⟩ := run_lockEnter w hok hf hc (by omega)
    obtain ⟨s2, n2, e2, w2, hb2, hn2, hs2⟩ := run_withLock_blocked w1 (hh.blocked hnum hfl) hok (by omega) fuel body
    refine ⟨s2, ?_, w2, hs1.trans hs2, fun _ => ⟨n2, hb2, by omega⟩⟩
    rw [withLock, run_bind, e1, andThen_ok, run_bind, run_attempt, run_bind, e2]
    rfl

end Verif.Lemmas
