import Verif.Lemmas.ResTracker
/-! # Histories of processes with their trackers -/
namespace Verif.Lemmas
open Verif Verif.Model Verif.Spec
variable {E : Env}

theorem after_snoc (w : TWorld) (a : List TEvent) (e : TEvent) :
    w.after E (a ++ [e]) = TEvent.step E (w.after E a) e := by
  simp [TWorld.after, List.foldl_append]

theorem tworld_after_append (w : TWorld) (a b : List TEvent) : w.after E (a ++ b) = (w.after E a).after E b := by
  simp [TWorld.after, List.foldl_append]

/-- induction on a history, the last event first -/
theorem snoc_induction {P : List TEvent → Prop} (h0 : P []) (h1 : ∀ a e, P a → P (a ++ [e])) (l : List TEvent) : P l := by
  rw [← List.reverse_reverse l]
  induction l.reverse with
  | nil => exact h0
  | cons e t ih => rw [List.reverse_cons]; exact h1 _ _ ih

@[simp] theorem withProc_procs (w : TWorld) (p q : Nat) (r : Option TProc) :
    (w.withProc p r).procs q = if q = p then r else w.procs q := rfl
@[simp] theorem withProc_seen (w : TWorld) (p : Nat) (r : Option TProc) : (w.withProc p r).seen = w.seen := rfl
@[simp] theorem withProc_store (w : TWorld) (p : Nat) (r : Option TProc) : (w.withProc p r).store = w.store := rfl
@[simp] theorem withProc_caches (w : TWorld) (p : Nat) (r : Option TProc) : (w.withProc p r).caches = w.caches := rfl
@[simp] theorem withCache_procs (w : TWorld) (t : Nat) (c : List Str) : (w.withCache t c).procs = w.procs := rfl
@[simp] theorem withCache_seen (w : TWorld) (t : Nat) (c : List Str) : (w.withCache t c).seen = w.seen := rfl
@[simp] theorem withCache_store (w : TWorld) (t : Nat) (c : List Str) : (w.withCache t c).store = w.store := rfl
@[simp] theorem withCache_caches (w : TWorld) (t t' : Nat) (c : List Str) :
    (w.withCache t c).caches t' = if t' = t then c else w.caches t' := rfl

/-! what an event does to the processes -/

theorem step_procs (w : TWorld) (e : TEvent) (q : Nat) : (TEvent.step E w e).procs q =
    match e with
    | .start p t inh => if q = p ∧ p ∉ w.seen then some ⟨t, inh⟩ else w.procs q
    | .deactivate p => if q = p then (w.procs q).map (deactivate false) else w.procs q
    | .act _ _ => w.procs q
    | .exit p => if q = p then none else w.procs q := by
  cases e with
  | start p t inh =>
    simp only [TEvent.step]
    split
    · rename_i h; simp [h]
    · rename_i h
      by_cases hq : q = p <;> simp [h, hq]
  | deactivate p =>
    simp only [TEvent.step, withProc_procs]
    by_cases hq : q = p <;> simp [hq]
  | act p o =>
    simp only [TEvent.step]
    split <;> rfl
  | exit p =>
    simp only [TEvent.step]
    split
    · rename_i h
      by_cases hq : q = p
      · simp [hq, h]
      · simp [hq]
    · split <;> simp

theorem step_seen (w : TWorld) (e : TEvent) (q : Nat) : q ∈ (TEvent.step E w e).seen ↔
    q ∈ w.seen ∨ ∃ t inh, e = .start q t inh := by
  cases e with
  | start p t inh =>
    simp only [TEvent.step]
    split
    · rename_i h
      constructor
      · exact Or.inl
      · rintro (h' | ⟨_, _, h'⟩)
        · exact h'
        · cases h'; exact h
    · simp only [List.mem_cons, withProc_seen, TEvent.start.injEq]
      constructor
      · rintro (rfl | h)
        · exact Or.inr ⟨t, inh, rfl, rfl, rfl⟩
        · exact Or.inl h
      · rintro (h | ⟨_, _, h, _, _⟩)
        · exact Or.inr h
        · exact Or.inl h.symm
  | deactivate p => simp [TEvent.step]
  | act p o => simp only [TEvent.step]; split <;> simp
  | exit p =>
    simp only [TEvent.step]
    split
    · simp
    · split <;> simp

theorem after_seen (s : Store) (a : List TEvent) (q : Nat) :
    q ∈ ((TWorld.fresh s).after E a).seen ↔ ∃ t inh, TEvent.start q t inh ∈ a := by
  induction a using snoc_induction with
  | h0 => simp [TWorld.after, TWorld.fresh]
  | h1 a e ih =>
    rw [after_snoc, step_seen, ih]
    simp only [List.mem_append, List.mem_singleton]
    constructor
    · rintro (⟨t, i, h⟩ | ⟨t, i, h⟩)
      · exact ⟨t, i, Or.inl h⟩
      · exact ⟨t, i, Or.inr h.symm⟩
    · rintro ⟨t, i, h | h⟩
      · exact Or.inl ⟨t, i, h⟩
      · exact Or.inr ⟨t, i, h.symm⟩

/-- a running process has been started with its tracker -/
theorem after_started (s : Store) (a : List TEvent) {q : Nat} {pr : TProc}
    (h : ((TWorld.fresh s).after E a).procs q = some pr) :
    ∃ inh, TEvent.start q pr.tracker inh ∈ a ∧ (inh = true → pr.patched = true) := by
  induction a using snoc_induction generalizing pr with
  | h0 => simp [TWorld.after, TWorld.fresh] at h
  | h1 a e ih =>
    rw [after_snoc, step_procs] at h
    have keep : ∀ {pr'}, ((TWorld.fresh s).after E a).procs q = some pr' → pr'.tracker = pr.tracker →
        (pr'.patched = true → pr.patched = true) →
        ∃ inh, TEvent.start q pr.tracker inh ∈ a ++ [e] ∧ (inh = true → pr.patched = true) := by
      intro pr' h1 h2 h3
      obtain ⟨inh, h4, h5⟩ := ih h1
      exact ⟨inh, by rw [← h2]; exact List.mem_append_left _ h4, fun h => h3 (h5 h)⟩
    cases e with
    | start p t inh =>
      dsimp only at h
      split at h
      · rename_i hc
        cases h
        exact ⟨inh, by simp [hc.1], fun h => h⟩
      · exact keep h rfl id
    | deactivate p =>
      dsimp only at h
      split at h
      · rcases e1 : ((TWorld.fresh s).after E a).procs q with _ | pr'
        · simp [e1] at h
        · simp [e1] at h
          subst h
          exact keep e1 rfl (fun _ => rfl)
      · exact keep h rfl id
    | act p o => exact keep h rfl id
    | exit p =>
      dsimp only at h
      split at h
      · simp at h
      · exact keep h rfl id

/-- once deactivated, always deactivated -/
theorem after_patched (s : Store) {a a1 a2 : List TEvent} {q t : Nat} {inh : Bool} {pr : TProc}
    (ha : a = a1 ++ .deactivate q :: a2) (hs : TEvent.start q t inh ∈ a1)
    (h : ((TWorld.fresh s).after E a).procs q = some pr) : pr.patched = true := by
  have key : ∀ b (w : TWorld), q ∈ w.seen → (∀ pr, w.procs q = some pr → pr.patched = true) →
      ∀ pr, (w.after E b).procs q = some pr → pr.patched = true := by
    intro b
    induction b with
    | nil => intro w _ h; exact h
    | cons e b ih =>
      intro w h1 h2
      refine ih (TEvent.step E w e) ((step_seen _ _ _).2 (Or.inl h1)) ?_
      intro pr hp
      rw [step_procs] at hp
      cases e with
      | start p t inh =>
        dsimp only at hp
        split at hp
        · rename_i hc; rw [← hc.1] at hc; exact absurd h1 hc.2
        · exact h2 pr hp
      | deactivate p =>
        dsimp only at hp
        split at hp
        · rcases e1 : w.procs q with _ | pr'
          · simp [e1] at hp
          · simp [e1] at hp; rw [← hp]; rfl
        · exact h2 pr hp
      | act p o => exact h2 pr hp
      | exit p =>
        dsimp only at hp
        split at hp
        · simp at hp
        · exact h2 pr hp
  subst ha
  rw [tworld_after_append] at h
  have hseen := (after_seen (E := E) s a1 q).2 ⟨t, inh, hs⟩
  refine key a2 (TEvent.step E ((TWorld.fresh s).after E a1) (.deactivate q)) ((step_seen _ _ _).2 (Or.inl hseen)) ?_ pr h
  intro pr hp
  rw [step_procs] at hp
  rcases e1 : ((TWorld.fresh s).after E a1).procs q with _ | pr'
  · simp [e1] at hp
  · simp [e1] at hp; rw [← hp]; rfl

/-- a process that has been started and not ended is running -/
theorem after_running (s : Store) {a : List TEvent} {q : Nat} (h : Running a q) :
    ∃ pr, ((TWorld.fresh s).after E a).procs q = some pr := by
  obtain ⟨⟨t, inh, h1⟩, h2⟩ := h
  have key : TEvent.exit q ∉ a → q ∈ ((TWorld.fresh s).after E a).seen →
      ∃ pr, ((TWorld.fresh s).after E a).procs q = some pr := by
    clear h1 h2
    induction a using snoc_induction with
    | h0 => intro _ h; simp [TWorld.after, TWorld.fresh] at h
    | h1 a e ih =>
      intro hx hq
      simp only [List.mem_append, List.mem_singleton, not_or] at hx
      rw [after_snoc, step_seen] at hq
      rw [after_snoc, step_procs]
      by_cases hold : q ∈ ((TWorld.fresh s).after E a).seen
      · have ih' : ∃ pr, ((TWorld.fresh s).after E a).procs q = some pr := by
          exact ih hx.1 hold
        obtain ⟨pr, hpr⟩ := ih'
        cases e with
        | start p t inh =>
          dsimp only
          split
          · exact ⟨_, rfl⟩
          · exact ⟨pr, hpr⟩
        | deactivate p =>
          dsimp only
          split
          · exact ⟨_, by rw [hpr]; rfl⟩
          · exact ⟨pr, hpr⟩
        | act p o => exact ⟨pr, hpr⟩
        | exit p =>
          dsimp only
          split
          · rename_i hqp; exact absurd (by rw [hqp]) hx.2
          · exact ⟨pr, hpr⟩
      · rcases hq with hq | ⟨t, inh, rfl⟩
        · exact absurd hq hold
        · simp [hold]
  exact key h2 ((after_seen s a q).2 ⟨t, inh, h1⟩)

/-- a process that has ended after it was started is not running -/
theorem after_ended (s : Store) {a1 a2 : List TEvent} {q t : Nat} {inh : Bool} (hs : TEvent.start q t inh ∈ a1) :
    ((TWorld.fresh s).after E (a1 ++ .exit q :: a2)).procs q = none := by
  have key : ∀ b (w : TWorld), q ∈ w.seen → w.procs q = none → (w.after E b).procs q = none := by
    intro b
    induction b with
    | nil => intro w _ h; exact h
    | cons e b ih =>
      intro w h1 h2
      refine ih (TEvent.step E w e) ((step_seen _ _ _).2 (Or.inl h1)) ?_
      rw [step_procs]
      cases e with
      | start p t inh =>
        dsimp only
        split
        · rename_i hc; rw [← hc.1] at hc; exact absurd h1 hc.2
        · exact h2
      | deactivate p => dsimp only; split <;> simp [h2]
      | act p o => exact h2
      | exit p => dsimp only; split <;> simp [h2]
  rw [tworld_after_append]
  refine key a2 (TEvent.step E ((TWorld.fresh s).after E a1) (.exit q))
    ((step_seen _ _ _).2 (Or.inl ((after_seen s a1 q).2 ⟨t, inh, hs⟩))) ?_
  rw [step_procs]
  simp

theorem holds_iff (w : TWorld) (t : Nat) (h : ∀ p, w.procs p ≠ none → p ∈ w.seen) :
    w.holds t = true ↔ ∃ p pr, w.procs p = some pr ∧ pr.tracker = t := by
  simp only [TWorld.holds, List.any_eq_true]
  constructor
  · rintro ⟨p, _, hp⟩
    rcases e : w.procs p with _ | pr
    · simp [e] at hp
    · simp [e] at hp; exact ⟨p, pr, e, hp⟩
  · rintro ⟨p, pr, e, ht⟩
    exact ⟨p, h p (by simp [e]), by simp [e, ht]⟩

theorem after_procs_seen (s : Store) (a : List TEvent) (p : Nat) (h : ((TWorld.fresh s).after E a).procs p ≠ none) :
    p ∈ ((TWorld.fresh s).after E a).seen := by
  rcases e : ((TWorld.fresh s).after E a).procs p with _ | pr
  · exact absurd e h
  · obtain ⟨inh, h1, _⟩ := after_started s a e
    exact (after_seen s a p).2 ⟨_, inh, h1⟩

theorem cleanup_nil (s : Store) : trackerCleanup [] s = s := by simp [trackerCleanup]

/-- the set of a tracker all whose processes have deactivated it first stays empty -/
theorem quiet_cache (s : Store) {evs : List TEvent} {t : Nat} (h : AllDeactivateFirst evs t) :
    ∀ a b, evs = a ++ b → ((TWorld.fresh s).after E a).caches t = [] := by
  intro a
  induction a using snoc_induction with
  | h0 => intro b _; rfl
  | h1 a e ih =>
    intro b hb
    have hc := ih ([e] ++ b) (by rw [hb, List.append_assoc])
    rw [after_snoc]
    generalize hw : (TWorld.fresh s).after E a = w at hc
    cases e with
    | start p t' inh => simp only [TEvent.step]; split <;> exact hc
    | deactivate p => exact hc
    | act p o =>
      simp only [TEvent.step]
      split
      · exact hc
      · rename_i pr hpr
        simp only [withCache_caches]
        split
        · rename_i ht
          have hpt : pr.patched = true := by
            rw [← hw] at hpr
            obtain ⟨inh, h1, h2⟩ := after_started s a hpr
            rcases h p inh (by rw [hb, ht]; simp [h1]) with h3 | h3
            · exact h2 h3
            · obtain ⟨a1, a2, t1, i1, h4, h5⟩ := h3 a o b (by rw [hb]; simp)
              exact after_patched s h4 h5 hpr
          rw [trackedStep_patched hpt]
          simp only [← ht]
          exact hc
        · exact hc
    | exit p =>
      simp only [TEvent.step]
      split
      · exact hc
      · split
        · exact hc
        · simp only [withCache_caches, withProc_caches]
          split
          · rfl
          · exact hc

theorem exit_segs (w : TWorld) (p : Nat) : (TEvent.step E w (.exit p)).store.segs = w.store.segs := by
  simp only [TEvent.step]
  split
  · rfl
  · split <;> rfl

/-- an operation of a process that has not deactivated the tracker: a block that exists afterwards existed before and
has not left the set, or is in the set -/
theorem tracked_keeps (hE : NameMax E) (t : Nat) (o : Op) (s : Store) (c : List Str)
    (hl : ∀ n k, o = .create n k ∨ o = .attach n ∨ o = .unlink n → LineName n) (x : Str)
    (hx : (trackedStep E ⟨t, false⟩ o (s, c)).2.1.names x ≠ none) :
    (s.names x ≠ none ∧ ('/' :: x ∈ c → '/' :: x ∈ (trackedStep E ⟨t, false⟩ o (s, c)).2.2)) ∨
      '/' :: x ∈ (trackedStep E ⟨t, false⟩ o (s, c)).2.2 := by
  have reg : ∀ n, '/' :: x ∈ c → '/' :: x ∈ (if '/' :: n ∈ c then c else ('/' :: n) :: c) := by
    intro n h
    split
    · exact h
    · exact List.mem_cons_of_mem _ h
  rw [trackedStep_store] at hx
  cases o with
  | create n k =>
    have hln := hl n k (Or.inl rfl)
    simp only [Op.step] at hx
    by_cases h1 : k = 0
    · left; simp [h1] at hx; exact ⟨hx, by simp [trackedStep, Op.step, h1]⟩
    by_cases h2 : E.okName n = false
    · left; simp [h1, h2] at hx; exact ⟨hx, by simp [trackedStep, Op.step, h1, h2]⟩
    have h2' : E.okName n = true := by simpa using h2
    rcases e : s.names n with _ | i
    · have hc : (trackedStep E ⟨t, false⟩ (.create n k) (s, c)).2.2 = if '/' :: n ∈ c then c else ('/' :: n) :: c := by
        simp [trackedStep, Op.step, h1, h2', e, Op.note, trackerCall, trackerSend_ascii (Or.inl rfl) hln.1 (hE n h2'),
          feed_register c hln]
      rw [hc]
      by_cases hxn : x = n
      · right; subst hxn; split
        · assumption
        · simp
      · left
        simp [h1, h2, e, hxn] at hx
        exact ⟨hx, reg n⟩
    · left; simp [h1, h2, e] at hx; exact ⟨hx, by simp [trackedStep, Op.step, h1, h2, e]⟩
  | attach n =>
    have hln := hl n 0 (Or.inr (Or.inl rfl))
    left
    simp only [Op.step] at hx
    by_cases h2 : E.okName n = false
    · simp [h2] at hx; exact ⟨hx, by simp [trackedStep, Op.step, h2]⟩
    have h2' : E.okName n = true := by simpa using h2
    rcases e : s.names n with _ | i
    · simp [h2, e] at hx; exact ⟨hx, by simp [trackedStep, Op.step, h2, e]⟩
    · simp [h2, e] at hx
      have hc : (trackedStep E ⟨t, false⟩ (.attach n) (s, c)).2.2 = if '/' :: n ∈ c then c else ('/' :: n) :: c := by
        simp [trackedStep, Op.step, h2', e, Op.note, trackerCall, trackerSend_ascii (Or.inl rfl) hln.1 (hE n h2'),
          feed_register c hln]
      rw [hc]
      exact ⟨hx, reg n⟩
  | unlink n =>
    have hln := hl n 0 (Or.inr (Or.inr rfl))
    left
    simp only [Op.step] at hx
    rcases e : s.names n with _ | i
    · simp [e] at hx; exact ⟨hx, by simp [trackedStep, Op.step, e]⟩
    · simp [e] at hx
      refine ⟨hx.2, fun hm => ?_⟩
      rw [trackedStep]
      simp only [Op.step, e, Op.note, trackerCall]
      rw [if_neg (by decide)]
      rcases e2 : trackerSend unregWord ('/' :: n) shmType with er | txt
      · simp [e2, hm]
      · have : txt = trackerLine unregWord ('/' :: n) shmType := by
          simp only [trackerSend] at e2
          split at e2
          · simp at e2
          · split at e2
            · simp at e2
            · simpa using e2.symm
        subst this
        simp [e2, feed_unregister c hln, hm, hx.1]
  | read i => left; exact ⟨hx, fun h => h⟩
  | write i b =>
    left
    simp only [Op.step] at hx
    by_cases h1 : b.length = (s.segs i).length
    · simp [h1] at hx; exact ⟨hx, by simp [trackedStep, Op.step, h1, Op.note]⟩
    · simp [h1] at hx; exact ⟨hx, by simp [trackedStep, Op.step, h1]⟩
  | writeFront i b => left; exact ⟨hx, fun h => h⟩

/-- with no tracker deactivated, a block that exists was there before or is in the set of the tracker of a running
process -/
theorem kept_tracked (hE : NameMax E) (s : Store) (evs : List TEvent)
    (hd : ∀ p, TEvent.deactivate p ∉ evs) (hi : ∀ p t inh, TEvent.start p t inh ∈ evs → inh = false)
    (hl : ∀ p n k, (TEvent.act p (.create n k) ∈ evs ∨ TEvent.act p (.attach n) ∈ evs ∨ TEvent.act p (.unlink n) ∈ evs) →
      LineName n) (x : Str) (hx : ((TWorld.fresh s).after E evs).store.names x ≠ none) :
    s.names x ≠ none ∨ ∃ p pr, ((TWorld.fresh s).after E evs).procs p = some pr ∧
      '/' :: x ∈ ((TWorld.fresh s).after E evs).caches pr.tracker := by
  -- no process has the replaced functions
  have hun : ∀ a, (∀ p, TEvent.deactivate p ∉ a) → (∀ p t inh, TEvent.start p t inh ∈ a → inh = false) →
      ∀ p pr, ((TWorld.fresh s).after E a).procs p = some pr → pr.patched = false := by
    intro a
    induction a using snoc_induction with
    | h0 => intro _ _ p pr h; simp [TWorld.after, TWorld.fresh] at h
    | h1 a e ih =>
      intro h1 h2 p pr h
      have ih' := ih (fun p hp => h1 p (List.mem_append_left _ hp)) (fun p t i hp => h2 p t i (List.mem_append_left _ hp))
      rw [after_snoc, step_procs] at h
      cases e with
      | start q t inh =>
        dsimp only at h
        split at h
        · cases h; exact h2 q t inh (by simp)
        · exact ih' p pr h
      | deactivate q => exact absurd (by simp) (h1 q)
      | act q o => exact ih' p pr h
      | exit q =>
        dsimp only at h
        split at h
        · simp at h
        · exact ih' p pr h
  induction evs using snoc_induction with
  | h0 => exact Or.inl hx
  | h1 a e ih =>
    have hd' : ∀ p, TEvent.deactivate p ∉ a := fun p hp => hd p (List.mem_append_left _ hp)
    have hi' : ∀ p t inh, TEvent.start p t inh ∈ a → inh = false := fun p t i hp => hi p t i (List.mem_append_left _ hp)
    have ih' := fun h => ih hd' hi' (fun p n k h => hl p n k (by
      rcases h with h | h | h
      · exact Or.inl (List.mem_append_left _ h)
      · exact Or.inr (Or.inl (List.mem_append_left _ h))
      · exact Or.inr (Or.inr (List.mem_append_left _ h)))) h
    have hu := hun a hd' hi'
    have hseen := after_procs_seen (E := E) s a
    rw [after_snoc] at hx ⊢
    generalize (TWorld.fresh s).after E a = w at hx ih' hu hseen ⊢
    cases e with
    | start p t inh =>
      have hst : (TEvent.step E w (.start p t inh)).store = w.store := by
        simp only [TEvent.step]; split <;> rfl
      have hca : (TEvent.step E w (.start p t inh)).caches = w.caches := by
        simp only [TEvent.step]; split <;> rfl
      rw [hst] at hx
      rcases ih' hx with h | ⟨q, pr, h1, h2⟩
      · exact Or.inl h
      · refine Or.inr ⟨q, pr, ?_, by rw [hca]; exact h2⟩
        rw [step_procs]
        dsimp only
        have hqs := hseen q (by rw [h1]; simp)
        rw [if_neg (fun hc => hc.2 (hc.1 ▸ hqs))]
        exact h1
    | deactivate p => exact absurd (by simp) (hd p)
    | act p o =>
      rcases e1 : w.procs p with _ | pr
      · simp only [TEvent.step, e1] at hx ⊢
        exact ih' hx
      · have hpt := hu p pr e1
        obtain ⟨t, pt⟩ := pr
        simp only at hpt
        subst hpt
        simp only [TEvent.step, e1] at hx ⊢
        have hk := tracked_keeps hE t o w.store (w.caches t) (fun n k ho => hl p n k (by
          rcases ho with rfl | rfl | rfl <;> simp)) x hx
        rcases hk with ⟨hk1, hk2⟩ | hk
        · rcases ih' hk1 with h | ⟨q, pr, h1, h2⟩
          · exact Or.inl h
          · refine Or.inr ⟨q, pr, h1, ?_⟩
            simp only [withCache_caches]
            split
            · rename_i ht; rw [ht] at h2; exact hk2 h2
            · exact h2
        · exact Or.inr ⟨p, ⟨t, false⟩, e1, by simpa using hk⟩
    | exit p =>
      rcases e1 : w.procs p with _ | pr
      · simp only [TEvent.step, e1] at hx ⊢
        exact ih' hx
      · simp only [TEvent.step, e1] at hx ⊢
        by_cases hh : (w.withProc p none).holds pr.tracker = true
        · rw [if_pos hh] at hx ⊢
          rcases ih' hx with h | ⟨q, prq, h1, h2⟩
          · exact Or.inl h
          · refine Or.inr ?_
            by_cases hqp : q = p
            · subst hqp
              rw [e1] at h1
              cases h1
              obtain ⟨r, prr, hr, ht⟩ := (holds_iff _ _ (by
                intro y hy
                simp only [withProc_procs] at hy
                split at hy
                · simp at hy
                · exact hseen y hy)).1 hh
              exact ⟨r, prr, hr, by rw [ht]; exact h2⟩
            · exact ⟨q, prq, by simp [hqp, h1], h2⟩
        · rw [if_neg hh] at hx ⊢
          simp only [trackerCleanup] at hx
          split at hx
          · simp at hx
          · rename_i hnc
            rcases ih' hx with h | ⟨q, prq, h1, h2⟩
            · exact Or.inl h
            · refine Or.inr ⟨q, prq, ?_, ?_⟩
              · have hqp : q ≠ p := fun e => by subst e; rw [e1] at h1; cases h1; exact hnc h2
                simp [hqp, h1]
              · have : prq.tracker ≠ pr.tracker := fun e => hnc (e ▸ h2)
                simp [this, h2]

end Verif.Lemmas
