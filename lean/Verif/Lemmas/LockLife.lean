import Verif.Spec.LockLife
import Verif.Lemmas.Blocked
/-! # `SlidingLock` objects: the state between two calls -/
namespace Verif.Lemmas
open Verif Verif.Model Verif.Spec
variable {E : Env}

/-- the objects in `live` have the count block that has the name now; at most one object is entered -/
structure LifeInv (name : Str) (st : LifeSt) (live ins : List Nat) (fl : Nat) : Prop where
  wf : st.store.WF
  live : ∀ i ∈ live, ∃ c, st.objs i = some c ∧ st.store.names (countAddr name) = some c
  phase : (ins = [] ∧ (∀ i, st.inside i = none) ∧ LockClean st.store name fl) ∨
    ∃ i h, ins = [i] ∧ st.inside i = some h ∧ (∀ j, j ≠ i → st.inside j = none) ∧ LockHeld st.store name h ∧
      h.number = fl + 1 ∧ fromLE (st.store.segs h.count) = fl

theorem LifeInv.uniq {name : Str} {st : LifeSt} {live ins : List Nat} {fl : Nat} (h : LifeInv name st live ins fl)
    {i j : Nat} (hi : st.inside i ≠ none) (hj : st.inside j ≠ none) : i = j := by
  rcases h.phase with ⟨_, h0, _⟩ | ⟨k, hd, _, _, h0, _⟩
  · exact absurd (h0 i) hi
  · have h1 : i = k := by by_contra hc; exact hi (h0 i hc)
    have h2 : j = k := by by_contra hc; exact hj (h0 j hc)
    rw [h1, h2]

theorem lockEnter_eq (fuel : Nat) {name : Str} {s : Store} {c : Nat} (hok : NamesOK E name)
    (hn : s.names (countAddr name) = some c) : (lockEnterOn fuel name c).run E s = (lockEnter fuel name).run E s := by
  rw [lockEnter, run_bind, run_openBlock_attach (by omega) hok.count hn, andThen_ok]; rfl

theorem setAt_self {β : Type} (f : Nat → β) (i : Nat) (v : β) : setAt f i v i = v := if_pos rfl
theorem setAt_ne {β : Type} (f : Nat → β) {i j : Nat} (v : β) (h : j ≠ i) : setAt f i v j = f j := if_neg h

theorem run_lockRelease_count {s s' : Store} (w : s.WF) {name : Str} {h : Held} (hh : LockHeld s name h)
    (hb : h.number < 256 ^ 5) (e : (lockRelease name h).run E s = (.ok (), s')) :
    s'.names (countAddr name) = s.names (countAddr name) := by
  obtain ⟨s1, e1, n1, f1⟩ := run_write_at (E := E) (b := toLE 5 h.number) w hh.count
    (by rw [toLE_length, hh.countLen])
  have l1 : s1.content (lockAddr name h.number) = some [0] := by
    rw [f1.content, if_neg (by simp only [addr_lock, addr_count, addr_inj]; simp), hh.lock]; simp
  obtain ⟨i, hi, _⟩ := names_of_content l1
  have f2 := eff_unlinked f1.wf (lockAddr name h.number)
  have m2 : (s1.unlinked (lockAddr name h.number)).content (markerAddr name h.number) = some [0] := by
    rw [f2.content, if_neg (by simp only [addr_lock, addr_marker, addr_inj]; simp),
      f1.content, if_neg (by simp only [addr_marker, addr_count, addr_inj]; simp), hh.marker]; simp
  obtain ⟨j, hj, _⟩ := names_of_content m2
  have f3 := eff_unlinked f2.wf (markerAddr name h.number)
  rw [lockRelease, run_bind, run_intBytes hb, andThen_ok, run_bind, e1, andThen_ok, hh.own] at e
  simp only [if_true] at e
  rw [run_bind, run_unlink hi, andThen_ok, run_unlink hj] at e
  injection e with _ e
  rw [← e, f3.names _ (by simp only [addr_count, addr_marker, addr_inj]; simp),
    f2.names _ (by simp only [addr_count, addr_lock, addr_inj]; simp), n1, hh.count]

variable {name : Str} {fuel : Nat} {st : LifeSt} {live ins : List Nat} {fl : Nat}

theorem life_new (h : LifeInv name st live ins fl) (hok : NamesOK E name) {i : Nat} (hi : i ∉ live) (hi' : i ∉ ins) :
    ∃ st', lifeStep E fuel name st (.new i) = (.ok (), st') ∧ LifeInv name st' (i :: live) ins fl := by
  have hin : st.inside i = none := by
    rcases h.phase with ⟨_, h0, _⟩ | ⟨k, hd, e, _, h0, _⟩
    · exact h0 i
    · exact h0 i fun hc => hi' (by rw [e, hc]; exact .head _)
  have hset : setAt st.inside i none = st.inside := by
    funext j
    by_cases hj : j = i
    · rw [hj, setAt_self, hin]
    · exact setAt_ne _ _ hj
  cases hn : st.store.names (countAddr name) with
  | some c =>
    refine ⟨⟨st.store, setAt st.objs i (some c), st.inside⟩, ?_, h.wf, ?_, h.phase⟩
    · simp only [lifeStep, lockNew]
      rw [run_openBlock_attach (by omega) hok.count hn]
      simp only [hset]
    · intro j hj
      by_cases hji : j = i
      · subst hji; exact ⟨c, setAt_self .., hn⟩
      · obtain ⟨c', h1, h2⟩ := h.live j (by simpa [hji] using hj)
        exact ⟨c', by show setAt _ _ _ _ = _; rw [setAt_ne _ _ hji, h1], h2⟩
  | none =>
    have f1 := eff_created h.wf (countAddr name) 5
    refine ⟨⟨st.store.created (countAddr name) 5, setAt st.objs i (some st.store.next), st.inside⟩, ?_, f1.wf, ?_, ?_⟩
    · simp only [lifeStep, lockNew]
      rw [run_openBlock_new (by omega) hok.count hn]
      simp only [hset]
    · intro j hj
      by_cases hji : j = i
      · subst hji; exact ⟨_, setAt_self .., by simp⟩
      · obtain ⟨c', _, h2⟩ := h.live j (by simpa [hji] using hj)
        rw [hn] at h2; cases h2
    · rcases h.phase with ⟨h0, h1, h2⟩ | ⟨k, hd, _, _, _, hh, _⟩
      · refine .inl ⟨h0, h1, ⟨.inr ?_, fun n => ?_, fun n => ?_⟩⟩
        · rcases h2.count with ⟨_, hz⟩ | hz
          · rw [f1.content, if_pos rfl, hz]; rfl
          · rw [content_none.2 hn] at hz; cases hz
        · rw [f1.content, if_neg (by simp only [addr_count, addr_marker, addr_inj]; simp)]; exact h2.marker n
        · rw [f1.content, if_neg (by simp only [addr_count, addr_lock, addr_inj]; simp)]; exact h2.lock n
      · rw [hh.count] at hn; cases hn

/-- nobody is inside: the call returns -/
theorem life_enter_free (h : LifeInv name st live [] fl) (hok : NamesOK E name) (hf : 0 < fuel) (hb : fl + 1 < 256 ^ 5)
    {i : Nat} (hi : i ∈ live) :
    ∃ st', lifeStep E fuel name st (.enter i) = (.ok (), st') ∧ LifeInv name st' live [i] fl := by
  obtain ⟨c, ho, hn⟩ := h.live i hi
  rcases h.phase with ⟨_, h1, h2⟩ | ⟨k, hd, e, _⟩
  · obtain ⟨hd, s', e, hnum, w', hh, _, hfl⟩ := run_lockEnter (E := E) h.wf hok hf h2 hb
    have hcount : hd.count = c := by
      have e' := e
      rw [← lockEnter_eq fuel hok hn] at e'
      exact hcnt e'
    refine ⟨⟨s', st.objs, setAt st.inside i (some hd)⟩, ?_, w', ?_, .inr ⟨i, hd, rfl, setAt_self .., ?_, hh, hnum, hfl⟩⟩
    · simp only [lifeStep, ho]
      rw [lockEnter_eq fuel hok hn, e]
    · intro j hj
      obtain ⟨c', h3, h4⟩ := h.live j hj
      rw [hn] at h4
      injection h4 with h4
      exact ⟨c', h3, by rw [← h4, ← hcount]; exact hh.count⟩
    · intro j hj
      show setAt _ _ _ _ = _
      rw [setAt_ne _ _ hj]; exact h1 j
  · cases e
where
  hcnt {s s' : Store} {c : Nat} {hd : Held} (e : (lockEnterOn fuel name c).run E s = (.ok hd, s')) : hd.count = c := by
    rw [lockEnterOn, run_bind, run_read, andThen_ok, run_bind] at e
    rcases hr : (renumber name fuel (fromLE (s.segs c) + 1)).run E s with ⟨o, s1⟩
    rw [hr] at e
    cases o with
    | ok n =>
      rw [andThen_ok, run_bind, run_attempt] at e
      rcases hc : (create (lockAddr name n) 1).run E s1 with ⟨o2, s2⟩
      rw [hc] at e
      cases o2 with
      | ok x =>
        rw [asValue_ok, andThen_ok] at e
        simp only [] at e
        rw [run_bind] at e
        rcases hs : (spin name (fromLE (s.segs c)) n fuel).run E s2 with ⟨o3, s3⟩
        rw [hs] at e
        cases o3 with
        | ok u =>
          rw [andThen_ok] at e
          have e : (Outcome.ok (⟨c, n, true⟩ : Held), s3) = (.ok hd, s') := e
          injection e with e _; injection e with e; rw [← e]
        | err x => rw [andThen_err] at e; injection e with e _; cases e
        | stuck => rw [andThen_stuck] at e; injection e with e _; cases e
      | err x =>
        rw [asValue_err, andThen_ok] at e
        cases x with
        | fileExists =>
          have e : (Outcome.ok (⟨c, n, false⟩ : Held), s2) = (.ok hd, s') := e
          injection e with e _; injection e with e; rw [← e]
        | _ =>
          exfalso
          simp only [] at e
          rw [run_bind] at e
          rcases hu : (unlink (markerAddr name n)).run E s2 with ⟨o3, s3⟩
          rw [hu] at e
          cases o3 with
          | ok u => rw [andThen_ok] at e; injection e with e _; cases e
          | err x => rw [andThen_err] at e; injection e with e _; cases e
          | stuck => rw [andThen_stuck] at e; injection e with e _; cases e
      | stuck => rw [asValue_stuck, andThen_stuck] at e; injection e with e _; cases e
    | err x => rw [andThen_err] at e; injection e with e _; cases e
    | stuck => rw [andThen_stuck] at e; injection e with e _; cases e

/-- somebody is inside: the call never returns -/
theorem life_enter_held (h : LifeInv name st live ins fl) (hok : NamesOK E name) (hb : fl + 1 < 256 ^ 5)
    {i : Nat} (hi : i ∈ live) (hins : ins ≠ []) : (lifeStep E fuel name st (.enter i)).1 = .stuck := by
  obtain ⟨c, ho, hn⟩ := h.live i hi
  rcases h.phase with ⟨h0, _⟩ | ⟨k, hd, _, _, _, hh, hnum, hfl⟩
  · exact absurd h0 hins
  · have hlt : fl + 2 < 256 ^ 8 := by
      have : (256 : Nat) ^ 5 + 1 < 256 ^ 8 := by decide
      omega
    obtain ⟨s', n', e, _⟩ := run_lockEnter_blocked (E := E) h.wf (hh.blocked hnum hfl) hok hlt fuel
    simp only [lifeStep, ho]
    rw [lockEnter_eq fuel hok hn, e]

theorem life_exit (h : LifeInv name st live ins fl) (hb : fl + 1 < 256 ^ 5) {i : Nat} (hi : i ∈ ins) :
    ∃ st', lifeStep E fuel name st (.exit i) = (.ok (), st') ∧ LifeInv name st' live (ins.erase i) (fl + 1) := by
  rcases h.phase with ⟨h0, _⟩ | ⟨k, hd, e, hk, h1, hh, hnum, hfl⟩
  · rw [h0] at hi; cases hi
  · have hik : i = k := by rw [e] at hi; simpa using hi
    subst hik
    obtain ⟨s', er, w', hc, _⟩ := run_lockRelease (E := E) h.wf hh (by omega)
    have hcn := run_lockRelease_count h.wf hh (by omega) er
    rw [hnum] at hc
    refine ⟨⟨s', st.objs, setAt st.inside i none⟩, ?_, w', ?_, .inl ⟨by rw [e]; simp, ?_, hc⟩⟩
    · simp only [lifeStep, hk, er]
    · intro j hj
      obtain ⟨c, h2, h3⟩ := h.live j hj
      exact ⟨c, h2, by rw [← h3]; exact hcn⟩
    · intro j
      show setAt _ _ _ _ = _
      by_cases hj : j = i
      · rw [hj]; exact setAt_self ..
      · rw [setAt_ne _ _ hj]; exact h1 j hj

theorem life_close (h : LifeInv name st live [] fl) (hok : NamesOK E name) {i : Nat} (hi : i ∈ live) :
    ∃ st', lifeStep E fuel name st (.close i) = (.ok (), st') ∧ LifeInv name st' [] [] 0 ∧
      ∀ x, lockNames name x → st'.store.content x = none := by
  obtain ⟨c, ho, hn⟩ := h.live i hi
  rcases h.phase with ⟨_, h1, h2⟩ | ⟨k, hd, e, _⟩
  · have f1 := eff_unlinked h.wf (countAddr name)
    have hcl : (lockClose name none).run E st.store = (.ok (), st.store.unlinked (countAddr name)) := by
      rw [lockClose, tryDelete, run_bind, run_attempt, run_deleteBlock hok.count hn]; rfl
    have hm : ∀ n, (st.store.unlinked (countAddr name)).content (markerAddr name n) = none := fun n => by
      rw [f1.content, if_neg (by simp only [addr_count, addr_marker, addr_inj]; simp)]; exact h2.marker n
    have hl : ∀ n, (st.store.unlinked (countAddr name)).content (lockAddr name n) = none := fun n => by
      rw [f1.content, if_neg (by simp only [addr_count, addr_lock, addr_inj]; simp)]; exact h2.lock n
    have hc0 : (st.store.unlinked (countAddr name)).content (countAddr name) = none := by rw [f1.content, if_pos rfl]
    refine ⟨⟨st.store.unlinked (countAddr name), st.objs, st.inside⟩, ?_,
      ⟨f1.wf, fun j hj => (by cases hj), .inl ⟨rfl, h1, .inl ⟨hc0, rfl⟩, hm, hl⟩⟩, ?_⟩
    · simp only [lifeStep, ho, h1 i, hcl]
    · rintro x ⟨sl, hsl, rfl⟩
      cases sl with
      | count => exact hc0
      | marker n => exact hm n
      | lock n => exact hl n
      | _ => cases hsl
  · cases e

end Verif.Lemmas
