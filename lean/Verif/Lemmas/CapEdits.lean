import Verif.Lemmas.CompCaptures
import Verif.Model.CompTrack
/-! # Captures of a Composition that is edited -/
namespace Verif.Lemmas
open Verif Verif.Model Verif.Spec

variable {V X : Type}

/-- `names[i]` is captured in the list numbered `m + i`, by one of its sends; nothing else touches those lists -/
structure CapInv (m : Nat) (names : List Name) (c : Comp V X) : Prop where
  own : ∀ i (hi : i < names.length), ∃ pre post, sendsOf c names[i] = pre ++ captureSend (m + i) :: post ∧
    (∀ sd ∈ pre, SendKeeps m names.length sd) ∧ ∀ sd ∈ post, SendKeeps m names.length sd
  other : ∀ n, n ∉ names → ∀ sd ∈ sendsOf c n, SendKeeps m names.length sd
  steps : ∀ p ∈ c.steps, StepKeeps m names.length p.2
  tracker : ∀ t, c.tracker = some t → ∀ r, Keeps m names.length (t r)
  caps : c.captures = some (names.mapIdx fun i n => (n, m + i))

theorem CapInv.same {m : Nat} {names : List Name} {c c' : Comp V X} (h : CapInv m names c) (hs : SameBut c c') :
    CapInv m names c' := by
  obtain ⟨a, b, d, e, f⟩ := h
  refine ⟨?_, ?_, ?_, ?_, ?_⟩
  · simpa only [sendsOf, hs.sends] using a
  · simpa only [sendsOf, hs.sends] using b
  · rw [hs.steps]; exact d
  · rw [hs.tracker]; exact e
  · rw [hs.captures]; exact f

/-- one more send, that leaves the lists alone -/
theorem CapInv.send {m : Nat} {names : List Name} {c : Comp V X} (h : CapInv m names c) (n : Name) {sd : Send V X}
    (hsd : SendKeeps m names.length sd) : CapInv m names { c with sends := c.sends.set n (sendsOf c n ++ [sd]) } := by
  have hof : ∀ x, sendsOf { c with sends := c.sends.set n (sendsOf c n ++ [sd]) } x =
      if n = x then sendsOf c n ++ [sd] else sendsOf c x := by
    intro x
    simp only [sendsOf, Dict.get?_set]
    split <;> rfl
  refine ⟨fun i hi => ?_, fun x hx sd' hsd' => ?_, h.steps, h.tracker, h.caps⟩
  · obtain ⟨pre, post, h1, h2, h3⟩ := h.own i hi
    rw [hof]
    by_cases e : n = names[i]
    · rw [if_pos e, e, h1]
      refine ⟨pre, post ++ [sd], by simp, h2, fun sd' hs' => ?_⟩
      rcases List.mem_append.1 hs' with hs' | hs'
      · exact h3 _ hs'
      · rw [List.mem_singleton.1 hs']; exact hsd
    · rw [if_neg e]
      exact ⟨pre, post, h1, h2, h3⟩
  · rw [hof] at hsd'
    by_cases e : n = x
    · rw [if_pos e, e] at hsd'
      rcases List.mem_append.1 hsd' with hs' | hs'
      · exact h.other x hx _ hs'
      · rw [List.mem_singleton.1 hs']; exact hsd
    · rw [if_neg e] at hsd'
      exact h.other x hx _ hsd'

theorem addSend_eq {c c' : Comp V X} {n : Name} {sd : Send V X} (h : addSend c n sd = .ok c') :
    c' = { c with sends := c.sends.set n (sendsOf c n ++ [sd]) } := by
  unfold addSend at h
  split at h
  · cases h
  · cases h; rfl

theorem trackSend_keeps [PyNone V] {m k : Nat} {t : TrackRec → Act V X Unit} (ht : ∀ r, Keeps m k (t r)) (n : Name)
    (s : Step V X) : SendKeeps m k ({ pipe := some (trackPipe t n s), target := .none, pointer := .none } : Send V X) := by
  refine ⟨fun f hf v w i h1 h2 => ?_, fun id h => (by cases h), fun f h => (by cases h)⟩
  cases hf
  have := ht { target := s.ident, step := some n } w i h1 h2
  unfold trackPipe
  rcases hd : t { target := s.ident, step := some n } w with ⟨r, w'⟩
  rw [hd] at this
  cases r <;> exact this

theorem CapInv.trackSend [PyNone V] {m : Nat} {names : List Name} {c : Comp V X} (h : CapInv m names c) (n : Name) (s : Step V X) :
    CapInv m names (addTrackSend c n s) := by
  unfold addTrackSend
  split
  · exact h
  · next t ht =>
    split
    · next c' hc => rw [addSend_eq hc]; exact h.send n (trackSend_keeps (h.tracker t ht) n s)
    · exact h

theorem CapInv.trackSends [PyNone V] {m : Nat} {names : List Name} (l : Dict Name (Step V X)) {c : Comp V X}
    (h : CapInv m names c) : CapInv m names (addTrackSends c l) := by
  induction l generalizing c with
  | nil => exact h
  | cons p t ih => exact ih (h.trackSend p.1 p.2)

theorem set_mem {κ α : Type} [DecidableEq κ] {d : Dict κ α} {k : κ} {v : α} {p : κ × α} (h : p ∈ d.set k v) :
    p = (k, v) ∨ p ∈ d := by
  induction d with
  | nil => exact .inl (List.mem_singleton.1 h)
  | cons q t ih =>
    obtain ⟨k', v'⟩ := q
    unfold Dict.set at h
    split at h
    · rcases List.mem_cons.1 h with e | h
      · next hk => exact .inl (by rw [e, hk])
      · exact .inr (.tail _ h)
    · rcases List.mem_cons.1 h with e | h
      · exact .inr (e ▸ .head _)
      · rcases ih h with e | h
        · exact .inl e
        · exact .inr (.tail _ h)

/-- the sends of a captured step -/
theorem performSendList_own {m k : Nat} {pre post : List (Send V X)} (h1 : ∀ sd ∈ pre, SendKeeps m k sd)
    (h2 : ∀ sd ∈ post, SendKeeps m k sd) (c : Comp V X) (x : V) (w : World V X) {i : Nat} (hi : i < k)
    (hl : (w.lists (m + i)).length = 1) :
    (∀ j, j < k → j ≠ i → (performSendList c x (pre ++ captureSend (m + i) :: post) w).2.2.lists (m + j) = w.lists (m + j)) ∧
    ((performSendList c x (pre ++ captureSend (m + i) :: post) w).2.2.lists (m + i)).length = 1 ∧
    (∀ u, (performSendList c x (pre ++ captureSend (m + i) :: post) w).1 = .ok u →
      (performSendList c x (pre ++ captureSend (m + i) :: post) w).2.2.lists (m + i) = [x]) := by
  rw [performSendList_append]
  have hp := fun j (hj : j < k) => performSendList_keeps h1 c x w (i := m + j) (by omega) (by omega)
  rcases hd : performSendList c x pre w with ⟨r, c1, w1⟩
  rw [hd] at hp
  simp only at hp
  cases r with
  | error e =>
    refine ⟨fun j hj _ => hp j hj, ?_, fun u hu => (by cases hu)⟩
    simp only
    rw [hp i hi]
    exact hl
  | ok u =>
    have hc := captureSend_run (m + i) c1 x w1 (by rw [hp i hi]; exact hl)
    have hg : performSendList c1 x (captureSend (m + i) :: post) w1 =
        performSendList c1 x post { w1 with lists := fun l => if l = m + i then [x] else w1.lists l } := by
      rw [← List.singleton_append, performSendList_append, hc]
    simp only [hg]
    have hq := fun j (hj : j < k) => performSendList_keeps h2 c1 x
      { w1 with lists := fun l => if l = m + i then [x] else w1.lists l } (i := m + j) (by omega) (by omega)
    refine ⟨fun j hj hne => ?_, ?_, fun _ _ => ?_⟩
    · rw [hq j hj]
      simp only
      rw [if_neg (by omega), hp j hj]
    · rw [hq i hi]; simp
    · rw [hq i hi]; simp

/-- what one step does to the captures -/
theorem doStep_cap {m : Nat} {names : List Name} (hn : names.Nodup) {c : Comp V X} (h : CapInv m names c) {n : Name} {s : Step V X}
    (hs : StepKeeps m names.length s) (v : V) (w : World V X) (hl : ∀ i, i < names.length → (w.lists (m + i)).length = 1) :
    (∀ i (hi : i < names.length), names[i] ≠ n → (doStep c n s v w).2.2.lists (m + i) = w.lists (m + i)) ∧
    (∀ i, i < names.length → ((doStep c n s v w).2.2.lists (m + i)).length = 1) ∧
    ∀ i (hi : i < names.length), names[i] = n → ∀ x, (doStep c n s v w).1 = .ok x →
      (doStep c n s v w).2.2.lists (m + i) = [x] := by
  have hcall := fun i (hi : i < names.length) => callStep_keeps hs c n v w (m + i) (by omega) (by omega)
  rw [doStep]
  rcases hcs : callStep c n s v w with ⟨r, w1⟩
  rw [hcs] at hcall
  simp only at hcall
  cases r with
  | error e =>
    refine ⟨fun i hi _ => hcall i hi, fun i hi => ?_, fun i hi _ x hx => (by cases hx)⟩
    simp only
    rw [hcall i hi]
    exact hl i hi
  | ok x =>
    simp only [performSends]
    rw [show (c.sends.get? n).getD [] = sendsOf c n from rfl]
    by_cases hm : n ∈ names
    · obtain ⟨i, hi, rfl⟩ := List.getElem_of_mem hm
      obtain ⟨pre, post, e1, e2, e3⟩ := h.own i hi
      rw [e1]
      obtain ⟨k1, k2, k3⟩ := performSendList_own e2 e3 c x w1 hi (by rw [hcall i hi]; exact hl i hi)
      have inj : ∀ j (hj : j < names.length), names[j] = names[i] → j = i :=
        fun j hj e => (List.getElem_inj hn).1 e
      rcases hd : performSendList c x (pre ++ captureSend (m + i) :: post) w1 with ⟨r, c2, w2⟩
      rw [hd] at k1 k2 k3
      simp only at k1 k2 k3
      have r1 : ∀ j (hj : j < names.length), names[j] ≠ names[i] → w2.lists (m + j) = w.lists (m + j) := fun j hj hne => by
        rw [k1 j hj (fun e => hne (by subst e; rfl)), hcall j hj]
      have r2 : ∀ j, j < names.length → (w2.lists (m + j)).length = 1 := fun j hj => by
        by_cases e : j = i
        · rw [e]; exact k2
        · rw [k1 j hj e, hcall j hj]; exact hl j hj
      cases r with
      | ok u =>
        refine ⟨r1, r2, fun j hj e y hy => ?_⟩
        simp only at hy ⊢
        cases hy
        rw [inj j hj e]
        exact k3 u rfl
      | error e => exact ⟨r1, r2, fun j hj _ y hy => (by cases hy)⟩
    · have hk := fun i (hi : i < names.length) =>
        performSendList_keeps (h.other n hm) c x w1 (i := m + i) (by omega) (by omega)
      rcases hd : performSendList c x (sendsOf c n) w1 with ⟨r, c2, w2⟩
      rw [hd] at hk
      simp only at hk
      have r1 : ∀ j (hj : j < names.length), w2.lists (m + j) = w.lists (m + j) := fun j hj => by
        rw [hk j hj, hcall j hj]
      cases r with
      | ok u =>
        refine ⟨fun j hj _ => r1 j hj, fun j hj => ?_, fun j hj e => absurd (e ▸ List.getElem_mem hj) hm⟩
        simp only
        rw [r1 j hj]; exact hl j hj
      | error e =>
        refine ⟨fun j hj _ => r1 j hj, fun j hj => ?_, fun j hj e => absurd (e ▸ List.getElem_mem hj) hm⟩
        simp only
        rw [r1 j hj]; exact hl j hj

/-- what a run does to the captures: each holds the output of the step of its name, if the run got past that step; it is as
before if the run did not reach the step, or no step has the name -/
theorem iterSteps_cap {m : Nat} {names : List Name} (hn : names.Nodup) (l : Dict Name (Step V X)) (hd : (Dict.keys l).Nodup)
    (hs : ∀ p ∈ l, StepKeeps m names.length p.2) {c : Comp V X} (h : CapInv m names c) (v : V) (w : World V X)
    (hl : ∀ i, i < names.length → (w.lists (m + i)).length = 1) :
    (∀ i (hi : i < names.length), names[i] ∉ Dict.keys l → (iterSteps c v l w).2.2.2.lists (m + i) = w.lists (m + i)) ∧
    (∀ i, i < names.length → ((iterSteps c v l w).2.2.2.lists (m + i)).length = 1) ∧
    (∀ i (hi : i < names.length) (p : Nat) (s : Step V X), l[p]? = some (names[i], s) →
      (∀ x, (iterSteps c v l w).1[p]? = some x → (iterSteps c v l w).2.2.2.lists (m + i) = [x]) ∧
      ((iterSteps c v l w).1.length < p → (iterSteps c v l w).2.2.2.lists (m + i) = w.lists (m + i))) := by
  induction l generalizing c v w with
  | nil =>
    refine ⟨fun _ _ _ => rfl, hl, fun i hi p s hp => ?_⟩
    simp at hp
  | cons q t ih =>
    obtain ⟨n, s⟩ := q
    obtain ⟨hnt, hd'⟩ := List.nodup_cons.1 hd
    have hsame := doStep_same c n s v w
    obtain ⟨k1, k2, k3⟩ := doStep_cap hn h (n := n) (hs _ (.head _)) v w hl
    rw [iterSteps]
    rcases hdo : doStep c n s v w with ⟨r, c1, w1⟩
    rw [hdo] at hsame k1 k2 k3
    simp only at hsame k1 k2 k3
    cases r with
    | error e =>
      simp only
      refine ⟨fun i hi hni => k1 i hi (fun e => hni (e ▸ .head _)), k2, fun i hi p s' hp => ⟨fun x hx => by simp at hx, fun hlt => ?_⟩⟩
      obtain ⟨p, rfl⟩ : ∃ p', p = p' + 1 := ⟨p - 1, by simp at hlt; omega⟩
      rw [List.getElem?_cons_succ] at hp
      have hmem : names[i] ∈ Dict.keys t := List.mem_map_of_mem (f := Prod.fst) (List.mem_of_getElem? hp)
      exact k1 i hi (fun e => hnt (e ▸ hmem))
    | ok x =>
      obtain ⟨j1, j2, j3⟩ := ih hd' (fun p hp => hs p (.tail _ hp)) (h.same hsame) x w1 k2
      simp only
      refine ⟨fun i hi hni => ?_, j2, fun i hi p s' hp => ?_⟩
      · rw [j1 i hi (fun hm => hni (.tail _ hm)), k1 i hi (fun e => hni (e ▸ .head _))]
      · cases p with
        | zero =>
          rw [List.getElem?_cons_zero] at hp
          cases hp
          refine ⟨fun y hy => ?_, fun hlt => by simp at hlt⟩
          rw [List.getElem?_cons_zero] at hy
          cases hy
          rw [j1 i hi hnt]
          exact k3 i hi rfl _ rfl
        | succ p =>
          rw [List.getElem?_cons_succ] at hp
          have hmem : names[i] ∈ Dict.keys t := List.mem_map_of_mem (f := Prod.fst) (List.mem_of_getElem? hp)
          obtain ⟨g1, g2⟩ := j3 i hi p s' hp
          refine ⟨fun y hy => g1 y (by rw [List.getElem?_cons_succ] at hy; exact hy), fun hlt => ?_⟩
          rw [List.length_cons] at hlt
          rw [g2 (by omega)]
          exact k1 i hi (fun e => hnt (e ▸ hmem))

theorem execute_cap_lists [PyNone V] {m : Nat} {names : List Name} {c : Comp V X} (h : CapInv m names c) (v : V) (w : World V X)
    {i : Nat} (hi : i < names.length) : (execute c v w).2.2.lists (m + i) = (itercall c v w).2.2.2.lists (m + i) := by
  rw [execute]
  rcases itercall c v w with ⟨outs, e, c', w'⟩
  cases e with
  | none => rfl
  | some e =>
    simp only
    by_cases he : (fromGenerator e).isException = true
    · rw [if_pos he]
      cases ht : c.tracker with
      | none => rfl
      | some t =>
        rcases c.steps[outs.length]? with _ | ⟨n, s⟩
        · rfl
        · have hk := h.tracker t ht { target := s.ident, failure := some (fromGenerator e) } w' (m + i) (by omega) (by omega)
          simp only
          rcases hd : t { target := s.ident, failure := some (fromGenerator e) } w' with ⟨r, w3⟩
          rw [hd] at hk
          cases r <;> exact hk
    · rw [if_neg he]

end Verif.Lemmas
