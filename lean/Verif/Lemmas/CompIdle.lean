import Verif.Lemmas.Composition
import Verif.Spec.CompIdle
/-! # Compositions that agree on the names of their steps -/
namespace Verif.Lemmas
open Verif Verif.Model Verif.Spec
variable {V X : Type}

/-- two Compositions that may differ only in sends and inserts outside `P`, where none of their steps are -/
structure AgreeOn (P : Name → Bool) (c d : Comp V X) : Prop where
  steps : c.steps = d.steps
  tracker : c.tracker = d.tracker
  optional : c.optional = d.optional
  sends : ∀ n, P n = true → c.sends.get? n = d.sends.get? n
  inserts : ∀ n, P n = true → c.inserts.get? n = d.inserts.get? n

theorem AgreeOn.refl (P : Name → Bool) (c : Comp V X) : AgreeOn P c c := ⟨rfl, rfl, rfl, fun _ _ => rfl, fun _ _ => rfl⟩

theorem AgreeOn.addInsert {P : Name → Bool} {c d : Comp V X} (h : AgreeOn P c d) (n k : Name) (v : V) :
    AgreeOn P (addInsert c n k v) (addInsert d n k v) := by
  refine ⟨h.steps, h.tracker, h.optional, h.sends, fun m hm => ?_⟩
  by_cases e : m = n
  · subst e
    simp only [Model.addInsert, Dict.get?_set_self, h.inserts m hm]
  · simp only [Model.addInsert, Dict.get?_set_ne _ _ e, h.inserts m hm]

theorem AgreeOn.idleInsert {P : Name → Bool} {c d : Comp V X} (h : AgreeOn P c d) {n : Name} (hn : P n = false) (k : Name) (v : V) :
    AgreeOn P (Model.addInsert c n k v) d := by
  refine ⟨h.steps, h.tracker, h.optional, h.sends, fun m hm => ?_⟩
  have e : m ≠ n := by rintro rfl; rw [hm] at hn; cases hn
  simp only [Model.addInsert, Dict.get?_set_ne _ _ e, h.inserts m hm]

/-- outcomes of two operations that agree -/
structure AgreeOut {α : Type} (P : Name → Bool) (a b : α × Comp V X × World V X) : Prop where
  out : a.1 = b.1
  comp : AgreeOn P a.2.1 b.2.1
  world : a.2.2 = b.2.2

theorem AgreeOn.placeInto {P : Name → Bool} {c d : Comp V X} (h : AgreeOn P c d) (v : V) (t : Target V X) (p : Name) (w : World V X) :
    AgreeOut P (placeInto c v t p w) (placeInto d v t p w) := by
  cases t with
  | stepInt n => exact ⟨rfl, h.addInsert _ _ _, rfl⟩
  | stepStr s => exact ⟨rfl, h.addInsert _ _ _, rfl⟩
  | list id =>
    cases p with
    | none => exact ⟨rfl, h, rfl⟩
    | _ =>
      simp only [Model.placeInto]
      split <;> exact ⟨rfl, h, rfl⟩
  | dict id => exact ⟨rfl, h, rfl⟩
  | writer f => exact ⟨rfl, h, rfl⟩
  | inert => exact ⟨rfl, h, rfl⟩

theorem AgreeOn.performSend {P : Name → Bool} {c d : Comp V X} (h : AgreeOn P c d) (v : V) (sd : Send V X) (w : World V X) :
    AgreeOut P (performSend c v sd w) (performSend d v sd w) := by
  obtain ⟨p, t, ptr⟩ := sd
  cases t with
  | none =>
    cases p with
    | none => exact ⟨rfl, h, rfl⟩
    | some p =>
      simp only [Model.performSend]
      rcases p v w with ⟨r, w'⟩
      cases r <;> exact ⟨rfl, h, rfl⟩
  | some t =>
    cases p with
    | none => exact h.placeInto ..
    | some p =>
      simp only [Model.performSend]
      rcases p v w with ⟨r, w'⟩
      cases r with
      | ok y => exact h.placeInto ..
      | error e => exact ⟨rfl, h, rfl⟩

theorem AgreeOn.performSendList {P : Name → Bool} {c d : Comp V X} (h : AgreeOn P c d) (v : V) (l : List (Send V X)) (w : World V X) :
    AgreeOut P (performSendList c v l w) (performSendList d v l w) := by
  induction l generalizing c d w with
  | nil => exact ⟨rfl, h, rfl⟩
  | cons sd t ih =>
    rw [Model.performSendList, Model.performSendList]
    have := h.performSend v sd w
    rcases hc : Model.performSend c v sd w with ⟨r, c1, w1⟩
    rcases hd : Model.performSend d v sd w with ⟨r', d1, w1'⟩
    rw [hc, hd] at this
    obtain ⟨h1, h2, h3⟩ := this
    simp only at h1 h2 h3
    subst h1 h3
    cases r with
    | ok u => exact ih h2 w1
    | error e => exact ⟨rfl, h2, rfl⟩

theorem AgreeOn.doStep {P : Name → Bool} {c d : Comp V X} (h : AgreeOn P c d) {n : Name} (hn : P n = true) (s : Step V X) (v : V)
    (w : World V X) : AgreeOut P (doStep c n s v w) (doStep d n s v w) := by
  have hc : callStep c n s v = callStep d n s v := by simp only [callStep, h.inserts n hn]
  rw [Model.doStep, Model.doStep, hc]
  rcases callStep d n s v w with ⟨r, w'⟩
  cases r with
  | error e => exact ⟨rfl, h, rfl⟩
  | ok y =>
    have := h.performSendList y ((d.sends.get? n).getD []) w'
    simp only [performSends, h.sends n hn]
    rcases hc : Model.performSendList c y ((d.sends.get? n).getD []) w' with ⟨r, c1, w1⟩
    rcases hd : Model.performSendList d y ((d.sends.get? n).getD []) w' with ⟨r', d1, w1'⟩
    rw [hc, hd] at this
    obtain ⟨h1, h2, h3⟩ := this
    simp only at h1 h2 h3
    subst h1 h3
    cases r with
    | ok u => exact ⟨rfl, h2, rfl⟩
    | error e => exact ⟨rfl, h2, rfl⟩

theorem AgreeOn.iterSteps {P : Name → Bool} (l : Dict Name (Step V X)) (hl : ∀ n ∈ l.keys, P n = true) {c d : Comp V X}
    (h : AgreeOn P c d) (v : V) (w : World V X) :
    (iterSteps c v l w).1 = (iterSteps d v l w).1 ∧ AgreeOut P (iterSteps c v l w).2 (iterSteps d v l w).2 := by
  induction l generalizing c d v w with
  | nil => exact ⟨rfl, rfl, h, rfl⟩
  | cons p t ih =>
    obtain ⟨n, s⟩ := p
    rw [Model.iterSteps, Model.iterSteps]
    have := h.doStep (hl n (.head _)) s v w
    rcases hc : Model.doStep c n s v w with ⟨r, c1, w1⟩
    rcases hd : Model.doStep d n s v w with ⟨r', d1, w1'⟩
    rw [hc, hd] at this
    obtain ⟨h1, h2, h3⟩ := this
    simp only at h1 h2 h3
    subst h1 h3
    cases r with
    | error e => exact ⟨rfl, rfl, h2, rfl⟩
    | ok y =>
      have := ih (fun m hm => hl m (.tail _ hm)) h2 y w1
      exact ⟨congrArg (y :: ·) this.1, this.2⟩

theorem AgreeOn.execute [PyNone V] {P : Name → Bool} {c d : Comp V X} (h : AgreeOn P c d) (hs : ∀ n ∈ c.steps.keys, P n = true)
    (v : V) (w : World V X) : AgreeOut P (execute c v w) (execute d v w) := by
  have hi := AgreeOn.iterSteps c.steps hs h v w
  rw [Model.execute, Model.execute, itercall, itercall, ← h.steps]
  rcases hc : Model.iterSteps c v c.steps w with ⟨outs, e, c1, w1⟩
  rcases hd : Model.iterSteps d v c.steps w with ⟨outs', e', d1, w1'⟩
  rw [hc, hd] at hi
  obtain ⟨h0, h1, h2, h3⟩ := hi
  simp only at h0 h1 h2 h3
  subst h0 h1 h3
  cases e with
  | none => exact ⟨rfl, h2, rfl⟩
  | some x =>
    simp only [← h.tracker, ← h.optional]
    by_cases hx : (fromGenerator x).isException = true
    · simp only [if_pos hx]
      rcases c.tracker with _ | t
      · exact ⟨rfl, h2, rfl⟩
      · rcases c.steps[outs.length]? with _ | ⟨n, s⟩
        · exact ⟨rfl, h2, rfl⟩
        · simp only
          rcases t { target := s.ident, failure := some (fromGenerator x) } w1 with ⟨r, w2⟩
          cases r <;> exact ⟨rfl, h2, rfl⟩
    · simp only [if_neg hx]
      exact ⟨rfl, h2, rfl⟩

theorem AgreeOn.addSend {P : Name → Bool} {c d : Comp V X} (h : AgreeOn P c d) (n : Name) (sd : Send V X) :
    (∃ x, Model.addSend c n sd = .error x ∧ Model.addSend d n sd = .error x) ∨
    ∃ c' d', Model.addSend c n sd = .ok c' ∧ Model.addSend d n sd = .ok d' ∧ AgreeOn P c' d' ∧ c'.steps = c.steps := by
  unfold Model.addSend
  split
  · exact Or.inl ⟨_, rfl, rfl⟩
  · refine Or.inr ⟨_, _, rfl, rfl, ⟨h.steps, h.tracker, h.optional, fun m hm => ?_, h.inserts⟩, rfl⟩
    by_cases e : m = n
    · subst e
      simp only [Dict.get?_set_self, h.sends m hm]
    · simp only [Dict.get?_set_ne _ _ e, h.sends m hm]

theorem AgreeOn.idleSend {P : Name → Bool} {c c' d : Comp V X} (h : AgreeOn P c d) {n : Name} (hn : P n = false) {sd : Send V X}
    (hc : Model.addSend c n sd = .ok c') : AgreeOn P c' d ∧ c'.steps = c.steps := by
  unfold Model.addSend at hc
  split at hc
  · cases hc
  · cases hc
    refine ⟨⟨h.steps, h.tracker, h.optional, fun m hm => ?_, h.inserts⟩, rfl⟩
    have e : m ≠ n := by rintro rfl; rw [hm] at hn; cases hn
    simp only [Dict.get?_set_ne _ _ e, h.sends m hm]

theorem AgreeOn.trackSend [PyNone V] {P : Name → Bool} {c d : Comp V X} (h : AgreeOn P c d) (n : Name) (s : Step V X) :
    AgreeOn P (addTrackSend c n s) (addTrackSend d n s) ∧ (addTrackSend c n s).steps = c.steps := by
  unfold addTrackSend
  rw [← h.tracker]
  rcases c.tracker with _ | t
  · exact ⟨h, rfl⟩
  · simp only
    rcases h.addSend n { pipe := some (trackPipe t n s), target := .none, pointer := .none } with ⟨x, h1, h2⟩ | ⟨c', d', h1, h2, h3, h4⟩
    · rw [h1, h2]; exact ⟨h, rfl⟩
    · rw [h1, h2]; exact ⟨h3, h4⟩

theorem AgreeOn.trackSends [PyNone V] {P : Name → Bool} (l : Dict Name (Step V X)) {c d : Comp V X} (h : AgreeOn P c d) :
    AgreeOn P (addTrackSends c l) (addTrackSends d l) ∧ (addTrackSends c l).steps = c.steps := by
  induction l generalizing c d with
  | nil => exact ⟨h, rfl⟩
  | cons p t ih =>
    obtain ⟨n, s⟩ := p
    have := h.trackSend n s
    exact ⟨(ih this.1).1, (ih this.1).2.trans this.2⟩

theorem AgreeOn.capturesLoop [PyNone V] {P : Name → Bool} (l : List Name) (caps : Dict Name Nat) {c d : Comp V X} (h : AgreeOn P c d)
    (w : World V X) :
    AgreeOn P (addCapturesLoop c l caps w).1 (addCapturesLoop d l caps w).1 ∧
    (addCapturesLoop c l caps w).2 = (addCapturesLoop d l caps w).2 ∧ (addCapturesLoop c l caps w).1.steps = c.steps := by
  induction l generalizing c d caps w with
  | nil => exact ⟨⟨h.steps, h.tracker, h.optional, h.sends, h.inserts⟩, rfl, rfl⟩
  | cons n t ih =>
    simp only [addCapturesLoop]
    have key : AgreeOn P (addCapture c n w).1 (addCapture d n w).1 ∧ (addCapture c n w).2 = (addCapture d n w).2 ∧
        (addCapture c n w).1.steps = c.steps := by
      unfold addCapture
      rcases h.addSend n { pipe := .none, target := some (.list w.nextList), pointer := .int 0 } with
        ⟨x, h1, h2⟩ | ⟨c', d', h1, h2, h3, h4⟩
      · rw [h1, h2]; exact ⟨h, rfl, rfl⟩
      · rw [h1, h2]; exact ⟨h3, rfl, h4⟩
    have := ih (caps ++ [(n, w.nextList)]) key.1 (addCapture c n w).2
    rw [← key.2.1]
    exact ⟨this.1, this.2.1, this.2.2.trans key.2.2⟩

/-- the names of the steps are in `P` -/
def StepsIn (P : Name → Bool) (c : Comp V X) : Prop := ∀ n ∈ c.steps.keys, P n = true

theorem StepsIn.set {P : Name → Bool} {d : Dict Name (Step V X)} (h : ∀ n ∈ d.keys, P n = true) {n : Name} (hn : P n = true)
    (s : Step V X) : ∀ m ∈ (d.set n s).keys, P m = true := by
  intro m hm
  rw [Dict.keys_set] at hm
  split at hm
  · exact h m hm
  · rcases List.mem_append.1 hm with hm | hm
    · exact h m hm
    · rw [List.mem_singleton.1 hm]; exact hn

theorem AgreeOn.edit [PyNone V] {P : Name → Bool} {c d : Comp V X} (h : AgreeOn P c d) (hs : StepsIn P c) (w : World V X)
    (e : CompEdit V X) (he : NamesWithin P e) :
    AgreeOn P (editComp (c, w) e).1 (editComp (d, w) e).1 ∧ (editComp (c, w) e).2 = (editComp (d, w) e).2 ∧
    StepsIn P (editComp (c, w) e).1 := by
  cases e with
  | addStep s name =>
    have hn : P (name.getD (.int (c.steps.length + 1))) = true := by
      cases name with
      | none => exact he _
      | some n => exact he
    have h' : AgreeOn P { c with steps := c.steps.set (name.getD (.int (c.steps.length + 1))) s }
        { d with steps := d.steps.set (name.getD (.int (d.steps.length + 1))) s } :=
      ⟨by rw [h.steps], h.tracker, h.optional, h.sends, h.inserts⟩
    have := h'.trackSend (name.getD (.int (c.steps.length + 1))) s
    refine ⟨?_, rfl, ?_⟩
    · have h2 := this.1
      simp only [editComp, addStep]
      rw [show (d.steps.length : Int) = c.steps.length by rw [h.steps]] at h2 ⊢
      exact h2
    · intro m hm
      simp only [editComp, addStep] at hm
      rw [this.2] at hm
      exact StepsIn.set hs hn s m hm
  | addSend n sd =>
    simp only [editComp]
    rcases h.addSend n sd with ⟨x, h1, h2⟩ | ⟨c', d', h1, h2, h3, h4⟩
    · rw [h1, h2]; exact ⟨h, rfl, hs⟩
    · rw [h1, h2]
      refine ⟨h3, rfl, ?_⟩
      intro m hm
      rw [h4] at hm
      exact hs m hm
  | addInsert n k v => exact ⟨h.addInsert n k v, rfl, hs⟩
  | reindex =>
    refine ⟨⟨?_, h.tracker, h.optional, h.sends, h.inserts⟩, rfl, ?_⟩
    · simp only [editComp, reindex, h.steps]
    · intro m hm
      simp only [editComp, reindex, Dict.keys, List.map_map, List.mem_map] at hm
      obtain ⟨p, _, rfl⟩ := hm
      exact he _
  | track =>
    simp only [editComp, trackOn, ← h.tracker, ← h.steps]
    rcases ht : c.tracker with _ | t
    · have h' : AgreeOn P { c with tracker := some logTracker } { d with tracker := some logTracker } :=
        ⟨h.steps, rfl, h.optional, h.sends, h.inserts⟩
      have := h'.trackSends c.steps
      refine ⟨by simpa only [h.steps] using this.1, trivial, ?_⟩
      intro m hm
      rw [this.2] at hm
      exact hs m hm
    · exact ⟨h, trivial, hs⟩
  | captures =>
    have := h.capturesLoop c.steps.keys [] w
    simp only [editComp, addCaptures, ← h.steps]
    refine ⟨this.1, this.2.1, ?_⟩
    intro m hm
    rw [this.2.2] at hm
    exact hs m hm
  | run v =>
    have := h.execute hs v w
    refine ⟨this.comp, this.world, ?_⟩
    intro m hm
    simp only [editComp] at hm
    rw [(execute_same c v w).steps] at hm
    exact hs m hm

theorem AgreeOn.idleEdit [PyNone V] {P : Name → Bool} {c d : Comp V X} (h : AgreeOn P c d) (w : World V X)
    (e : CompEdit V X) (he : isIdle P e = true) :
    AgreeOn P (editComp (c, w) e).1 d ∧ (editComp (c, w) e).2 = w ∧ (editComp (c, w) e).1.steps = c.steps := by
  cases e with
  | addSend n sd =>
    have hn : P n = false := by simpa [isIdle] using he
    simp only [editComp]
    cases hc : Model.addSend c n sd with
    | error x => exact ⟨h, rfl, rfl⟩
    | ok c' => exact ⟨(h.idleSend hn hc).1, rfl, (h.idleSend hn hc).2⟩
  | addInsert n k v =>
    have hn : P n = false := by simpa [isIdle] using he
    exact ⟨h.idleInsert hn k v, rfl, rfl⟩
  | _ => cases he

theorem outcomes_idle [PyNone V] {P : Name → Bool} (es : List (CompEdit V X)) (he : ∀ e ∈ es, NamesWithin P e) {c d : Comp V X}
    (h : AgreeOn P c d) (hs : StepsIn P c) (w : World V X) :
    outcomes es (c, w) = outcomes (es.filter fun e => !isIdle P e) (d, w) := by
  induction es generalizing c d w with
  | nil => rfl
  | cons e t ih =>
    have ht : ∀ e ∈ t, NamesWithin P e := fun e he' => he e (.tail _ he')
    by_cases hi : isIdle P e = true
    · obtain ⟨h1, h2, h3⟩ := h.idleEdit w e hi
      have hn : ∀ v, e ≠ .run v := by rintro v rfl; cases hi
      have ho : outcomes (e :: t) (c, w) = outcomes t (editComp (c, w) e) := by
        cases e with
        | run v => exact absurd rfl (hn v)
        | _ => rfl
      rw [ho, List.filter_cons_of_neg (by simp [hi])]
      have := ih ht h1 (w := w) (by intro m hm; rw [h3] at hm; exact hs m hm)
      rw [← this]
      congr 1
      exact Prod.ext rfl h2
    · obtain ⟨h1, h2, h3⟩ := h.edit hs w e (he e (.head _))
      rw [List.filter_cons_of_pos (by simp [hi])]
      have := ih ht h1 h3 (editComp (c, w) e).2
      cases e with
      | run v =>
        have ho := (h.execute hs v w).out
        simp only [outcomes]
        rw [ho]
        have h2' : (execute c v w).2.2 = (execute d v w).2.2 := h2
        have this' : outcomes t (execute c v w).2 = outcomes (t.filter fun e => !isIdle P e) (execute d v w).2 := by
          refine Eq.trans this ?_
          congr 1
          exact Prod.ext rfl h2'
        rw [this']
      | _ =>
        refine Eq.trans this ?_
        show _ = outcomes _ (editComp (d, w) _)
        rw [h2]

end Verif.Lemmas
