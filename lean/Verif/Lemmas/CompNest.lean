import Verif.Lemmas.CompStore
import Verif.Model.CompNest
/-! # Nested Compositions -/
namespace Verif.Lemmas
open Verif Verif.Model Verif.Spec

variable {V X : Type}

/-- two Compositions, in the course of their runs: `R` is kept by inserts for the steps in `B` -/
def KeptBy (R : Comp V X → Comp V X → Prop) (B : Name → Prop) : Prop :=
  ∀ b, B b → ∀ k v c c', R c c' → R (addInsert c b k v) (addInsert c' b k v)

/-- the send goes to no step but those in `B` -/
def SendsWithin (B : Name → Prop) (sd : Send V X) : Prop := ∀ b, sd.target.bind Target.step? = some b → B b

theorem placeInto_sim {R : Comp V X → Comp V X → Prop} {B : Name → Prop} (hR : KeptBy R B) {c c' : Comp V X} (h : R c c')
    (v : V) (t : Target V X) (ht : ∀ b, t.step? = some b → B b) (p : Name) (w : World V X) :
    (placeInto c v t p w).1 = (placeInto c' v t p w).1 ∧ (placeInto c v t p w).2.2 = (placeInto c' v t p w).2.2 ∧
      R (placeInto c v t p w).2.1 (placeInto c' v t p w).2.1 := by
  cases t with
  | stepInt n => exact ⟨rfl, rfl, hR _ (ht _ rfl) _ _ _ _ h⟩
  | stepStr n => exact ⟨rfl, rfl, hR _ (ht _ rfl) _ _ _ _ h⟩
  | list id =>
    cases p with
    | none => exact ⟨rfl, rfl, h⟩
    | _ =>
      simp only [placeInto]
      split <;> exact ⟨rfl, rfl, h⟩
  | dict id => exact ⟨rfl, rfl, h⟩
  | writer f => exact ⟨rfl, rfl, h⟩
  | inert => exact ⟨rfl, rfl, h⟩

theorem performSend_sim {R : Comp V X → Comp V X → Prop} {B : Name → Prop} (hR : KeptBy R B) {c c' : Comp V X} (h : R c c')
    (v : V) (sd : Send V X) (hsd : SendsWithin B sd) (w : World V X) :
    (performSend c v sd w).1 = (performSend c' v sd w).1 ∧ (performSend c v sd w).2.2 = (performSend c' v sd w).2.2 ∧
      R (performSend c v sd w).2.1 (performSend c' v sd w).2.1 := by
  obtain ⟨p, t, ptr⟩ := sd
  cases t with
  | none =>
    cases p with
    | none => exact ⟨rfl, rfl, h⟩
    | some p =>
      simp only [performSend]
      rcases p v w with ⟨r, w'⟩
      cases r <;> exact ⟨rfl, rfl, h⟩
  | some t =>
    cases p with
    | none => exact placeInto_sim hR h v t (fun b hb => hsd b hb) ptr w
    | some p =>
      simp only [performSend]
      rcases p v w with ⟨r, w'⟩
      cases r with
      | ok y => exact placeInto_sim hR h y t (fun b hb => hsd b hb) ptr w'
      | error e => exact ⟨rfl, rfl, h⟩

theorem performSendList_sim {R : Comp V X → Comp V X → Prop} {B : Name → Prop} (hR : KeptBy R B) {c c' : Comp V X} (h : R c c')
    (v : V) (l : List (Send V X)) (hl : ∀ sd ∈ l, SendsWithin B sd) (w : World V X) :
    (performSendList c v l w).1 = (performSendList c' v l w).1 ∧
      (performSendList c v l w).2.2 = (performSendList c' v l w).2.2 ∧
      R (performSendList c v l w).2.1 (performSendList c' v l w).2.1 := by
  induction l generalizing c c' w with
  | nil => exact ⟨rfl, rfl, h⟩
  | cons sd t ih =>
    have hs := performSend_sim hR h v sd (hl sd List.mem_cons_self) w
    rw [performSendList, performSendList]
    rcases hd : performSend c v sd w with ⟨r, c1, w1⟩
    rcases hd' : performSend c' v sd w with ⟨r', c1', w1'⟩
    rw [hd, hd'] at hs
    obtain ⟨h1, h2, h3⟩ := hs
    simp only at h1 h2 h3
    subst h1 h2
    cases r with
    | ok u => exact ih h3 (fun sd hm => hl sd (List.mem_cons_of_mem _ hm)) w1
    | error e => exact ⟨rfl, rfl, h3⟩

theorem callStep_congr {c c' : Comp V X} {n : Name} (hi : c.inserts.get? n = c'.inserts.get? n) (s : Step V X) (v : V) :
    callStep c n s v = callStep c' n s v := by
  unfold callStep
  rw [hi]

theorem doStep_sim {R : Comp V X → Comp V X → Prop} {B : Name → Prop} (hR : KeptBy R B) {c c' : Comp V X} (h : R c c')
    {n : Name} (s : Step V X) (hi : c.inserts.get? n = c'.inserts.get? n) (hs : sendsOf c n = sendsOf c' n)
    (hl : ∀ sd ∈ sendsOf c n, SendsWithin B sd) (v : V) (w : World V X) :
    (doStep c n s v w).1 = (doStep c' n s v w).1 ∧ (doStep c n s v w).2.2 = (doStep c' n s v w).2.2 ∧
      R (doStep c n s v w).2.1 (doStep c' n s v w).2.1 := by
  rw [doStep, doStep, callStep_congr hi]
  rcases callStep c' n s v w with ⟨r, w1⟩
  cases r with
  | error e => exact ⟨rfl, rfl, h⟩
  | ok x =>
    simp only [performSends]
    rw [show (c.sends.get? n).getD [] = sendsOf c n from rfl, show (c'.sends.get? n).getD [] = sendsOf c' n from rfl, ← hs]
    obtain ⟨h1, h2, h3⟩ := performSendList_sim hR h x (sendsOf c n) hl w1
    rcases hd : performSendList c x (sendsOf c n) w1 with ⟨r, c2, w2⟩
    rcases hd' : performSendList c' x (sendsOf c n) w1 with ⟨r', c2', w2'⟩
    rw [hd, hd'] at h1 h2 h3
    simp only at h1 h2 h3
    subst h1 h2
    cases r <;> exact ⟨rfl, rfl, h3⟩

/-- two Compositions that agree on the steps of a list, and go on agreeing -/
theorem iterSteps_sim {R : Comp V X → Comp V X → Prop} {B : Name → Prop} (hR : KeptBy R B) (l : Dict Name (Step V X))
    (hi : ∀ p ∈ l, ∀ c c', R c c' → c.inserts.get? p.1 = c'.inserts.get? p.1)
    (hs : ∀ p ∈ l, ∀ c c', R c c' → sendsOf c p.1 = sendsOf c' p.1 ∧ ∀ sd ∈ sendsOf c p.1, SendsWithin B sd)
    {c c' : Comp V X} (h : R c c') (v : V) (w : World V X) :
    (iterSteps c v l w).1 = (iterSteps c' v l w).1 ∧ (iterSteps c v l w).2.1 = (iterSteps c' v l w).2.1 ∧
      (iterSteps c v l w).2.2.2 = (iterSteps c' v l w).2.2.2 ∧
      R (iterSteps c v l w).2.2.1 (iterSteps c' v l w).2.2.1 := by
  induction l generalizing c c' v w with
  | nil => exact ⟨rfl, rfl, rfl, h⟩
  | cons p t ih =>
    obtain ⟨n, s⟩ := p
    obtain ⟨h1, h2, h3⟩ := doStep_sim hR h s (hi _ List.mem_cons_self c c' h) (hs _ List.mem_cons_self c c' h).1
      (hs _ List.mem_cons_self c c' h).2 v w
    rw [iterSteps, iterSteps]
    rcases hd : doStep c n s v w with ⟨r, c1, w1⟩
    rcases hd' : doStep c' n s v w with ⟨r', c1', w1'⟩
    rw [hd, hd'] at h1 h2 h3
    simp only at h1 h2 h3
    subst h1 h2
    cases r with
    | error e => exact ⟨rfl, rfl, rfl, h3⟩
    | ok x =>
      obtain ⟨k1, k2, k3, k4⟩ := ih (fun p hp => hi p (List.mem_cons_of_mem _ hp)) (fun p hp => hs p (List.mem_cons_of_mem _ hp))
        h3 x w1
      refine ⟨?_, k2, k3, k4⟩
      simp only
      rw [k1]

/-- no sends to steps: a run leaves the Composition as it is -/
theorem performSendList_stays {l : List (Send V X)} (hl : ∀ sd ∈ l, sd.target.bind Target.step? = none) (c : Comp V X) (v : V)
    (w : World V X) : (performSendList c v l w).2.1 = c := by
  refine performSendList_ind (P := fun c' => c' = c) v l ?_ rfl w
  intro sd hsd t ht c' hc' y w'
  have := hl sd hsd
  rw [ht] at this
  rw [placeInto_nostep c' y this]
  exact hc'

theorem iterSteps_stays {c : Comp V X} (h : ∀ n, ∀ sd ∈ sendsOf c n, sd.target.bind Target.step? = none) (v : V)
    (l : Dict Name (Step V X)) (w : World V X) : (iterSteps c v l w).2.2.1 = c := by
  refine iterSteps_ind (P := fun c' => c' = c) l c.sends ?_ rfl rfl v w
  intro n s _ sd hsd t ht c' hc' y w'
  have := h n sd hsd
  rw [ht] at this
  rw [placeInto_nostep c' y this]
  exact hc'

/-- what `execute` gives, without a tracker -/
theorem execute_untracked [PyNone V] {c : Comp V X} (ht : c.tracker = none) (v : V) (w : World V X) :
    execute c v w = (match (itercall c v w).2.1 with
      | none => .ok ((itercall c v w).1.getLast?.getD PyNone.none)
      | some e => if (fromGenerator e).isException && c.optional then .ok PyNone.none else .error (fromGenerator e),
      (itercall c v w).2.2.1, (itercall c v w).2.2.2) := by
  unfold execute
  rcases itercall c v w with ⟨outs, e, c', w'⟩
  cases e with
  | none => rfl
  | some e =>
    simp only [ht]
    by_cases he : (fromGenerator e).isException = true
    · simp only [he, if_true, Bool.true_and]
    · have hf : fromGenerator e = e := by cases e <;> first | rfl | exact absurd rfl he
      rw [if_neg he]
      simp only [hf] at he ⊢
      simp [he]

end Verif.Lemmas
