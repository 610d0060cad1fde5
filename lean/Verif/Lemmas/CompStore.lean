import Verif.Lemmas.CompSends
/-! # Sends to objects outside the pipeline -/
namespace Verif.Lemmas
open Verif Verif.Model Verif.Spec

variable {V X β : Type}

/-- the send leaves what is observed as it is -/
def SendLeaves (obs : World V X → β) (sd : Send V X) : Prop := ∀ c v w, obs (performSend c v sd w).2.2 = obs w

/-- so does the step, however called -/
structure StepLeaves (obs : World V X → β) (s : Step V X) : Prop where
  call : ∀ args kw w, obs (s.call args kw w).2 = obs w
  func : ∀ f, s.func = some f → ∀ args kw w, obs (f args kw w).2 = obs w

variable {obs : World V X → β}

theorem performSendList_leaves {l : List (Send V X)} (h : ∀ sd ∈ l, SendLeaves obs sd) (c : Comp V X) (v : V) (w : World V X) :
    obs (performSendList c v l w).2.2 = obs w := by
  induction l generalizing c w with
  | nil => rfl
  | cons sd t ih =>
    rw [performSendList]
    have hs := h sd List.mem_cons_self c v w
    rcases hd : performSend c v sd w with ⟨r, c1, w1⟩
    rw [hd] at hs
    cases r with
    | ok u => exact (ih (fun sd hs => h sd (List.mem_cons_of_mem _ hs)) c1 w1).trans hs
    | error e => exact hs

theorem callStep_leaves {s : Step V X} (h : StepLeaves obs s) (c : Comp V X) (n : Name) (v : V) (w : World V X) :
    obs (callStep c n s v w).2 = obs w := by
  have hw : ∀ f : Fn V X, (∀ args kw w, obs (f args kw w).2 = obs w) → ∀ a kw, obs (callWith f v a kw w).2 = obs w := by
    intro f hf a kw
    unfold callWith
    split
    · exact hf _ _ _
    · exact hf _ _ _
  unfold callStep
  cases hf : s.func with
  | none => exact hw _ h.call _ _
  | some f => exact hw _ (h.func f hf) _ _

theorem doStep_leaves {c : Comp V X} {n : Name} {s : Step V X} (hs : StepLeaves obs s)
    (h : ∀ sd ∈ sendsOf c n, SendLeaves obs sd) (v : V) (w : World V X) : obs (doStep c n s v w).2.2 = obs w := by
  rw [doStep]
  have hc := callStep_leaves hs c n v w
  rcases hcs : callStep c n s v w with ⟨r, w1⟩
  rw [hcs] at hc
  cases r with
  | error e => exact hc
  | ok x =>
    simp only [performSends]
    have hp := performSendList_leaves h c x w1
    rw [show (c.sends.get? n).getD [] = sendsOf c n from rfl]
    rcases hps : performSendList c x (sendsOf c n) w1 with ⟨r, c2, w2⟩
    rw [hps] at hp
    cases r <;> exact hp.trans hc

theorem iterSteps_leaves {l : Dict Name (Step V X)} {c : Comp V X}
    (h : ∀ n s, (n, s) ∈ l → StepLeaves obs s ∧ ∀ sd ∈ sendsOf c n, SendLeaves obs sd) (v : V) (w : World V X) :
    obs (iterSteps c v l w).2.2.2 = obs w := by
  induction l generalizing c v w with
  | nil => rfl
  | cons p t ih =>
    obtain ⟨n, s⟩ := p
    rw [iterSteps]
    have h1 := h n s List.mem_cons_self
    have hd := doStep_leaves h1.1 h1.2 v w
    have hsame := doStep_same c n s v w
    rcases hdo : doStep c n s v w with ⟨r, c1, w1⟩
    rw [hdo] at hd hsame
    cases r with
    | error e => exact hd
    | ok x =>
      refine (ih (c := c1) (fun n s hm => ?_) x w1).trans hd
      have := h n s (List.mem_cons_of_mem _ hm)
      rw [sendsOf, hsame.sends]
      exact this

/-- the send stores the (piped) output in the object observed, or raises and leaves it -/
def SendStores (obs : World V X → β) (upd : β → V → Option β) (sd : Send V X) : Prop :=
  ∀ c x w, (∃ y, Piped sd x y ∧ (performSend c x sd w).1 = .ok () ∧ upd (obs w) y = some (obs (performSend c x sd w).2.2)) ∨
    ∃ e, (performSend c x sd w).1 = .error e ∧ obs (performSend c x sd w).2.2 = obs w

variable {upd : β → V → Option β}

theorem doStep_stores {c : Comp V X} {n : Name} {s : Step V X} {sds : List (Send V X)} {sd : Send V X}
    (hs : sendsOf c n = sds ++ [sd]) (hk : StepLeaves obs s) (hl : ∀ sd ∈ sds, SendLeaves obs sd) (hsd : SendStores obs upd sd)
    (v : V) (w : World V X) :
    match (doStep c n s v w).1 with
    | .ok x => ∃ y, Piped sd x y ∧ upd (obs w) y = some (obs (doStep c n s v w).2.2)
    | .error _ => obs (doStep c n s v w).2.2 = obs w := by
  rw [doStep]
  have hc := callStep_leaves hk c n v w
  rcases hcs : callStep c n s v w with ⟨r, w1⟩
  rw [hcs] at hc
  cases r with
  | error e => exact hc
  | ok x =>
    simp only [performSends]
    rw [show (c.sends.get? n).getD [] = sendsOf c n from rfl, hs, performSendList_append]
    have hp := performSendList_leaves hl c x w1
    rcases hps : performSendList c x sds w1 with ⟨r, c2, w2⟩
    rw [hps] at hp
    cases r with
    | error e => exact hp.trans hc
    | ok u =>
      simp only [performSendList]
      have hst := hsd c2 x w2
      rcases hpf : performSend c2 x sd w2 with ⟨r, c3, w3⟩
      rw [hpf] at hst
      simp only at hp hc hst
      rw [hp, hc] at hst
      cases r with
      | ok u =>
        simp only
        rcases hst with ⟨y, h1, _, h2⟩ | ⟨e, h, _⟩
        · exact ⟨y, h1, h2⟩
        · cases h
      | error e =>
        simp only
        rcases hst with ⟨y, _, h, _⟩ | ⟨e, _, h⟩
        · cases h
        · exact h

/-- what one run leaves -/
theorem iterSteps_stores {c : Comp V X} {pre post : Dict Name (Step V X)} {a : Name} {sa : Step V X} {sds : List (Send V X)}
    {sd : Send V X} (hs : sendsOf c a = sds ++ [sd]) (hk : StepLeaves obs sa) (hl : ∀ sd ∈ sds, SendLeaves obs sd)
    (hsd : SendStores obs upd sd)
    (h : ∀ n s, (n, s) ∈ pre ++ post → StepLeaves obs s ∧ ∀ sd ∈ sendsOf c n, SendLeaves obs sd) (v : V) (w : World V X) :
    match (iterSteps c v (pre ++ (a, sa) :: post) w).1[pre.length]? with
    | some x => ∃ y, Piped sd x y ∧ upd (obs w) y = some (obs (iterSteps c v (pre ++ (a, sa) :: post) w).2.2.2)
    | none => obs (iterSteps c v (pre ++ (a, sa) :: post) w).2.2.2 = obs w := by
  rw [iterSteps_append]
  have hpre := iterSteps_leaves (c := c) (l := pre) (fun n s hm => h n s (List.mem_append_left _ hm)) v w
  have hsame := iterSteps_same c v pre w
  rcases h1 : iterSteps c v pre w with ⟨o1, e1, c1, w1⟩
  have hlen : e1 = none → o1.length = pre.length := fun h => iterSteps_length (h ▸ h1)
  rw [h1] at hpre hsame
  cases e1 with
  | some e =>
    simp only
    have hle : o1.length ≤ pre.length := by
      have := iterSteps_fail h1
      obtain ⟨n, s, c', w', hm, _⟩ := this
      exact Nat.le_of_lt (List.getElem?_eq_some_iff.1 hm).1
    rw [List.getElem?_eq_none hle]
    exact hpre
  | none =>
    have hlen := hlen rfl
    simp only
    rw [List.getElem?_append_right (by omega), hlen, Nat.sub_self, iterSteps]
    have hd := doStep_stores (c := c1) (n := a) (s := sa) (sds := sds) (sd := sd) (by rw [sendsOf, hsame.sends]; exact hs) hk hl hsd
      (o1.getLast?.getD v) w1
    have hsame2 := doStep_same c1 a sa (o1.getLast?.getD v) w1
    rcases hdo : doStep c1 a sa (o1.getLast?.getD v) w1 with ⟨r, c2, w2⟩
    rw [hdo] at hd hsame2
    simp only at hpre
    cases r with
    | error e =>
      simp only [List.getElem?_nil] at hd ⊢
      exact hd.trans hpre
    | ok x =>
      have hpost := iterSteps_leaves (c := c2) (l := post) (obs := obs) (fun n s hm => by
        have := h n s (List.mem_append_right _ hm)
        rw [sendsOf, hsame2.sends, hsame.sends]
        exact this) x w2
      simp only [List.getElem?_cons_zero] at hd ⊢
      obtain ⟨y, h1, h2⟩ := hd
      refine ⟨y, h1, ?_⟩
      rw [hpost, ← hpre]
      exact h2

/-- run after run, each consumed to its end: the states each yields, and what is left at the end -/
def playRuns (c : Comp V X) : List V → World V X → List (List V) × Comp V X × World V X
  | [], w => ([], c, w)
  | v :: t, w =>
    let r := itercall c v w
    let rest := playRuns r.2.2.1 t r.2.2.2
    (r.1 :: rest.1, rest.2)

theorem playRuns_stores (sigs : List V) {c : Comp V X} {pre post : Dict Name (Step V X)} {a : Name} {sa : Step V X}
    {sds : List (Send V X)} {sd : Send V X} (hsteps : c.steps = pre ++ (a, sa) :: post) (hs : sendsOf c a = sds ++ [sd])
    (hk : StepLeaves obs sa) (hl : ∀ sd ∈ sds, SendLeaves obs sd) (hsd : SendStores obs upd sd)
    (h : ∀ n s, (n, s) ∈ pre ++ post → StepLeaves obs s ∧ ∀ sd ∈ sendsOf c n, SendLeaves obs sd) (w : World V X) :
    ∃ ys, List.Forall₂ (Piped sd) ((playRuns c sigs w).1.filterMap (·[pre.length]?)) ys ∧
      ys.foldlM upd (obs w) = some (obs (playRuns c sigs w).2.2) := by
  induction sigs generalizing c w with
  | nil => exact ⟨[], .nil, rfl⟩
  | cons v t ih =>
    have hsame := iterSteps_same c v c.steps w
    have h1 := iterSteps_stores (post := post) (sa := sa) hs hk hl hsd h v w
    rw [← hsteps] at h1
    obtain ⟨ys, hy, hf⟩ := ih (c := (itercall c v w).2.2.1) (hsame.steps.trans hsteps)
      (by rw [sendsOf]; rw [itercall, hsame.sends]; exact hs)
      (fun n s hm => by rw [sendsOf]; rw [itercall, hsame.sends]; exact h n s hm) (itercall c v w).2.2.2
    simp only [playRuns, List.filterMap_cons]
    change match (itercall c v w).1[pre.length]? with | some x => _ | none => _ at h1
    cases ho : (itercall c v w).1[pre.length]? with
    | none =>
      rw [ho] at h1
      refine ⟨ys, hy, ?_⟩
      rw [← hf]; congr 1; exact h1.symm
    | some x =>
      rw [ho] at h1
      obtain ⟨y, hp, hu⟩ := h1
      refine ⟨y :: ys, .cons hp hy, ?_⟩
      rw [List.foldlM_cons, hu]
      exact hf

/-- a send to a list or dict stores there -/
theorem sendStores_of {pipe : Option (V → Act V X V)} {t : Target V X} {ptr : Name}
    (hpipe : ∀ f, pipe = some f → ∀ v w, obs (f v w).2 = obs w)
    (ht : ∀ c y w, ((placeInto c y t ptr w).1 = .ok () ∧ upd (obs w) y = some (obs (placeInto c y t ptr w).2.2)) ∨
      ∃ e, (placeInto c y t ptr w).1 = .error e ∧ obs (placeInto c y t ptr w).2.2 = obs w) :
    SendStores obs upd (⟨pipe, some t, ptr⟩ : Send V X) := by
  intro c x w
  cases pipe with
  | none =>
    simp only [performSend]
    rcases ht c x w with ⟨h1, h2⟩ | h
    · exact Or.inl ⟨x, rfl, h1, h2⟩
    · exact Or.inr h
  | some f =>
    have hf := hpipe f rfl x w
    simp only [performSend]
    rcases hd : f x w with ⟨r, w1⟩
    rw [hd] at hf
    cases r with
    | error e => exact Or.inr ⟨e, rfl, hf⟩
    | ok y =>
      have := ht c y w1
      simp only at hf
      rw [hf] at this
      rcases this with ⟨h1, h2⟩ | h
      · exact Or.inl ⟨y, ⟨w, w1, hd⟩, h1, h2⟩
      · exact Or.inr h

end Verif.Lemmas
