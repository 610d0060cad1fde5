import Verif.Lemmas.Composition
/-! # Sends between steps, captures -/
namespace Verif.Lemmas
open Verif Verif.Model Verif.Spec

variable {V X : Type}

/-- the send goes to argument `p` of step `b` -/
def Hits (sd : Send V X) (b p : Name) : Prop := sd.target.bind Target.step? = some b ∧ sd.pointer = p

/-- `y` is what the send makes of the output `x`: the pipe is called in some world -/
def Piped (sd : Send V X) (x y : V) : Prop :=
  match sd.pipe with
  | none => y = x
  | some f => ∃ w w', f x w = (.ok y, w')

theorem insertsAt_addInsert (c : Comp V X) (n k : Name) (v : V) (b p : Name) :
    insertsAt (addInsert c n k v) b p = if n = b ∧ k = p then some v else insertsAt c b p := by
  unfold insertsAt addInsert
  simp only [Dict.get?_set]
  by_cases hn : n = b
  · subst hn
    simp only [if_true, Option.bind_some, Dict.get?_set, true_and]
    by_cases hk : k = p
    · rw [if_pos hk, if_pos hk]
    · rw [if_neg hk, if_neg hk]
      cases c.inserts.get? n <;> rfl
  · simp [hn]

/-- every step's inserts have distinct keys -/
def InsWF (c : Comp V X) : Prop := ∀ n d, c.inserts.get? n = some d → d.WF

theorem insWF_addInsert {c : Comp V X} (h : InsWF c) (n k : Name) (v : V) : InsWF (addInsert c n k v) := by
  intro m d hm
  simp only [addInsert, Dict.get?_set] at hm
  by_cases hn : n = m
  · rw [if_pos hn] at hm
    cases hm
    exact Dict.wf_set (insert_wf h n) _ _
  · rw [if_neg hn] at hm
    exact h m d hm

theorem placeInto_step (c : Comp V X) (v : V) {t : Target V X} {b : Name} (ht : t.step? = some b) (p : Name) (w : World V X) :
    placeInto c v t p w = (.ok (), addInsert c b p v, w) := by
  cases t <;> simp [Target.step?] at ht <;> subst ht <;> rfl

theorem placeInto_nostep (c : Comp V X) (v : V) {t : Target V X} (ht : t.step? = none) (p : Name) (w : World V X) :
    (placeInto c v t p w).2.1 = c := by
  cases t with
  | stepInt n => simp [Target.step?] at ht
  | stepStr n => simp [Target.step?] at ht
  | list id =>
    cases p with
    | none => rfl
    | _ =>
      simp only [placeInto]
      split <;> rfl
  | _ => rfl

theorem placeInto_insWF {c : Comp V X} (h : InsWF c) (v : V) (t : Target V X) (p : Name) (w : World V X) :
    InsWF (placeInto c v t p w).2.1 := by
  cases ht : t.step? with
  | none => rw [placeInto_nostep c v ht]; exact h
  | some b => rw [placeInto_step c v ht]; exact insWF_addInsert h _ _ _

theorem placeInto_ne (c : Comp V X) (v : V) (t : Target V X) (ptr : Name) (w : World V X) {b p : Name}
    (h : ¬ (t.step? = some b ∧ ptr = p)) : insertsAt (placeInto c v t ptr w).2.1 b p = insertsAt c b p := by
  cases ht : t.step? with
  | none => rw [placeInto_nostep c v ht]
  | some b' =>
    rw [placeInto_step c v ht, insertsAt_addInsert, if_neg]
    rintro ⟨rfl, rfl⟩
    exact h ⟨ht, rfl⟩

theorem performSend_ind {P : Comp V X → Prop} {c : Comp V X} (hc : P c) (v : V) (sd : Send V X) (w : World V X)
    (hp : ∀ t, sd.target = some t → ∀ y w', P (placeInto c y t sd.pointer w').2.1) : P (performSend c v sd w).2.1 := by
  obtain ⟨p, t, ptr⟩ := sd
  cases t with
  | none =>
    cases p with
    | none => exact hc
    | some p =>
      simp only [performSend]
      rcases p v w with ⟨r, w'⟩
      cases r <;> exact hc
  | some t =>
    cases p with
    | none => exact hp t rfl v w
    | some p =>
      simp only [performSend]
      rcases p v w with ⟨r, w'⟩
      cases r with
      | ok y => exact hp t rfl y w'
      | error e => exact hc

theorem performSendList_ind {P : Comp V X → Prop} (v : V) (l : List (Send V X))
    (hp : ∀ sd ∈ l, ∀ t, sd.target = some t → ∀ c, P c → ∀ y w', P (placeInto c y t sd.pointer w').2.1) {c : Comp V X}
    (hc : P c) (w : World V X) : P (performSendList c v l w).2.1 := by
  induction l generalizing c w with
  | nil => exact hc
  | cons sd t ih =>
    rw [performSendList]
    have h := performSend_ind hc v sd w (fun t ht y w' => hp sd List.mem_cons_self t ht c hc y w')
    rcases hd : performSend c v sd w with ⟨r, c1, w1⟩
    rw [hd] at h
    cases r with
    | ok u => exact ih (fun sd hsd => hp sd (List.mem_cons_of_mem _ hsd)) h w1
    | error e => exact h

/-- the sends of a step -/
def sendsOf (c : Comp V X) (n : Name) : List (Send V X) := (c.sends.get? n).getD []

theorem doStep_ind {P : Comp V X → Prop} {c : Comp V X} (hc : P c) (n : Name) (s : Step V X) (v : V) (w : World V X)
    (hp : ∀ sd ∈ sendsOf c n, ∀ t, sd.target = some t → ∀ c, P c → ∀ y w', P (placeInto c y t sd.pointer w').2.1) :
    P (doStep c n s v w).2.1 := by
  rw [doStep]
  rcases callStep c n s v w with ⟨r, w1⟩
  cases r with
  | error e => exact hc
  | ok v1 =>
    have h := performSendList_ind v1 (sendsOf c n) hp hc w1
    simp only [performSends]
    change P (performSendList c v1 ((c.sends.get? n).getD []) w1).2.1 at h
    rcases hd : performSendList c v1 ((c.sends.get? n).getD []) w1 with ⟨r, c2, w2⟩
    rw [hd] at h
    cases r <;> exact h

/-- what every send keeps, a run keeps -/
theorem iterSteps_ind {P : Comp V X → Prop} (l : Dict Name (Step V X)) (sends : Dict Name (List (Send V X)))
    (hp : ∀ n s, (n, s) ∈ l → ∀ sd ∈ (sends.get? n).getD [], ∀ t, sd.target = some t → ∀ c, P c → ∀ y w',
      P (placeInto c y t sd.pointer w').2.1) {c : Comp V X} (hs : c.sends = sends) (hc : P c) (v : V) (w : World V X) :
    P (iterSteps c v l w).2.2.1 := by
  induction l generalizing c v w with
  | nil => exact hc
  | cons p t ih =>
    obtain ⟨n, s⟩ := p
    rw [iterSteps]
    have h := doStep_ind hc n s v w (fun sd hsd => hp n s List.mem_cons_self sd (by rw [sendsOf, hs] at hsd; exact hsd))
    have h' := doStep_same c n s v w
    rcases hd : doStep c n s v w with ⟨r, c1, w1⟩
    rw [hd] at h h'
    cases r with
    | error e => exact h
    | ok v1 => exact ih (fun n s hm => hp n s (List.mem_cons_of_mem _ hm)) (h'.sends.trans hs) h v1 w1

theorem iterSteps_insWF {c : Comp V X} (h : InsWF c) (v : V) (l : Dict Name (Step V X)) (w : World V X) :
    InsWF (iterSteps c v l w).2.2.1 :=
  iterSteps_ind (P := InsWF) l c.sends (fun _ _ _ _ _ _ _ _ hc _ _ => placeInto_insWF hc _ _ _ _) rfl h v w

/-- steps that do not send to `(b, p)` leave it alone -/
theorem iterSteps_ne {c : Comp V X} (v : V) (l : Dict Name (Step V X)) (w : World V X) {b p : Name}
    (h : ∀ n s, (n, s) ∈ l → ∀ sd ∈ sendsOf c n, ¬ Hits sd b p) :
    insertsAt (iterSteps c v l w).2.2.1 b p = insertsAt c b p := by
  refine iterSteps_ind (P := fun c' => insertsAt c' b p = insertsAt c b p) l c.sends ?_ rfl rfl v w
  intro n s hm sd hsd t ht c' hc' y w'
  rw [placeInto_ne _ _ _ _ _ fun hh => h n s hm sd hsd ⟨by rw [ht]; exact hh.1, hh.2⟩]
  exact hc'

theorem performSendList_append (c : Comp V X) (v : V) (l l' : List (Send V X)) (w : World V X) :
    performSendList c v (l ++ l') w = match performSendList c v l w with
      | (.ok (), c1, w1) => performSendList c1 v l' w1
      | (.error e, c1, w1) => (.error e, c1, w1) := by
  induction l generalizing c w with
  | nil => rfl
  | cons sd t ih =>
    rw [List.cons_append, performSendList, performSendList]
    rcases performSend c v sd w with ⟨r, c1, w1⟩
    cases r with
    | ok u => exact ih c1 w1
    | error e => rfl

/-- a send to `(b, p)` that succeeds is delivered -/
theorem performSend_hits {c : Comp V X} {v : V} {sd : Send V X} {w : World V X} {b p : Name} (h : Hits sd b p)
    {c' : Comp V X} {w' : World V X} (he : performSend c v sd w = (.ok (), c', w')) :
    ∃ y, Piped sd v y ∧ insertsAt c' b p = some y := by
  obtain ⟨pipe, t, ptr⟩ := sd
  obtain ⟨h1, h2⟩ := h
  simp only at h1 h2
  subst h2
  cases t with
  | none => simp at h1
  | some t =>
    simp only [Option.bind_some] at h1
    cases pipe with
    | none =>
      simp only [performSend, placeInto_step c v h1, Prod.mk.injEq] at he
      refine ⟨v, rfl, ?_⟩
      rw [← he.2.1, insertsAt_addInsert, if_pos ⟨rfl, rfl⟩]
    | some f =>
      simp only [performSend] at he
      rcases hf : f v w with ⟨r, w1⟩
      rw [hf] at he
      cases r with
      | error e => simp at he
      | ok y =>
        simp only [placeInto_step c y h1, Prod.mk.injEq] at he
        refine ⟨y, ⟨w, w1, hf⟩, ?_⟩
        rw [← he.2.1, insertsAt_addInsert, if_pos ⟨rfl, rfl⟩]

/-- after a successful run of a row containing step `a`, which sends to `(b, p)`, and in which no later send goes there,
the insert `(b, p)` is the piped output of `a` -/
theorem delivered {c : Comp V X} {v : V} {w : World V X} {l1 l2 : Dict Name (Step V X)} {a : Name} {sa : Step V X}
    {s1 s2 : List (Send V X)} {sd : Send V X} {b p : Name} (hs : sendsOf c a = s1 ++ sd :: s2) (hh : Hits sd b p)
    (h2 : ∀ x ∈ s2, ¬ Hits x b p) (hl : ∀ n s, (n, s) ∈ l2 → ∀ x ∈ sendsOf c n, ¬ Hits x b p) {outs : List V} {c' : Comp V X}
    {w' : World V X} (hr : iterSteps c v (l1 ++ (a, sa) :: l2) w = (outs, none, c', w')) :
    ∃ x y, outs[l1.length]? = some x ∧ Piped sd x y ∧ insertsAt c' b p = some y := by
  rw [iterSteps_append] at hr
  have hsame := iterSteps_same c v l1 w
  rcases h1 : iterSteps c v l1 w with ⟨o1, e1, c1, w1⟩
  have hlen : e1 = none → o1.length = l1.length := fun h => iterSteps_length (h ▸ h1)
  rw [h1] at hr hsame
  cases e1 with
  | some e => simp at hr
  | none =>
    simp only at hr hsame
    rw [iterSteps] at hr
    have hsame2 := doStep_same c1 a sa (o1.getLast?.getD v) w1
    rcases hd : doStep c1 a sa (o1.getLast?.getD v) w1 with ⟨r, c2, w2⟩
    rw [hd] at hr hsame2
    cases r with
    | error e => simp at hr
    | ok x =>
      have hne := iterSteps_ne (c := c2) x l2 w2 (b := b) (p := p) (fun n s hm => by
        rw [sendsOf, hsame2.sends, hsame.sends]; exact hl n s hm)
      simp only at hr
      rcases ht : iterSteps c2 x l2 w2 with ⟨o2, e2, c3, w3⟩
      rw [ht] at hr hne
      simp only [Prod.mk.injEq] at hr hne
      obtain ⟨rfl, rfl, rfl, rfl⟩ := hr
      rw [doStep] at hd
      rcases hcs : callStep c1 a sa (o1.getLast?.getD v) w1 with ⟨r, w1'⟩
      rw [hcs] at hd
      cases r with
      | error e => simp at hd
      | ok x' =>
        simp only [performSends] at hd
        have hsends : (c1.sends.get? a).getD [] = s1 ++ sd :: s2 := by rw [hsame.sends]; exact hs
        rw [hsends, performSendList_append] at hd
        rcases hp1 : performSendList c1 x' s1 w1' with ⟨r, c4, w4⟩
        rw [hp1] at hd
        cases r with
        | error e => simp at hd
        | ok u =>
          simp only [performSendList] at hd
          rcases hp2 : performSend c4 x' sd w4 with ⟨r, c5, w5⟩
          rw [hp2] at hd
          cases r with
          | error e => simp at hd
          | ok u =>
            simp only at hd
            have hne2 := performSendList_ind (P := fun c' => insertsAt c' b p = insertsAt c5 b p) x' s2 (by
              intro sd' hsd' t ht' c' hc' y w'
              rw [placeInto_ne _ _ _ _ _ fun hh => h2 sd' hsd' ⟨by rw [ht']; exact hh.1, hh.2⟩]
              exact hc') rfl w5
            rcases hp3 : performSendList c5 x' s2 w5 with ⟨r, c6, w6⟩
            rw [hp3] at hd hne2
            cases r with
            | error e => simp at hd
            | ok u =>
              simp only [Prod.mk.injEq, Except.ok.injEq] at hd
              obtain ⟨rfl, rfl, rfl⟩ := hd
              obtain ⟨y, hy, hy'⟩ := performSend_hits hh hp2
              refine ⟨x', y, ?_, hy, ?_⟩
              · rw [List.getElem?_append_right (Nat.le_of_eq (hlen rfl)), hlen rfl]
                simp
              · rw [hne]
                exact hne2.trans hy'

end Verif.Lemmas
