import Verif.Lemmas.CompSends
/-! # Captures -/
namespace Verif.Lemmas
open Verif Verif.Model Verif.Spec

variable {V X : Type}

/-- the action leaves the lists numbered from `m` to before `m + k` as they are -/
def Keeps {α : Type} (m k : Nat) (a : Act V X α) : Prop := ∀ w i, m ≤ i → i < m + k → (a w).2.lists i = w.lists i

/-- the function, however called, leaves them as they are -/
def FnKeeps (m k : Nat) (f : Fn V X) : Prop := ∀ args kw, Keeps m k (f args kw)

/-- so does the send -/
structure SendKeeps (m k : Nat) (sd : Send V X) : Prop where
  pipe : ∀ f, sd.pipe = some f → ∀ v, Keeps m k (f v)
  list : ∀ id, sd.target = some (.list id) → ¬ (m ≤ id ∧ id < m + k)
  write : ∀ f, sd.target = some (.writer f) → ∀ v, Keeps m k (f v)

/-- so does the step -/
structure StepKeeps (m k : Nat) (s : Step V X) : Prop where
  call : FnKeeps m k s.call
  func : ∀ f, s.func = some f → FnKeeps m k f

theorem placeInto_keeps {m k : Nat} {sd : Send V X} (h : SendKeeps m k sd) (c : Comp V X) (v : V) {t : Target V X}
    (ht : sd.target = some t) (p : Name) (w : World V X) {i : Nat} (h1 : m ≤ i) (h2 : i < m + k) :
    (placeInto c v t p w).2.2.lists i = w.lists i := by
  cases t with
  | list id =>
    have hne : i ≠ id := by rintro rfl; exact h.list _ ht ⟨h1, h2⟩
    cases p with
    | none => simp [placeInto, hne]
    | _ =>
      simp only [placeInto]
      split
      · simp [hne]
      · rfl
  | writer f => exact h.write f ht v w i h1 h2
  | _ => rfl

theorem performSend_keeps {m k : Nat} {sd : Send V X} (h : SendKeeps m k sd) (c : Comp V X) (v : V) (w : World V X) {i : Nat}
    (h1 : m ≤ i) (h2 : i < m + k) : (performSend c v sd w).2.2.lists i = w.lists i := by
  have hpl := fun c v t ht p w => placeInto_keeps h c v (t := t) ht p w h1 h2
  have hpi := h.pipe
  obtain ⟨p, t, ptr⟩ := sd
  cases t with
  | none =>
    cases p with
    | none => rfl
    | some p =>
      have h := hpi p rfl v w i h1 h2
      simp only [performSend]
      rcases hd : p v w with ⟨r, w'⟩
      rw [hd] at h
      cases r <;> exact h
  | some t =>
    cases p with
    | none => exact hpl c v t rfl ptr w
    | some p =>
      have h := hpi p rfl v w i h1 h2
      simp only [performSend]
      rcases hd : p v w with ⟨r, w'⟩
      rw [hd] at h
      cases r with
      | ok y => exact (hpl c y t rfl ptr w').trans h
      | error e => exact h

theorem performSendList_keeps {m k : Nat} {l : List (Send V X)} (h : ∀ sd ∈ l, SendKeeps m k sd) (c : Comp V X) (v : V)
    (w : World V X) {i : Nat} (h1 : m ≤ i) (h2 : i < m + k) : (performSendList c v l w).2.2.lists i = w.lists i := by
  induction l generalizing c w with
  | nil => rfl
  | cons sd t ih =>
    rw [performSendList]
    have hs := performSend_keeps (h sd List.mem_cons_self) c v w h1 h2
    rcases hd : performSend c v sd w with ⟨r, c1, w1⟩
    rw [hd] at hs
    cases r with
    | ok u => exact (ih (fun sd hs => h sd (List.mem_cons_of_mem _ hs)) c1 w1).trans hs
    | error e => exact hs

theorem callWith_keeps {m k : Nat} {f : Fn V X} (h : FnKeeps m k f) (v : V) (a : Dict Int V) (kw : Dict Str V) :
    Keeps m k (callWith f v a kw) := by
  unfold callWith
  split
  · exact h _ _
  · exact h _ _

theorem callStep_keeps {m k : Nat} {s : Step V X} (h : StepKeeps m k s) (c : Comp V X) (n : Name) (v : V) :
    Keeps m k (callStep c n s v) := by
  unfold callStep
  cases hf : s.func with
  | none => exact callWith_keeps h.call _ _ _
  | some f => exact callWith_keeps (h.func f hf) _ _ _

/-- the send of a capture -/
def captureSend (id : Nat) : Send V X := ⟨none, some (.list id), .int 0⟩

theorem captureSend_run (id : Nat) (c : Comp V X) (v : V) (w : World V X) (hl : (w.lists id).length = 1) :
    performSendList c v [captureSend id] w =
      (.ok (), c, { w with lists := fun i => if i = id then [v] else w.lists i }) := by
  have hs : listSet (w.lists id) (.int 0) v = .ok [v] := by
    obtain ⟨x, hx⟩ := List.length_eq_one_iff.1 hl
    rw [hx]; rfl
  simp only [performSendList, performSend, captureSend, placeInto, hs]

/-- a step whose last send captures: the capture holds the output if the step and its other sends succeed, and no other
list among `m …` changes -/
theorem doStep_captures {m k : Nat} {c : Comp V X} {n : Name} {s : Step V X} {v : V} {w : World V X} {sds : List (Send V X)}
    {id : Nat} (hs : sendsOf c n = sds ++ [captureSend id]) (hk : StepKeeps m k s) (hsk : ∀ sd ∈ sds, SendKeeps m k sd)
    (hid : m ≤ id) (hid' : id < m + k) (hl : (w.lists id).length = 1) {i : Nat} (h1 : m ≤ i) (h2 : i < m + k) :
    (doStep c n s v w).2.2.lists i = if i = id then (match (doStep c n s v w).1 with | .ok x => [x] | .error _ => w.lists i)
      else w.lists i := by
  rw [doStep]
  have hcall := callStep_keeps hk c n v w
  rcases hcs : callStep c n s v w with ⟨r, w1⟩
  rw [hcs] at hcall
  cases r with
  | error e =>
    simp only
    rw [hcall i h1 h2]
    split <;> rfl
  | ok x =>
    simp only [performSends]
    rw [show (c.sends.get? n).getD [] = sendsOf c n from rfl, hs, performSendList_append]
    have hsl := fun i h1 h2 => performSendList_keeps hsk c x w1 (i := i) h1 h2
    rcases hps : performSendList c x sds w1 with ⟨r, c2, w2⟩
    rw [hps] at hsl
    cases r with
    | error e =>
      simp only
      rw [hsl i h1 h2, hcall i h1 h2]
      split <;> rfl
    | ok u =>
      simp only
      rw [captureSend_run id c2 x w2 (by rw [hsl id hid hid', hcall id hid hid']; exact hl)]
      simp only
      by_cases hi : i = id
      · simp [hi]
      · simp only [if_neg hi]
        rw [hsl i h1 h2, hcall i h1 h2]

/-- what a run leaves in the captures -/
theorem iterSteps_captures {m k : Nat} (l : Dict Name (Step V X)) (j : Nat) {c : Comp V X} (v : V) (w : World V X)
    (hs : ∀ i (hi : i < l.length), ∃ sds, sendsOf c (l[i]).1 = sds ++ [captureSend (m + j + i)] ∧ (∀ sd ∈ sds, SendKeeps m k sd) ∧
      StepKeeps m k (l[i]).2)
    (hjk : j + l.length ≤ k) (hl : ∀ i, i < l.length → (w.lists (m + j + i)).length = 1) :
    (∀ i, i < l.length → (iterSteps c v l w).2.2.2.lists (m + j + i) =
      match (iterSteps c v l w).1[i]? with | some x => [x] | none => w.lists (m + j + i)) ∧
    ∀ i, i < j → (iterSteps c v l w).2.2.2.lists (m + i) = w.lists (m + i) := by
  induction l generalizing j c v w with
  | nil => exact ⟨fun i hi => absurd hi (Nat.not_lt_zero _), fun _ _ => rfl⟩
  | cons p t ih =>
    obtain ⟨n, s⟩ := p
    rw [List.length_cons] at hjk
    obtain ⟨sds, hsd, hsk, hk⟩ := hs 0 (Nat.succ_pos _)
    simp only [List.getElem_cons_zero, Nat.add_zero] at hsd hk
    have hd := fun i h1 h2 => doStep_captures (v := v) (w := w) hsd hk hsk (Nat.le_add_right _ _)
      (by omega) (hl 0 (Nat.succ_pos _)) (i := i) h1 h2
    have hsame := doStep_same c n s v w
    rw [iterSteps]
    rcases hdo : doStep c n s v w with ⟨r, c1, w1⟩
    rw [hdo] at hd hsame
    simp only at hd hsame
    cases r with
    | error e =>
      simp only at hd ⊢
      refine ⟨fun i hi => ?_, fun i hi => ?_⟩
      · rw [List.length_cons] at hi
        rw [hd _ (by omega) (by omega)]
        simp
      · rw [hd _ (by omega) (by omega), if_neg (by omega)]
    | ok x =>
      simp only at hd ⊢
      have ih' := ih (j + 1) (c := c1) x w1
        (fun i hi => by
          obtain ⟨sds, h1, h2, h3⟩ := hs (i + 1) (Nat.succ_lt_succ hi)
          refine ⟨sds, ?_, h2, ?_⟩
          · rw [sendsOf, hsame.sends]
            rw [show m + (j + 1) + i = m + j + (i + 1) by omega]
            exact h1
          · exact h3) (by omega)
        (fun i hi => by
          rw [hd _ (by omega) (by omega), if_neg (by omega), show m + (j + 1) + i = m + j + (i + 1) by omega]
          exact hl (i + 1) (Nat.succ_lt_succ hi))
      rcases hr : iterSteps c1 x t w1 with ⟨outs, e, c2, w2⟩
      rw [hr] at ih'
      simp only at ih' ⊢
      refine ⟨fun i hi => ?_, fun i hi => ?_⟩
      · cases i with
        | zero =>
          have := ih'.2 j (Nat.lt_succ_self _)
          simp only [Nat.add_zero, List.getElem?_cons_zero]
          rw [this, hd _ (by omega) (by omega), if_pos rfl]
        | succ i =>
          have := ih'.1 i (Nat.lt_of_succ_lt_succ hi)
          rw [show m + (j + 1) + i = m + j + (i + 1) by omega] at this
          rw [this, List.getElem?_cons_succ, hd _ (by rw [List.length_cons] at hi; omega) (by rw [List.length_cons] at hi; omega),
            if_neg (by omega)]
      · rw [ih'.2 i (by omega), hd _ (by omega) (by omega), if_neg (by omega)]

theorem addSend_capture (c : Comp V X) (n : Name) (id : Nat) : addSend c n (captureSend id) =
    .ok { c with sends := c.sends.set n (sendsOf c n ++ [captureSend id]) } := rfl

theorem addCapture_eq [PyNone V] (c : Comp V X) (n : Name) (w : World V X) :
    addCapture c n w = ({ c with sends := c.sends.set n (sendsOf c n ++ [captureSend w.nextList]) },
      { w with lists := fun i => if i = w.nextList then [PyNone.none] else w.lists i, nextList := w.nextList + 1 }) := rfl

/-- what the loop of `add_captures` does -/
theorem addCapturesLoop_spec [PyNone V] (names : List Name) (hn : names.Nodup) (c : Comp V X) (caps : Dict Name Nat)
    (w : World V X) :
    let r := addCapturesLoop c names caps w
    r.1.steps = c.steps ∧ r.1.tracker = c.tracker ∧ r.1.optional = c.optional ∧ r.1.inserts = c.inserts ∧
    r.1.captures = some (caps ++ names.mapIdx fun i n => (n, w.nextList + i)) ∧
    (∀ i (hi : i < names.length), sendsOf r.1 names[i] = sendsOf c names[i] ++ [captureSend (w.nextList + i)]) ∧
    (∀ n, n ∉ names → sendsOf r.1 n = sendsOf c n) ∧
    (∀ i, r.2.lists i = if w.nextList ≤ i ∧ i < w.nextList + names.length then [PyNone.none] else w.lists i) ∧
    r.2.nextList = w.nextList + names.length := by
  induction names generalizing c caps w with
  | nil =>
    simp only [addCapturesLoop]
    refine ⟨trivial, trivial, trivial, trivial, by simp, by simp, fun _ _ => rfl, fun i => ?_, rfl⟩
    rw [if_neg (by simp)]
  | cons n t ih =>
    obtain ⟨hnt, hn'⟩ := List.nodup_cons.1 hn
    rw [addCapturesLoop, addCapture_eq]
    obtain ⟨h1, h2, h3, h4, h5, h6, h7, h8, h9⟩ := ih hn' { c with sends := c.sends.set n (sendsOf c n ++ [captureSend w.nextList]) }
      (caps ++ [(n, w.nextList)])
      { w with lists := fun i => if i = w.nextList then [PyNone.none] else w.lists i, nextList := w.nextList + 1 }
    refine ⟨h1, h2, h3, h4, ?_, ?_, ?_, ?_, ?_⟩
    · rw [h5, List.mapIdx_cons, List.append_assoc, List.singleton_append]
      simp only [Nat.add_zero, Nat.add_assoc, Nat.add_comm 1]
    · intro i hi
      cases i with
      | zero =>
        simp only [List.getElem_cons_zero]
        rw [h7 n hnt]
        simp [sendsOf, Dict.get?_set]
      | succ i =>
        simp only [List.getElem_cons_succ]
        rw [h6 i (Nat.lt_of_succ_lt_succ hi)]
        have hne : n ≠ t[i]'(Nat.lt_of_succ_lt_succ hi) := fun h => hnt (h ▸ List.getElem_mem _)
        simp only [sendsOf, Dict.get?_set, if_neg hne]
        rw [show w.nextList + 1 + i = w.nextList + (i + 1) by omega]
    · intro m hm
      simp only [List.mem_cons, not_or] at hm
      rw [h7 m hm.2]
      simp only [sendsOf, Dict.get?_set, if_neg (Ne.symm hm.1)]
    · intro i
      rw [h8 i]
      simp only [List.length_cons]
      by_cases hi : i = w.nextList
      · subst hi
        rw [if_neg (by omega), if_pos rfl, if_pos (by omega)]
      · rw [if_neg hi]
        by_cases hb : w.nextList + 1 ≤ i ∧ i < w.nextList + 1 + t.length
        · rw [if_pos hb, if_pos (by omega)]
        · rw [if_neg hb, if_neg (by omega)]
    · rw [h9]; simp only [List.length_cons]; omega

end Verif.Lemmas
