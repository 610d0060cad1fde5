import Verif.Lemmas.CompStore
import Verif.Props.Composition
/-!
# C88: sends to lists and dicts

`playRuns c sigs w` runs the pipeline once for each signal of `sigs` (`for state in composition.itercall(signal)`), failing
runs included; `.1` has the states each run yielded. The object a step sends to is changed by nothing else in the pipeline
(`SendLeaves`, `StepLeaves`).
-/
namespace Verif.Props
open Verif Verif.Model Verif.Lemmas Verif.Spec

variable {V X : Type}

/-- only step `a` (number `pre.length`) changes what is observed, by its last send -/
structure OnlyBy {β : Type} (obs : World V X → β) (c : Comp V X) (pre post : Dict Name (Step V X)) (a : Name) (sa : Step V X)
    (sds : List (Send V X)) (sd : Send V X) : Prop where
  steps : c.steps = pre ++ (a, sa) :: post
  sends : sendsOf c a = sds ++ [sd]
  step : StepLeaves obs sa
  others : ∀ x ∈ sds, SendLeaves obs x
  pipe : ∀ f, sd.pipe = some f → ∀ v w, obs (f v w).2 = obs w
  rest : ∀ n s, (n, s) ∈ pre ++ post → StepLeaves obs s ∧ ∀ x ∈ sendsOf c n, SendLeaves obs x

/-- C88, a list without pointer: after any runs the list has grown by the (piped) outputs of the step, one for each run in
which the step and its sends succeeded, in order -/
theorem C88_list_collects (c : Comp V X) (pre post : Dict Name (Step V X)) (a : Name) (sa : Step V X) (sds : List (Send V X))
    (sd : Send V X) (id : Nat) (ht : sd.target = some (.list id)) (hp : sd.pointer = .none)
    (h : OnlyBy (fun w => w.lists id) c pre post a sa sds sd) (sigs : List V) (w : World V X) :
    ∃ ys, List.Forall₂ (Piped sd) ((playRuns c sigs w).1.filterMap (·[pre.length]?)) ys ∧
      (playRuns c sigs w).2.2.lists id = w.lists id ++ ys := by
  obtain ⟨pipe, t, ptr⟩ := sd
  simp only at ht hp
  subst ht; subst hp
  obtain ⟨ys, h1, h2⟩ := playRuns_stores (obs := fun w : World V X => w.lists id) (upd := fun l y => some (l ++ [y])) sigs h.steps
    h.sends h.step h.others (sendStores_of h.pipe fun c y w => Or.inl ⟨rfl, by simp [placeInto]⟩) h.rest w
  refine ⟨ys, h1, ?_⟩
  have hfold : ∀ (ys l : List V), ys.foldlM (fun l y => some (l ++ [y])) l = some (l ++ ys) := by
    intro ys
    induction ys with
    | nil => intro l; simp
    | cons y t ih => intro l; rw [List.foldlM_cons]; simp only [Option.bind_eq_bind, Option.bind_some]; rw [ih]; simp
  rw [hfold] at h2
  injection h2 with h2
  exact h2.symm

/-- the place of a list of length `n` that Python's index `i` means -/
def pyPlace (n : Nat) (i : Int) : Nat := if i < 0 then (n + i).toNat else i.toNat

theorem listSet_int (l : List V) (i : Int) (y : V) : listSet l (.int i) y =
    if -(l.length : Int) ≤ i ∧ i < l.length then .ok (l.set (pyPlace l.length i) y) else .error .indexError := by
  simp only [listSet, pyPlace]
  by_cases h1 : 0 ≤ i ∧ i < l.length
  · rw [if_pos h1, if_pos (by omega), if_neg (by omega)]
  · simp only [h1, if_false]
    by_cases h2 : i < 0 ∧ 0 ≤ i + l.length
    · rw [if_pos h2, if_pos (by omega), if_pos h2.1, Int.add_comm]
    · rw [if_neg h2, if_neg (by omega)]

/-- C88, a list with an integer pointer within its range (negative pointers count from the end): after any runs the element
there is the (piped) output of the step in the last run in which it succeeded, and no other element has changed -/
theorem C88_list_replaces (c : Comp V X) (pre post : Dict Name (Step V X)) (a : Name) (sa : Step V X) (sds : List (Send V X))
    (sd : Send V X) (id : Nat) (ht : sd.target = some (.list id)) (i : Int) (hp : sd.pointer = .int i)
    (h : OnlyBy (fun w => w.lists id) c pre post a sa sds sd) (sigs : List V) (w : World V X)
    (hr : -((w.lists id).length : Int) ≤ i ∧ i < (w.lists id).length) :
    ∃ ys, List.Forall₂ (Piped sd) ((playRuns c sigs w).1.filterMap (·[pre.length]?)) ys ∧
      (playRuns c sigs w).2.2.lists id =
        ys.getLast?.elim (w.lists id) fun y => (w.lists id).set (pyPlace (w.lists id).length i) y := by
  obtain ⟨pipe, t, ptr⟩ := sd
  simp only at ht hp
  subst ht; subst hp
  have hst : SendStores (fun w : World V X => w.lists id) (fun l y => (listSet l (.int i) y).toOption)
      (⟨pipe, some (.list id), .int i⟩ : Send V X) := by
    refine sendStores_of h.pipe fun c y w => ?_
    simp only [placeInto]
    cases hl : listSet (w.lists id) (.int i) y with
    | ok l => exact Or.inl ⟨rfl, by simp [Except.toOption]⟩
    | error e => exact Or.inr ⟨e, rfl, rfl⟩
  obtain ⟨ys, h1, h2⟩ := playRuns_stores (obs := fun w : World V X => w.lists id) sigs h.steps h.sends h.step h.others hst h.rest w
  refine ⟨ys, h1, ?_⟩
  have hfold : ∀ (ys l : List V), -(l.length : Int) ≤ i ∧ i < l.length →
      ys.foldlM (fun l y => (listSet l (.int i) y).toOption) l =
        some (ys.getLast?.elim l fun y => l.set (pyPlace l.length i) y) := by
    intro ys
    induction ys with
    | nil => intro l _; rfl
    | cons y t ih =>
      intro l hl
      rw [List.foldlM_cons, listSet_int, if_pos hl]
      change t.foldlM (fun l y => (listSet l (.int i) y).toOption) (l.set (pyPlace l.length i) y) = _
      rw [ih _ (by simpa using hl)]
      cases t with
      | nil => rfl
      | cons z t =>
        rw [List.getLast?_cons_cons]
        cases hg : (z :: t).getLast? with
        | none => cases List.getLast?_eq_none_iff.1 hg
        | some u => simp
  rw [hfold ys _ hr] at h2
  injection h2 with h2
  exact h2.symm

/-- C88: a pointer out of range stops every run that gets to the send, and the list stays as it is -/
theorem C88_list_out_of_range (c : Comp V X) (pre post : Dict Name (Step V X)) (a : Name) (sa : Step V X) (sds : List (Send V X))
    (sd : Send V X) (id : Nat) (ht : sd.target = some (.list id)) (i : Int) (hp : sd.pointer = .int i)
    (h : OnlyBy (fun w => w.lists id) c pre post a sa sds sd) (v : V) (w : World V X)
    (hr : ¬ (-((w.lists id).length : Int) ≤ i ∧ i < (w.lists id).length)) :
    (itercall c v w).1.length ≤ pre.length ∧ (itercall c v w).2.1 ≠ none ∧
      (itercall c v w).2.2.2.lists id = w.lists id := by
  obtain ⟨pipe, t, ptr⟩ := sd
  simp only at ht hp
  subst ht; subst hp
  have hst : SendStores (fun w : World V X => w.lists id) (fun l y => (listSet l (.int i) y).toOption)
      (⟨pipe, some (.list id), .int i⟩ : Send V X) := by
    refine sendStores_of h.pipe fun c y w => ?_
    simp only [placeInto]
    cases hl : listSet (w.lists id) (.int i) y with
    | ok l => exact Or.inl ⟨rfl, by simp [Except.toOption]⟩
    | error e => exact Or.inr ⟨e, rfl, rfl⟩
  have h1 := iterSteps_stores (post := post) (sa := sa) h.sends h.step h.others hst h.rest v w
  rw [← h.steps] at h1
  change match (itercall c v w).1[pre.length]? with | some x => _ | none => _ at h1
  cases ho : (itercall c v w).1[pre.length]? with
  | some x =>
    rw [ho] at h1
    obtain ⟨y, _, hu⟩ := h1
    simp only [listSet_int, if_neg hr, Except.toOption] at hu
    cases hu
  | none =>
    rw [ho] at h1
    have hle := List.getElem?_eq_none_iff.1 ho
    refine ⟨hle, fun hn => ?_, h1⟩
    have hlen : (itercall c v w).1.length = c.steps.length := by
      rcases hit : itercall c v w with ⟨o, e, c1, w1⟩
      rw [hit] at hn
      simp only at hn
      subst hn
      exact iterSteps_length hit
    rw [h.steps] at hlen
    simp at hlen
    omega

/-- C88, a dict: after any runs the dict has under the pointer the (piped) output of the step in the last run in which it
succeeded, and everything else as before -/
theorem C88_dict_keeps_last (c : Comp V X) (pre post : Dict Name (Step V X)) (a : Name) (sa : Step V X) (sds : List (Send V X))
    (sd : Send V X) (id : Nat) (ht : sd.target = some (.dict id))
    (h : OnlyBy (fun w => w.dicts id) c pre post a sa sds sd) (sigs : List V) (w : World V X) :
    ∃ ys, List.Forall₂ (Piped sd) ((playRuns c sigs w).1.filterMap (·[pre.length]?)) ys ∧
      ∀ k, ((playRuns c sigs w).2.2.dicts id).get? k =
        if k = sd.pointer ∧ ys ≠ [] then ys.getLast? else (w.dicts id).get? k := by
  obtain ⟨pipe, t, ptr⟩ := sd
  simp only at ht
  subst ht
  obtain ⟨ys, h1, h2⟩ := playRuns_stores (obs := fun w : World V X => w.dicts id) (upd := fun d y => some (d.set ptr y)) sigs
    h.steps h.sends h.step h.others (sendStores_of h.pipe fun c y w => Or.inl ⟨rfl, by simp [placeInto]⟩) h.rest w
  refine ⟨ys, h1, ?_⟩
  have hfold : ∀ (ys : List V) (d d' : Dict Name V), ys.foldlM (fun d y => some (d.set ptr y)) d = some d' →
      ∀ k, d'.get? k = if k = ptr ∧ ys ≠ [] then ys.getLast? else d.get? k := by
    intro ys
    induction ys with
    | nil => intro d d' hd k; simp at hd; simp [hd]
    | cons y t ih =>
      intro d d' hd k
      rw [List.foldlM_cons] at hd
      simp only [Option.bind_eq_bind, Option.bind_some] at hd
      rw [ih _ _ hd k, Dict.get?_set]
      cases t with
      | nil =>
        by_cases hk : k = ptr
        · simp [hk]
        · simp [hk, Ne.symm hk]
      | cons z t =>
        by_cases hk : k = ptr
        · simp [hk, List.getLast?_cons_cons]
        · simp [hk, Ne.symm hk]
  exact hfold ys _ _ h2

/-! ### an example: a middle step whose outputs, piped through a doubling function, go to a list or a dict -/

/-- twice the value; fails at zero -/
def tapPipe : Int → Act Int Unit Int := fun v w => (if v = 0 then .error .zeroDivision else .ok (2 * v), w)

def tapComp (t : Target Int Unit) (ptr : Name) : Comp Int Unit :=
  { steps := [(.int 0, addTwo), (.int 1, timesThree), (.int 2, addTwo)]
    sends := [(.int 1, [⟨some tapPipe, some t, ptr⟩])] }

def w3 : World Int Unit := { w0 with lists := fun _ => [7, 8, 9], dicts := fun _ => [(.str "a".toList, 5)] }

theorem tapComp_only {β : Type} (obs : World Int Unit → β) (t : Target Int Unit) (ptr : Name) :
    OnlyBy obs (tapComp t ptr) [(.int 0, addTwo)] [(.int 2, addTwo)] (.int 1) timesThree [] ⟨some tapPipe, some t, ptr⟩ where
  steps := rfl
  sends := rfl
  step := ⟨fun args kw w => by simp only [timesThree, pureStep]; split <;> rfl, by simp [timesThree, pureStep]⟩
  others := by simp
  pipe := by intro f hf v w; cases hf; rfl
  rest := by
    intro n s h
    simp only [List.cons_append, List.nil_append, List.mem_cons, Prod.mk.injEq, List.not_mem_nil, or_false] at h
    have hs : StepLeaves obs addTwo :=
      ⟨fun args kw w => by simp only [addTwo, pureStep]; split <;> rfl, by simp [addTwo, pureStep]⟩
    rcases h with ⟨rfl, rfl⟩ | ⟨rfl, rfl⟩
    · exact ⟨hs, by simp [sendsOf, tapComp, Dict.get?_cons]⟩
    · exact ⟨hs, by simp [sendsOf, tapComp, Dict.get?_cons]⟩

example (sigs : List Int) : ∃ ys, List.Forall₂ (Piped ⟨some tapPipe, some (.list 4), .none⟩)
      ((playRuns (tapComp (.list 4) .none) sigs w3).1.filterMap (·[1]?)) ys ∧
    (playRuns (tapComp (.list 4) .none) sigs w3).2.2.lists 4 = [7, 8, 9] ++ ys :=
  C88_list_collects _ _ _ _ _ _ _ 4 rfl rfl (tapComp_only _ _ _) sigs w3

example : (playRuns (tapComp (.list 4) .none) [1, -2, 3] w3).1 = [[3, 9, 11], [0], [5, 15, 17]] ∧
    (playRuns (tapComp (.list 4) .none) [1, -2, 3] w3).2.2.lists 4 = [7, 8, 9, 18, 30] := ⟨rfl, rfl⟩

example (sigs : List Int) : ∃ ys, List.Forall₂ (Piped ⟨some tapPipe, some (.list 4), .int (-1)⟩)
      ((playRuns (tapComp (.list 4) (.int (-1))) sigs w3).1.filterMap (·[1]?)) ys ∧
    (playRuns (tapComp (.list 4) (.int (-1))) sigs w3).2.2.lists 4 = ys.getLast?.elim [7, 8, 9] fun y => [7, 8, y] :=
  C88_list_replaces _ _ _ _ _ _ _ 4 rfl (-1) rfl (tapComp_only _ _ _) sigs w3 (by decide)

example : (playRuns (tapComp (.list 4) (.int (-1))) [1, 3, -2] w3).2.2.lists 4 = [7, 8, 30] := rfl

example (v : Int) : (itercall (tapComp (.list 4) (.int (-4))) v w3).1.length ≤ 1 ∧
    (itercall (tapComp (.list 4) (.int (-4))) v w3).2.1 ≠ none ∧
    (itercall (tapComp (.list 4) (.int (-4))) v w3).2.2.2.lists 4 = [7, 8, 9] :=
  C88_list_out_of_range _ _ _ _ _ _ _ 4 rfl (-4) rfl (tapComp_only _ _ _) v w3 (by decide)

example (sigs : List Int) : ∃ ys, List.Forall₂ (Piped ⟨some tapPipe, some (.dict 4), .str "b".toList⟩)
      ((playRuns (tapComp (.dict 4) (.str "b".toList)) sigs w3).1.filterMap (·[1]?)) ys ∧
    ∀ k, ((playRuns (tapComp (.dict 4) (.str "b".toList)) sigs w3).2.2.dicts 4).get? k =
      if k = .str "b".toList ∧ ys ≠ [] then ys.getLast? else Dict.get? [(.str "a".toList, 5)] k :=
  C88_dict_keeps_last _ _ _ _ _ _ _ 4 rfl (tapComp_only _ _ _) sigs w3

example : (playRuns (tapComp (.dict 4) (.str "b".toList)) [1, 3, -2] w3).2.2.dicts 4 =
    [(.str "a".toList, 5), (.str "b".toList, 30)] := rfl

end Verif.Props
