import Verif.Spec.CompGen
import Verif.Lemmas.CompTrack
/-!
# Iterating over a Composition
-/
namespace Verif.Lemmas
open Verif Verif.Model Verif.Spec
variable {V X : Type}

theorem genRun_append [PyNone V] (a b : List (GenOp V X)) (S : GenState V X) :
    genRun (a ++ b) S = ((genRun a S).1 ++ (genRun b (genRun a S).2).1, (genRun b (genRun a S).2).2) := by
  induction a generalizing S with
  | nil => rfl
  | cons op t ih => simp [genRun, ih]

theorem genRun_length [PyNone V] (a : List (GenOp V X)) (S : GenState V X) : (genRun a S).1.length = a.length := by
  induction a generalizing S with
  | nil => rfl
  | cons op t ih => simp [genRun, ih]

theorem outputsOf_append (i : Nat) (a b : List (GenOp V X)) (x y : List (Option (GenOut V))) (h : x.length = a.length) :
    outputsOf i (a ++ b) (x ++ y) = outputsOf i a x ++ outputsOf i b y := by
  induction a generalizing x with
  | nil => cases x with
    | nil => rfl
    | cons _ _ => simp at h
  | cons op t ih =>
    cases x with
    | nil => simp at h
    | cons o x =>
      have := ih x (by simpa using h)
      cases op <;> simp [outputsOf, this]
      split <;> simp

theorem genNext_same (g : CompGen V) (c : Comp V X) (w : World V X) : SameBut c (genNext g c w).2.2.1 := by
  have h : ∀ size lost rest state, SameBut c (genResume size lost rest state c w).2.2.1 := by
    intro size lost rest state
    simp only [genResume]
    split
    · exact SameBut.refl c
    · split
      · exact SameBut.refl c
      · rename_i n t
        split
        · exact SameBut.refl c
        · rename_i s hs
          have := doStep_same c n s state w
          rcases hd : doStep c n s state w with ⟨x, c1, w1⟩
          rw [hd] at this
          cases x <;> exact this
  cases g with
  | fresh v => exact h _ _ _ _
  | running a b d e => exact h _ _ _ _
  | over => exact SameBut.refl c

theorem addCapture_steps [PyNone V] (c : Comp V X) (n : Name) (w : World V X) : (addCapture c n w).1.steps = c.steps := by
  simp only [addCapture]
  split
  · rename_i c' he
    simp only [addSend] at he
    split at he
    · cases he
    · cases he; rfl
  · rfl

theorem addCapturesLoop_steps [PyNone V] (l : List Name) (c : Comp V X) (caps : Dict Name Nat) (w : World V X) :
    (addCapturesLoop c l caps w).1.steps = c.steps := by
  induction l generalizing c caps w with
  | nil => rfl
  | cons n t ih => rw [addCapturesLoop, ih, addCapture_steps]

theorem length_set_mem {d : Dict Name (Step V X)} {n : Name} (s : Step V X) (h : n ∈ d.keys) : (Dict.set d n s).length = d.length := by
  have := congrArg List.length (Dict.set_of_mem n s h)
  simpa [Dict.keys] using this

/-- the keys, unless a step is added or the steps are reindexed -/
theorem genStep_steps [PyNone V] (S : GenState V X) (op : GenOp V X) (h1 : ∀ s n, op ≠ .edit (.addStep s n)) (h2 : op ≠ .edit .reindex) :
    (genStep S op).2.comp.steps = S.comp.steps := by
  cases op with
  | start v => rfl
  | next i =>
    simp only [genStep]
    split
    · rfl
    · rename_i g _
      exact (genNext_same g S.comp S.world).steps
  | edit e =>
    cases e with
    | addStep s n => exact absurd rfl (h1 s n)
    | reindex => exact absurd rfl h2
    | addSend n sd =>
      simp only [genStep, editComp]
      split
      · rename_i c' h3
        simp only [addSend] at h3
        split at h3
        · cases h3
        · cases h3; rfl
      · rfl
    | addInsert n k v => rfl
    | track =>
      simp only [genStep, editComp, trackOn]
      split
      · rfl
      · rw [Props.addTrackSends_steps]
    | captures => exact addCapturesLoop_steps _ _ _ _
    | run v =>
      simp only [genStep, editComp]
      rw [execute_comp]
      exact (iterSteps_same S.comp v S.comp.steps S.world).steps

theorem genStep_addStep [PyNone V] (S : GenState V X) (s : Step V X) (name : Option Name) :
    (genStep S (.edit (.addStep s name))).2.comp.steps = S.comp.steps.set (name.getD (.int (S.comp.steps.length + 1))) s := by
  simp only [genStep, editComp, addStep]
  rw [Props.addTrackSend_steps]

/-- the number of keys the mapping that is there now has in the end, or when it is replaced -/
def sizeAt [PyNone V] : List (GenOp V X) → GenState V X → Nat
  | [], S => S.comp.steps.length
  | .edit .reindex :: _, S => S.comp.steps.length
  | op :: t, S => sizeAt t (genStep S op).2

theorem sizeAt_cons [PyNone V] {op : GenOp V X} (h : op ≠ .edit .reindex) (t : List (GenOp V X)) (S : GenState V X) :
    sizeAt (op :: t) S = sizeAt t (genStep S op).2 := by
  cases op with
  | start v => rfl
  | next i => rfl
  | edit e => cases e with
    | reindex => exact absurd rfl h
    | _ => rfl

theorem grows_cons [PyNone V] {op : GenOp V X} (h : op ≠ .edit .reindex) (h1 : ∀ s n, op ≠ .edit (.addStep s n)) (t : List (GenOp V X))
    (S : GenState V X) : Grows (op :: t) S = Grows t (genStep S op).2 := by
  cases op with
  | start v => rfl
  | next i => rfl
  | edit e => cases e with
    | reindex => exact absurd rfl h
    | addStep s n => exact absurd rfl (h1 s n)
    | _ => rfl

theorem sizeAt_grows [PyNone V] (ops : List (GenOp V X)) (S : GenState V X) :
    S.comp.steps.length ≤ sizeAt ops S ∧ (sizeAt ops S = S.comp.steps.length ↔ ¬ Grows ops S) := by
  induction ops generalizing S with
  | nil => simp [sizeAt, Grows]
  | cons op t ih =>
    by_cases h : op = .edit .reindex
    · subst h
      simp [sizeAt, Grows]
    · rw [sizeAt_cons h]
      by_cases h1 : ∃ s n, op = .edit (.addStep s n)
      · obtain ⟨s, n, rfl⟩ := h1
        have ih := ih (genStep S (.edit (.addStep s n))).2
        rw [genStep_addStep] at ih
        simp only [Grows]
        by_cases hm : n.getD (.int (S.comp.steps.length + 1)) ∈ S.comp.steps.keys
        · rw [length_set_mem s hm] at ih
          refine ⟨ih.1, ih.2.trans ?_⟩
          simp [hm]
        · rw [Dict.set_of_not_mem _ _ hm] at ih
          simp only [List.length_append, List.length_singleton] at ih
          refine ⟨by omega, ?_⟩
          simp [hm]
          omega
      · have h1' : ∀ s n, op ≠ .edit (.addStep s n) := fun s n e => h1 ⟨s, n, e⟩
        have ih := ih (genStep S op).2
        rw [genStep_steps S op h1' h] at ih
        rw [grows_cons h h1']
        exact ih

/-- an operation that is not `next` of this generator leaves it as it is, except that its mapping may be replaced -/
theorem genStep_gen [PyNone V] (S : GenState V X) (op : GenOp V X) (i : Nat) (hi : op ≠ .next i) (hr : op ≠ .edit .reindex)
    {g : CompGen V} (hg : S.gens[i]? = some g) : (genStep S op).2.gens[i]? = some g := by
  have hlt : i < S.gens.length := (List.getElem?_eq_some_iff.mp hg).1
  cases op with
  | start v => simp only [genStep]; rw [List.getElem?_append_left hlt]; exact hg
  | next j =>
    have hj : j ≠ i := fun e => hi (by rw [e])
    simp only [genStep]
    split
    · exact hg
    · simp only
      rw [List.getElem?_set_ne hj]; exact hg
  | edit e =>
    cases e with
    | reindex => exact absurd rfl hr
    | _ => exact hg

theorem outputsOf_other (i : Nat) {op : GenOp V X} (h : op ≠ .next i) (ops : List (GenOp V X)) (o) (outs) :
    outputsOf i (op :: ops) (o :: outs) = outputsOf i ops outs := by
  cases op with
  | next j => simp only [outputsOf]; rw [if_neg fun e => h (by rw [e])]
  | _ => rfl

theorem running_after [PyNone V] (i : Nat) (ops : List (GenOp V X)) (S : GenState V X) (size : Nat) (lost : Option Nat)
    (rest : List Name) (state : V) (hg : S.gens[i]? = some (.running size lost rest state)) (ys : List V)
    (hy : outputsOf i ops (genRun ops S).1 = ys.map .yields) :
    ∃ lost', (genRun ops S).2.gens[i]? = some (.running size lost' (rest.drop ys.length) (ys.getLast?.getD state)) ∧
      lost'.getD (genRun ops S).2.comp.steps.length = lost.getD (sizeAt ops S) := by
  induction ops generalizing S lost rest state ys with
  | nil =>
    have : ys = [] := by
      cases ys with
      | nil => rfl
      | cons y t => simp [outputsOf, genRun] at hy
    subst this
    exact ⟨lost, by simpa [genRun] using hg, rfl⟩
  | cons op t ih =>
    rw [genRun] at hy ⊢
    simp only at hy ⊢
    by_cases hn : op = .next i
    · subst hn
      simp only [genStep, hg] at hy ⊢
      rw [sizeAt_cons (by simp)]
      simp only [genNext] at hy ⊢
      rcases hx : genResume size lost rest state S.comp S.world with ⟨o, g', c', w'⟩
      rw [hx] at hy
      simp only [outputsOf, if_true, Option.toList_some, List.singleton_append] at hy
      cases ys with
      | nil => simp at hy
      | cons y ys =>
        simp only [List.map_cons, List.cons.injEq] at hy
        obtain ⟨ho, hy⟩ := hy
        subst ho
        have : ∃ n t, rest = n :: t ∧ g' = .running size lost t y := by
          simp only [genResume] at hx
          split at hx
          · cases hx
          · split at hx
            · cases hx
            · split at hx
              · cases hx
              · split at hx
                · cases hx; exact ⟨_, _, rfl, rfl⟩
                · cases hx
        obtain ⟨n, t', rfl, rfl⟩ := this
        have hlt : i < S.gens.length := (List.getElem?_eq_some_iff.mp hg).1
        obtain ⟨lost', k1, k2⟩ := ih ⟨c', w', S.gens.set i (.running size lost t' y)⟩ lost t' y
          (by simp [hlt]) ys hy
        refine ⟨lost', ?_, ?_⟩
        · simp only [hx]
          rw [k1]
          simp only [List.length_cons, List.drop_succ_cons]
          cases ys with
          | nil => rfl
          | cons a b => simp [List.getLast?_cons]
        · simp only [hx]
          rw [k2]
          simp only [genStep, hg, genNext, hx]
    · rw [outputsOf_other i hn] at hy
      by_cases hr : op = .edit .reindex
      · subst hr
        have hg' : (genStep S (.edit .reindex)).2.gens[i]? = some (.running size (some (lost.getD S.comp.steps.length)) rest state) := by
          simp only [genStep, List.getElem?_map, hg, Option.map_some]
          cases lost <;> rfl
        obtain ⟨lost', k1, k2⟩ := ih _ _ rest state hg' ys hy
        exact ⟨lost', k1, by rw [k2]; simp only [sizeAt]; cases lost <;> rfl⟩
      · obtain ⟨lost', k1, k2⟩ := ih _ lost rest state (genStep_gen S op i hn hr hg) ys hy
        exact ⟨lost', k1, by rw [k2, sizeAt_cons hr]⟩

theorem over_stays [PyNone V] (i : Nat) (ops : List (GenOp V X)) (S : GenState V X) (hg : S.gens[i]? = some .over) :
    ∀ o ∈ outputsOf i ops (genRun ops S).1, o = .stops := by
  induction ops generalizing S with
  | nil => intro o ho; simp [outputsOf, genRun] at ho
  | cons op t ih =>
    intro o ho
    rw [genRun] at ho
    simp only at ho
    by_cases hn : op = .next i
    · subst hn
      have hlt : i < S.gens.length := (List.getElem?_eq_some_iff.mp hg).1
      simp only [genStep, hg, genNext, outputsOf, if_true, Option.toList_some, List.singleton_append, List.mem_cons] at ho
      rcases ho with rfl | ho
      · rfl
      · exact ih _ (by simp [hlt]) o ho
    · rw [outputsOf_other i hn] at ho
      refine ih _ ?_ o ho
      by_cases hr : op = .edit .reindex
      · subst hr
        simp only [genStep, List.getElem?_map, hg, Option.map_some, CompGen.lose]
      · exact genStep_gen S op i hn hr hg

end Verif.Lemmas
