import Verif.Lemmas.CompSwap
import Verif.Model.CompDyn
/-! # C133: a Dynamic as a step of a Composition -/
namespace Verif.Props
open Verif Verif.Model Verif.Lemmas

variable {V Y Src Code Glob F : Type}

/-- the Dynamic of the world -/
def theDyn (w : World V (Dyn Src Code Glob F × Y)) : Dyn Src Code Glob F := w.ext.1

/-- C133, in full: giving a Composition a Dynamic as a step is giving it a function that calls the Dynamic -/
def C133_full : Prop :=
  ∀ (V Y Src Code Glob F : Type) [PyNone V] (py : PyFor V Y Src Code Glob F) (flag : V → Option Bool)
    (c : Comp V (Dyn Src Code Glob F × Y)) (pre post : Dict Name (Step V (Dyn Src Code Glob F × Y))) (n : Name) (i : Nat)
    (v : V) (w : World V (Dyn Src Code Glob F × Y)),
    (execute { c with steps := pre ++ (n, dynStep py flag i) :: post } v w).1 =
      (execute { c with steps := pre ++ (n, lambdaStep py flag i) :: post } v w).1

private theorem erase_absent {κ α : Type} [DecidableEq κ] {d : Dict κ α} {k : κ} (h : d.get? k = none) : d.erase k = d := by
  induction d with
  | nil => rfl
  | cons p t ih =>
    obtain ⟨k', v⟩ := p
    rw [Dict.get?_cons] at h
    split at h
    · cases h
    · rename_i hne
      rw [Dict.erase, if_neg hne, ih h]

private theorem together_apart {D : Type} (w : World V (D × Y)) : w.apart.together w.ext.1 = w := rfl

/-- calling a loaded Dynamic that is not optional is calling its function -/
private theorem call_eq_func [PyNone V] (py : PyFor V Y Src Code Glob F) (flag : V → Option Bool) (args : List V)
    (kw : Dict Str V) (w : World V (Dyn Src Code Glob F × Y)) (hl : (theDyn w).funcVal.isSome = true)
    (ho : (theDyn w).optional = false) (hk : kw.get? optionalKey = none) (hself : kw.get? selfKey = none) :
    callFuncAttr py args kw w = callDynamic py flag args kw w := by
  unfold callFuncAttr callDynamic
  rw [if_neg (by rw [hself]; exact Bool.false_ne_true)]
  cases hf : w.ext.1.funcVal with
  | none => rw [theDyn, hf] at hl; cases hl
  | some f =>
    have hm : maybeLoad py w.ext.1 w.apart = (.ok (), w.ext.1) := by simp [maybeLoad, hf]
    rw [hk, erase_absent hk]
    rw [theDyn] at ho
    simp only [dynCall, hm, hf, finishCall, Option.bind_none, Option.getD_none, ho, Bool.false_eq_true, if_false]
    cases (py.run f (args, kw) w.apart).1 <;> rfl

/-- a step that is a Dynamic is called through its attribute `func` -/
private theorem callStep_dyn [PyNone V] (py : PyFor V Y Src Code Glob F) (flag : V → Option Bool)
    (c : Comp V (Dyn Src Code Glob F × Y)) (n : Name) (i : Nat) (v : V) :
    callStep c n (dynStep py flag i) v = callWith (callFuncAttr py) v (intArgs ((c.inserts.get? n).getD []))
      (strArgs ((c.inserts.get? n).getD [])) := rfl

private theorem callStep_lambda [PyNone V] (py : PyFor V Y Src Code Glob F) (flag : V → Option Bool)
    (c : Comp V (Dyn Src Code Glob F × Y)) (n : Name) (i : Nat) (v : V) :
    callStep c n (lambdaStep py flag i) v = callWith (callDynamic py flag) v (intArgs ((c.inserts.get? n).getD []))
      (strArgs ((c.inserts.get? n).getD [])) := rfl

private theorem callStep_same [PyNone V] (py : PyFor V Y Src Code Glob F) (flag : V → Option Bool)
    (c : Comp V (Dyn Src Code Glob F × Y)) (n : Name) (i : Nat) (v : V) (w : World V (Dyn Src Code Glob F × Y))
    (hl : (theDyn w).funcVal.isSome = true) (ho : (theDyn w).optional = false)
    (hk : insertsAt c n (.str optionalKey) = none) (hself : insertsAt c n (.str selfKey) = none) :
    callStep c n (dynStep py flag i) v w = callStep c n (lambdaStep py flag i) v w := by
  have hs : ∀ key : Str, insertsAt c n (.str key) = none → (strArgs ((c.inserts.get? n).getD [])).get? key = none := by
    intro key hk
    rw [get?_strArgs]
    rw [insertsAt] at hk
    cases hg : c.inserts.get? n with
    | none => rfl
    | some d => rw [hg] at hk; exact hk
  rw [callStep_dyn, callStep_lambda]
  unfold callWith
  split
  · exact call_eq_func py flag _ _ w hl ho (hs _ hk) (hs _ hself)
  · exact call_eq_func py flag _ _ w hl ho (hs _ hk) (hs _ hself)

/-- C133: a Dynamic that is loaded and not optional, and that nothing else in the pipeline changes, may be given as a step:
the run gives and does what it does with a function that calls the Dynamic (unless an insert for the step is called
`_optional` or `self`) -/
theorem C133_loaded_partial [PyNone V] (py : PyFor V Y Src Code Glob F) (flag : V → Option Bool)
    (c : Comp V (Dyn Src Code Glob F × Y)) (pre post : Dict Name (Step V (Dyn Src Code Glob F × Y))) (n : Name) (i : Nat)
    (v : V) (w : World V (Dyn Src Code Glob F × Y))
    (hl : (theDyn w).funcVal.isSome = true) (ho : (theDyn w).optional = false)
    (hsteps : ∀ p ∈ pre, StepLeaves theDyn p.2 ∧ ∀ sd ∈ sendsOf c p.1, SendLeaves theDyn sd)
    (hk : ∀ key ∈ ["_optional".toList, "self".toList], insertsAt c n (.str key) = none)
    (hsends : ∀ key ∈ ["_optional".toList, "self".toList], ∀ p ∈ pre, ∀ sd ∈ sendsOf c p.1, ¬ Hits sd n (.str key)) :
    let r := execute { c with steps := pre ++ (n, lambdaStep py flag i) :: post } v w
    execute { c with steps := pre ++ (n, dynStep py flag i) :: post } v w =
      (r.1, { r.2.1 with steps := pre ++ (n, dynStep py flag i) :: post }, r.2.2) := by
  refine execute_withSteps (S := pre ++ (n, dynStep py flag i) :: post) (T := pre ++ (n, lambdaStep py flag i) :: post) ?_ ?_
  · rw [iterSteps_append, iterSteps_append]
    have hw := iterSteps_leaves (obs := theDyn) (l := pre) (c := c) (fun m s hm => hsteps (m, s) hm) v w
    have hi : ∀ key ∈ ["_optional".toList, "self".toList],
        insertsAt (iterSteps c v pre w).2.2.1 n (.str key) = insertsAt c n (.str key) := fun key hkey =>
      iterSteps_ne (c := c) v pre w (b := n) (p := .str key) (fun m s hm => hsends key hkey (m, s) hm)
    rcases hit : iterSteps c v pre w with ⟨outs, e, c1, w1⟩
    rw [hit] at hw hi
    cases e with
    | some e => rfl
    | none =>
      simp only at hw hi
      have := callStep_same py flag c1 n i (outs.getLast?.getD v) w1 (by rw [hw]; exact hl) (by rw [hw]; exact ho)
        ((hi optionalKey (.head _)).trans (hk optionalKey (.head _)))
        ((hi selfKey (.tail _ (.head _))).trans (hk selfKey (.tail _ (.head _))))
      simp only [iterSteps, doStep, this]
  · simp [dynStep, lambdaStep]

/-- C133: whether or not the Dynamic is optional, an exception of its function stops the pipeline as any other does, and
the Dynamic notes nothing -/
theorem C133_raises [PyNone V] (py : PyFor V Y Src Code Glob F) (flag : V → Option Bool)
    (c : Comp V (Dyn Src Code Glob F × Y)) (n : Name) (i : Nat) (v : V) (w : World V (Dyn Src Code Glob F × Y)) (f : F)
    (e : PyErr) (w' : World V Y) (hf : (theDyn w).funcVal = some f) (hi : c.inserts.get? n = none)
    (he : py.run f ([v], []) w.apart = (.error e, w')) :
    doStep c n (dynStep py flag i) v w = (.error e, c, w'.together (theDyn w)) := by
  have hc : callStep c n (dynStep py flag i) v w = (.error e, w'.together (theDyn w)) := by
    rw [callStep_dyn, hi]
    simp only [Option.getD_none, intArgs, strArgs, callWith, List.length_nil, if_true, callFuncAttr]
    rw [theDyn] at hf
    simp only [hf, he, theDyn]
  rw [doStep, hc]

/-- C133: a Dynamic that is not loaded is not loaded by the pipeline, whatever `load_on_call` says: the step raises
`TypeError` and does nothing -/
theorem C133_unloaded [PyNone V] (py : PyFor V Y Src Code Glob F) (flag : V → Option Bool)
    (c : Comp V (Dyn Src Code Glob F × Y)) (n : Name) (i : Nat) (v : V) (w : World V (Dyn Src Code Glob F × Y))
    (hf : (theDyn w).funcVal = none) : doStep c n (dynStep py flag i) v w = (.error .typeError, c, w) := by
  have hc : ∀ args kw, callFuncAttr py args kw w = (.error .typeError, w) := by
    intro args kw
    rw [theDyn] at hf
    simp only [callFuncAttr, hf]
  have : callStep c n (dynStep py flag i) v w = (.error .typeError, w) := by
    rw [callStep_dyn]
    unfold callWith
    split
    · exact hc _ _
    · exact hc _ _
  rw [doStep, this]

/-! ## Examples -/

instance : PyNone Nat := ⟨99⟩

/-- sources, code and functions are numbers; function 0 adds two to its argument, function 1 divides by zero -/
def cdPy : PyFor Nat Unit Nat Nat Unit Nat where
  compile := fun s _ => .ok s
  define := fun c _ => .ok c
  run := fun f a w => match f, a.1 with
    | 0, [v] => (.ok (v + 2), w)
    | _, _ => (.error .zeroDivision, w)
  getsource := .ok
  codeOf := id
  globalsOf := fun _ => ()

def cdFlag : Nat → Option Bool := fun v => if v = 99 then none else some (v != 0)

def cdWorld (d : Dyn Nat Nat Unit Nat) : World Nat (Dyn Nat Nat Unit Nat × Unit) := ⟨fun _ => [], 0, fun _ => [], [], (d, ())⟩

/-- `lambda v: 3 * v` -/
def cdTriple : Step Nat (Dyn Nat Nat Unit Nat × Unit) where
  ident := 1
  call := fun args kw w => match args, kw with
    | [v], [] => (.ok (3 * v), w)
    | _, _ => (.error .typeError, w)

/-- loaded -/
def cdReady : Dyn Nat Nat Unit Nat := { source := some 0, code := some (some 0), func := some (some 0) }
/-- `Dynamic(source, lazy=True)` -/
def cdLazy : Dyn Nat Nat Unit Nat := { source := some 0, lazy := true }
/-- `Dynamic(source, optional=True)`, of a source whose function fails -/
def cdOptional : Dyn Nat Nat Unit Nat := { source := some 1, code := some (some 1), func := some (some 1), optional := true }

private theorem cdTriple_leaves : StepLeaves theDyn cdTriple := by
  refine ⟨?_, fun f h => by cases h⟩
  intro args kw w
  simp only [cdTriple]
  split <;> rfl

example : (execute { steps := [(.int 0, cdTriple), (.int 1, dynStep cdPy cdFlag 2), (.int 2, cdTriple)] } 4 (cdWorld cdReady)).1 =
    .ok 42 := by rfl

example : (execute { steps := [(.int 0, cdTriple)] ++ (.int 1, dynStep cdPy cdFlag 2) :: [(.int 2, cdTriple)] } 4 (cdWorld cdReady)).1
    = (execute { steps := [(.int 0, cdTriple)] ++ (.int 1, lambdaStep cdPy cdFlag 2) :: [(.int 2, cdTriple)] } 4
        (cdWorld cdReady)).1 := by
  have := C133_loaded_partial cdPy cdFlag { steps := [] } [(.int 0, cdTriple)] [(.int 2, cdTriple)] (.int 1) 2 4
    (cdWorld cdReady) rfl rfl (by
      intro p hp
      simp only [List.mem_singleton] at hp
      subst hp
      exact ⟨cdTriple_leaves, fun sd h => by simp [sendsOf] at h⟩) (fun _ _ => rfl)
    (by intro key hkey p hp sd h; simp [sendsOf] at h)
  exact (Prod.mk.inj this).1

example : doStep { steps := [] } (.int 0) (dynStep cdPy cdFlag 2) 4 (cdWorld cdOptional) =
    (.error .zeroDivision, { steps := [] }, cdWorld cdOptional) :=
  C133_raises cdPy cdFlag { steps := [] } (.int 0) 2 4 (cdWorld cdOptional) 1 .zeroDivision (cdWorld cdOptional).apart rfl rfl rfl

/-- called directly, it gives `None` and notes the exception -/
example : (callDynamic cdPy cdFlag [4] [] (cdWorld cdOptional)).1 = .ok 99 ∧
    (theDyn (callDynamic cdPy cdFlag [4] [] (cdWorld cdOptional)).2).errors = [⟨.zeroDivision, .call⟩] := ⟨rfl, rfl⟩

example : doStep { steps := [] } (.int 0) (dynStep cdPy cdFlag 2) 4 (cdWorld cdLazy) =
    (.error .typeError, { steps := [] }, cdWorld cdLazy) :=
  C133_unloaded cdPy cdFlag { steps := [] } (.int 0) 2 4 (cdWorld cdLazy) rfl

/-- called directly, it loads itself and gives 6 -/
example : (callDynamic cdPy cdFlag [4] [] (cdWorld cdLazy)).1 = .ok 6 := rfl

/-- C133: false: a Dynamic made with `lazy=True` is not loaded by the pipeline, nor is `optional` heeded -/
theorem C133_full_false : ¬ C133_full := by
  intro h
  have := h Nat Unit Nat Nat Unit Nat cdPy cdFlag { steps := [] } [] [] (.int 0) 2 4 (cdWorld cdLazy)
  have h1 : (execute { steps := [(.int 0, dynStep cdPy cdFlag 2)] } 4 (cdWorld cdLazy)).1 = .error .typeError := by rfl
  have h2 : (execute { steps := [(.int 0, lambdaStep cdPy cdFlag 2)] } 4 (cdWorld cdLazy)).1 = .ok 6 := by rfl
  simp only [List.nil_append] at this
  rw [h1, h2] at this
  cases this

end Verif.Props
