import Verif.Model.ExcReport
/-!
# C131, C132: `exc_report`, `dontcare` and `digsource`
-/
namespace Verif.Props
open Verif Verif.Model

/-! ## C131 -/

theorem reportLoop_eq (tb : List TbFrame) (r : ExcReport) :
    reportLoop tb r = ⟨r.exception, r.lineno ++ tb.map TbFrame.line, r.name ++ tb.map frameName, r.filename ++ tb.map TbFrame.file⟩ := by
  induction tb generalizing r with
  | nil => simp [reportLoop]
  | cons f t ih => rw [reportLoop, ih]; simp

/-- entry `i` of a report is about the frame `f` -/
structure EntryFor (r : ExcReport) (i : Nat) (f : TbFrame) : Prop where
  lineno : r.lineno[i]? = some f.line
  filename : r.filename[i]? = some f.file
  named : ∀ m q, f.module = some m → f.qualname = some q → r.name[i]? = some (m ++ ['.'] ++ q)
  old : ∀ m, f.module = some m → f.qualname = none → r.name[i]? = some (m ++ ['.'] ++ f.coName)
  nomodule : f.module = none → r.name[i]? = some f.coName

theorem entries_of (e : ExcField) (tb : List TbFrame) :
    (reportLoop tb { exception := e }).lineno.length = tb.length ∧ (reportLoop tb { exception := e }).name.length = tb.length ∧
    (reportLoop tb { exception := e }).filename.length = tb.length ∧
    ∀ i f, tb[i]? = some f → EntryFor (reportLoop tb { exception := e }) i f := by
  rw [reportLoop_eq]
  simp only [List.nil_append, List.length_map, true_and]
  intro i f hi
  refine ⟨?_, ?_, ?_, ?_, ?_⟩ <;> simp only [List.getElem?_map, hi, Option.map_some, frameName]
  · intro m q h1 h2; rw [h1, h2]; simp
  · intro m h1 h2; rw [h1, h2]; simp
  · intro h1; rw [h1]

/-- **C131**: the report of an exception whose text can be made has one line number, one name and one file for each entry of
the traceback, in order, outermost first, and the text; with `stringify_exception=False` it has the exception itself, and
it does not matter whether there is a text -/
theorem C131_report (e : ExcObj) :
    (∀ s, e.text = .ok s → ∃ r, excReport (some e) true = .ok (some r) ∧ r.exception = .text s ∧
      r.lineno.length = e.tb.length ∧ r.name.length = e.tb.length ∧ r.filename.length = e.tb.length ∧
      ∀ i f, e.tb[i]? = some f → EntryFor r i f) ∧
    (∃ r, excReport (some e) false = .ok (some r) ∧ r.exception = .obj e ∧
      r.lineno.length = e.tb.length ∧ r.name.length = e.tb.length ∧ r.filename.length = e.tb.length ∧
      ∀ i f, e.tb[i]? = some f → EntryFor r i f) ∧
    (∀ e', e.text = .error e' → excReport (some e) true = .error e') := by
  refine ⟨fun s hs => ⟨reportLoop e.tb { exception := .text s }, ?_, ?_, entries_of _ _⟩,
    ⟨reportLoop e.tb { exception := .obj e }, ?_, ?_, entries_of _ _⟩, fun e' he => ?_⟩
  · simp [excReport, hs]
  · rw [reportLoop_eq]
  · simp [excReport]
  · rw [reportLoop_eq]
  · simp [excReport, he]

/-- **C131**: `exc_report(None)` is empty -/
theorem C131_none (b : Bool) : excReport none b = .ok none := rfl

/-- C131, in full: a function wrapped by `dontcare` raises no `Exception`; if the function does, there is one report more -/
def C131_full : Prop :=
  ∀ (V : Type) (here : TbFrame) (out : Except ExcObj V) (target : List ExcReport),
    (∀ e, (dontcareReport here out target).1 = .error e → e.isException = false) ∧
    (∀ e, out = .error e → e.cls.isException = true → ∃ r, (dontcareReport here out target).2 = target ++ [r])

/-- **C131** (partial: the text of the exception can be made). What the function returns is returned, and nothing is
reported. If it raises an `Exception`, `None` is returned and one report is added, which begins with the wrapper and goes on
with the frames of the function. `KeyboardInterrupt` and the like are raised, without a report. -/
theorem C131_dontcare_partial {V : Type} (here : TbFrame) (target : List ExcReport) :
    (∀ v : V, dontcareReport here (.ok v) target = (.ok (some v), target)) ∧
    (∀ e s, e.cls.isException = true → e.text = .ok s → ∃ r,
      dontcareReport (V := V) here (.error e) target = (.ok none, target ++ [r]) ∧ r.exception = .text s ∧
      r.lineno.length = e.tb.length + 1 ∧ EntryFor r 0 here ∧ ∀ i f, e.tb[i]? = some f → EntryFor r (i + 1) f) ∧
    (∀ e, e.cls.isException = false → dontcareReport (V := V) here (.error e) target = (.error e.cls, target)) := by
  refine ⟨fun v => rfl, fun e s hc hs => ?_, fun e hc => by simp [dontcareReport, hc]⟩
  obtain ⟨r, h1, h2, h3, _, _, h4⟩ := (C131_report { e with tb := here :: e.tb }).1 s hs
  refine ⟨r, ?_, h2, h3, h4 0 here rfl, fun i f hf => h4 (i + 1) f (by simpa using hf)⟩
  simp only [dontcareReport, hc, if_true, h1, Option.toList]

/-- **C131**: an exception that cannot be turned into text gets through, as another exception, and is not reported -/
theorem C131_no_text {V : Type} (here : TbFrame) (target : List ExcReport) (e : ExcObj) (e' : PyErr)
    (hc : e.cls.isException = true) (he : e.text = .error e') :
    dontcareReport (V := V) here (.error e) target = (.error e', target) := by
  simp [dontcareReport, hc, excReport, he]

/-- the frame of the wrapper, and one of a function made from source -/
def wrapFrame : TbFrame :=
  ⟨138, some "dustgoggles.func".toList, some "optionalize.<locals>.optionally".toList, "optionally".toList, "func.py".toList⟩
def srcFrame : TbFrame := ⟨2, none, some "f".toList, "f".toList, []⟩

/-- C131 is false of the code -/
theorem C131_full_false : ¬ C131_full := by
  intro h
  have h1 := (h Nat wrapFrame (.error ⟨.valueError, .error .typeError, [srcFrame]⟩) []).1 .typeError
    (by rw [C131_no_text _ _ _ .typeError rfl rfl])
  cases h1

example : ∃ r, dontcareReport (V := Nat) wrapFrame (.error ⟨.valueError, .ok "x".toList, [srcFrame]⟩) [] = (.ok none, [r]) ∧
    r.lineno = [138, 2] ∧ r.name = ["dustgoggles.func.optionalize.<locals>.optionally".toList, "f".toList] :=
  ⟨_, rfl, rfl, by decide⟩

/-! ## C132 -/

/-- the text of the definition that a call gets to in the end -/
inductive Text : Callee → Str → Prop
  | fn (s) : Text (.fn (some s) none) s
  | wraps {t w s} : Text w s → Text (.fn t (some w)) s
  | method {m s} : Text m s → Text (.method m) s
  | part {f s} : Text f s → Text (.part f) s
  | dyn {f src s} : Text f s → Text (.dyn (some f) src) s
  | source {f s} : Text (.dyn f (some s)) s

/-- C132, in full: `digsource` gets at the text through functions, methods, partials and Dynamics -/
def C132_full : Prop := ∀ c s, Text c s → digsource c = .ok s

/-- functions and methods, of functions that may wrap others -/
inductive Plain : Callee → Prop
  | fn (t) : Plain (.fn t none)
  | wraps {t w} : Plain w → Plain (.fn t (some w))
  | method {m} : Plain m → Plain (.method m)

theorem getSource_plain {c : Callee} (h : Plain c) (s : Str) : getSource c = .ok s ↔ Text c s := by
  induction h with
  | fn t =>
    cases t with
    | none => simp only [getSource]; exact ⟨fun h => (by cases h), fun h => (by cases h)⟩
    | some t =>
      simp only [getSource, Except.ok.injEq]
      exact ⟨fun h => h ▸ .fn t, fun h => by cases h; rfl⟩
  | wraps hp ih =>
    rw [getSource, ih]
    exact ⟨.wraps, fun h => by cases h; assumption⟩
  | method hp ih =>
    rw [getSource, ih]
    exact ⟨.method, fun h => by cases h; assumption⟩

theorem getSource_err {c : Callee} (h : Plain c) (e : PyErr) (he : getSource c = .error e) : e = .osError := by
  induction h with
  | fn t => cases t <;> simp [getSource] at he; exact he.symm
  | wraps hp ih => rw [getSource] at he; exact ih he
  | method hp ih => rw [getSource] at he; exact ih he

/-- **C132** (partial: Dynamics made from functions, no Dynamic inside a partial). For functions and methods (which may wrap
others), partials of them (any number of times) and Dynamics made from them, `digsource` gives the text; if there is none
it raises `OSError`. -/
theorem C132_digsource_partial (f : Callee) (hf : Plain f) :
    (∀ s, Text f s → digsource f = .ok s ∧ digsource (mkPartial f) = .ok s ∧ digsource (mkPartial (mkPartial f)) = .ok s ∧
      digsource (dynOfFunction f) = .ok s) ∧
    ((∀ s, ¬ Text f s) → digsource f = .error .osError ∧ digsource (mkPartial f) = .error .osError ∧
      digsource (dynOfFunction f) = .error .osError) := by
  have e1 : digsource f = getSource f := by cases hf <;> rfl
  have e2 : mkPartial f = .part f := by cases hf <;> rfl
  have e3 : digsource (.part f) = getSource f := rfl
  have e4 : digsource (dynOfFunction f) = getSource f := rfl
  rw [e2, mkPartial, e3, e1, e4]
  constructor
  · intro s hs
    have := (getSource_plain hf s).2 hs
    exact ⟨this, this, this, this⟩
  · intro hn
    have : getSource f = .error .osError := by
      cases h : getSource f with
      | ok s => exact absurd ((getSource_plain hf s).1 h) (hn s)
      | error e => rw [getSource_err hf e h]
    exact ⟨this, this, this⟩

/-- **C132**: for a Dynamic made from source, which has the text, `OSError` is raised -/
theorem C132_dynamic_source (s : Str) : Text (dynOfSource s) s ∧ digsource (dynOfSource s) = .error .osError := ⟨.source, rfl⟩

/-- **C132**: for a partial of a Dynamic, or a Dynamic that is not loaded, `TypeError` is raised -/
theorem C132_partial_dynamic (f : Option Callee) (src : Option Str) :
    digsource (mkPartial (.dyn f src)) = .error .typeError ∧ digsource (.dyn none src) = .error .typeError := ⟨rfl, rfl⟩

/-- C132 is false of the code -/
theorem C132_full_false : ¬ C132_full := fun h => by
  have h1 := h _ _ (C132_dynamic_source "x".toList).1
  rw [(C132_dynamic_source "x".toList).2] at h1
  cases h1

/-- a method that `optionalize` has wrapped, in a partial -/
example : digsource (mkPartial (.fn (some "wrapper".toList) (some (.method (.fn (some "f".toList) none))))) = .ok "f".toList :=
  ((C132_digsource_partial _ (.wraps (.method (.fn _)))).1 _ (.wraps (.method (.fn _)))).2.1

end Verif.Props
