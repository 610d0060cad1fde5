import Verif.Model.Dynamic
import Verif.Py.Tactics
/-! # C57–C60: Dynamic -/
namespace Verif.Props
open Verif Verif.Model

variable {Src Code Glob Fn Args V W : Type}

/-- a Dynamic as a user may have it: made by the constructor or by `from_function`, then used in any way -/
def Made (py : Py Src Code Glob Fn Args V W) (d : Dyn Src Code Glob Fn) : Prop :=
  ∃ a w0 d0, (dynNew py a w0 = .ok d0 ∨ ∃ f, fromFunction py f a w0 = .ok d0) ∧
    ∃ ops w1 w, dynRun py ops (d0, w1) = (d, w)

/-- the log has an entry of this category -/
def Logs (d : Dyn Src Code Glob Fn) (c : ErrCat) : Prop := ∃ r ∈ d.errors, r.category = c

/-- what every operation keeps -/
private structure DynInv (d : Dyn Src Code Glob Fn) : Prop where
  call : d.callFail = true ↔ Logs d .call
  compile : d.compileFail = true ↔ Logs d .compile
  code : d.func.isSome = true → d.code.isSome = true

private theorem inv_compile (py : Py Src Code Glob Fn Args V W) (r : Bool) {d : Dyn Src Code Glob Fn} (h : DynInv d) (w : W) :
    DynInv (dynCompile py r d w).2 := by
  unfold dynCompile
  split
  · exact h
  · cases compileSrc py d.source w with
    | ok c => exact ⟨h.call, h.compile, fun _ => rfl⟩
    | error e =>
      simp only
      split
      · refine ⟨?_, ?_, h.code⟩
        · rw [show Logs { d with errors := d.errors ++ [⟨e, .compile⟩], compileFail := true } .call ↔ Logs d .call by
            simp [Logs]]
          exact h.call
        · simp [Logs]
      · exact h

private theorem inv_define (py : Py Src Code Glob Fn Args V W) (r : Bool) {d : Dyn Src Code Glob Fn} (h : DynInv d) :
    DynInv (dynDefine py r d).2 := by
  unfold dynDefine
  split
  · exact h
  · cases hc : defineFn py d.codeVal d.globals with
    | ok f =>
      refine ⟨h.call, h.compile, fun _ => ?_⟩
      cases hd : d.code with
      | some c => rfl
      | none => simp [defineFn, Dyn.codeVal, hd] at hc
    | error e => exact h

private theorem inv_load (py : Py Src Code Glob Fn Args V W) (r : Bool) {d : Dyn Src Code Glob Fn} (h : DynInv d) (w : W) :
    DynInv (dynLoad py r d w).2 := by
  unfold dynLoad
  split
  · exact h
  · have hc := inv_compile py r h w
    rcases hd : dynCompile py r d w with ⟨x, d1⟩
    rw [hd] at hc
    cases x with
    | ok u => exact inv_define py r hc
    | error e => exact hc

private theorem inv_unload {d : Dyn Src Code Glob Fn} (h : DynInv d) : DynInv (dynUnload d).2 := by
  unfold dynUnload
  cases hc : d.code with
  | none => exact h
  | some c =>
    cases hf : d.func with
    | none =>
      refine ⟨h.call, h.compile, fun h' => ?_⟩
      rw [← hf] at h'
      exact absurd h' (by rw [hf]; simp)
    | some f => exact ⟨by simp [Logs], by simp [Logs], fun _ => rfl⟩

/-- in a Dynamic as users have them, the `finally` of a call that logs nothing has no effect -/
private theorem noteCallFail_eq {d : Dyn Src Code Glob Fn} (h : DynInv d) : noteCallFail d = d := by
  unfold noteCallFail
  split
  · rename_i e he
    have hm := List.mem_of_getLast? he
    have : d.callFail = true := h.call.2 ⟨_, hm, rfl⟩
    obtain ⟨⟩ := d
    simp only at this
    rw [this]
  · rfl

private theorem noteCallFail_append (d : Dyn Src Code Glob Fn) (e : PyErr) :
    noteCallFail { d with errors := d.errors ++ [⟨e, .call⟩] } =
      { d with errors := d.errors ++ [⟨e, .call⟩], callFail := true } := by
  simp [noteCallFail]

private theorem inv_maybeLoad (py : Py Src Code Glob Fn Args V W) {d : Dyn Src Code Glob Fn} (h : DynInv d) (w : W) :
    DynInv (maybeLoad py d w).2 := by
  unfold maybeLoad
  split
  · exact h
  · split
    · exact inv_load py false h w
    · exact h

private theorem optionalize_cases (out : Except PyErr V) :
    (∃ v, out = .ok v ∧ optionalize out (fun _ => .ok ()) = (.ok (some v), [])) ∨
    (∃ e, out = .error e ∧ e.isException = true ∧ optionalize out (fun _ => .ok ()) = (.ok none, [e])) ∨
    (∃ e, out = .error e ∧ e.isException = false ∧ optionalize out (fun _ => .ok ()) = (.error e, [])) := by
  cases out with
  | ok v => exact .inl ⟨v, rfl, rfl⟩
  | error e =>
    right
    cases e <;> first
      | exact .inl ⟨_, rfl, rfl, rfl⟩
      | exact .inr ⟨_, rfl, rfl, rfl⟩

/-- what comes after the function -/
private theorem finishCall_eq (b : Bool) {d : Dyn Src Code Glob Fn} (hi : DynInv d) (out : Except PyErr V) (w : W) :
    finishCall b d out w =
      match out, b with
      | .ok v, _ => (.ok (some v), d, w)
      | .error e, true =>
        if e.isException then (.ok none, { d with errors := d.errors ++ [⟨e, .call⟩], callFail := true }, w)
        else (.error e, d, w)
      | .error e, false => (.error e, d, w) := by
  cases b with
  | false => cases out <;> rfl
  | true =>
    simp only [finishCall, if_true, dontcare]
    rcases optionalize_cases out with ⟨v, rfl, ho⟩ | ⟨e, rfl, he, ho⟩ | ⟨e, rfl, he, ho⟩ <;> rw [ho]
    · simp only [List.map_nil, List.append_nil, noteCallFail_eq hi]
    · simp only [List.map_cons, List.map_nil, noteCallFail_append, he, if_true]
    · simp only [List.map_nil, List.append_nil, noteCallFail_eq hi, he]
      rfl

private theorem inv_call (py : Py Src Code Glob Fn Args V W) (args : Args) (opt : Option Bool) {d : Dyn Src Code Glob Fn}
    (h : DynInv d) (w : W) : DynInv (dynCall py args opt d w).2.1 := by
  unfold dynCall
  have hm := inv_maybeLoad py h w
  rcases hd : maybeLoad py d w with ⟨x, d1⟩
  rw [hd] at hm
  cases x with
  | error e => exact hm
  | ok u =>
    simp only at hm ⊢
    cases d1.funcVal with
    | none => exact hm
    | some f =>
      simp only [finishCall_eq _ hm]
      cases (py.run f args w).1 with
      | ok v => exact hm
      | error e =>
        cases opt.getD d1.optional with
        | false => exact hm
        | true =>
          simp only
          split
          · refine ⟨by simp [Logs], ?_, hm.code⟩
            have : Logs { d1 with errors := d1.errors ++ [⟨e, .call⟩], callFail := true } .compile ↔ Logs d1 .compile := by
              simp [Logs]
            rw [this]
            exact hm.compile
          · exact hm

private theorem inv_op (py : Py Src Code Glob Fn Args V W) (op : DynOp Src Glob Args) {s : Dyn Src Code Glob Fn × W}
    (h : DynInv s.1) : DynInv (dynOp py op s).1 := by
  obtain ⟨d, w⟩ := s
  cases op with
  | load r => exact inv_load py r h w
  | compile r => exact inv_compile py r h w
  | define r => exact inv_define py r h
  | unload => exact inv_unload h
  | call a o => exact inv_call py a o h w
  | _ => exact ⟨h.call, h.compile, h.code⟩

private theorem inv_run (py : Py Src Code Glob Fn Args V W) (ops : List (DynOp Src Glob Args × (W → W)))
    {s : Dyn Src Code Glob Fn × W} (h : DynInv s.1) : DynInv (dynRun py ops s).1 := by
  induction ops generalizing s with
  | nil => exact h
  | cons p t ih =>
    obtain ⟨op, g⟩ := p
    exact ih (inv_op py op h)

private theorem inv_init (py : Py Src Code Glob Fn Args V W) (a : InitArgs Src Glob) (d : Dyn Src Code Glob Fn)
    (hcode : d.func.isSome = true → d.code.isSome = true) (w : W) {d' : Dyn Src Code Glob Fn}
    (h : dynInit py a d w = .ok d') : DynInv d' := by
  have h0 : DynInv ({ d with
    globals := a.globals, optional := a.optional, errors := [], loadOnCall := a.loadOnCall, lazy := a.lazy
    callFail := false, compileFail := false, source := a.source } : Dyn Src Code Glob Fn) :=
    ⟨by simp [Logs], by simp [Logs], hcode⟩
  have hl := inv_load py false h0 w
  unfold dynInit at h
  split at h
  · cases h; exact h0
  · simp only at hl h
    split at h
    · rename_i d1 he; cases h; rw [he] at hl; exact hl
    · rename_i d1 he; cases h; rw [he] at hl; exact hl
    · cases h

private theorem made_inv {py : Py Src Code Glob Fn Args V W} {d : Dyn Src Code Glob Fn} (h : Made py d) : DynInv d := by
  obtain ⟨a, w0, d0, h0, ops, w1, w, hr⟩ := h
  have hi : DynInv d0 := by
    rcases h0 with h0 | ⟨f, h0⟩
    · exact inv_init py a {} (by simp) w0 h0
    · unfold fromFunction at h0
      cases hs : py.getsource f with
      | error e => rw [hs] at h0; cases h0
      | ok s => rw [hs] at h0; exact inv_init py a _ (fun _ => rfl) w0 h0
  have := inv_run py ops (s := (d0, w1)) hi
  rw [hr] at this
  exact this

/-! ## C57 -/

/-- C57: the flags agree with the log, whatever has been done -/
theorem C57_flags (py : Py Src Code Glob Fn Args V W) (d : Dyn Src Code Glob Fn) (h : Made py d) :
    (d.callFail = true ↔ Logs d .call) ∧ (d.compileFail = true ↔ Logs d .compile) :=
  ⟨(made_inv h).call, (made_inv h).compile⟩

/-! ## C58 -/

/-- C58: a call of a loaded Dynamic. If the call is optional (by `_optional`, or by the attribute if that is not given):
the function's value and no change; or `None` after one more entry, if the function raises an `Exception`; any other
`BaseException` goes through, without an entry. If it is not optional: whatever the function does, and no change. -/
theorem C58_call (py : Py Src Code Glob Fn Args V W) (d : Dyn Src Code Glob Fn) (h : Made py d) (f : Fn) (hf : d.funcVal = some f)
    (args : Args) (opt : Option Bool) (w : W) :
    dynCall py args opt d w =
      match py.run f args w, opt.getD d.optional with
      | (.ok v, w1), _ => (.ok (some v), d, w1)
      | (.error e, w1), true =>
        if e.isException then (.ok none, { d with errors := d.errors ++ [⟨e, .call⟩], callFail := true }, w1)
        else (.error e, d, w1)
      | (.error e, w1), false => (.error e, d, w1) := by
  have hi := made_inv h
  have hm : maybeLoad py d w = (.ok (), d) := by simp [maybeLoad, hf]
  unfold dynCall
  rw [hm]
  simp only [hf]
  rw [finishCall_eq _ hi]
  rcases py.run f args w with ⟨out, w1⟩
  cases out <;> cases opt.getD d.optional <;> rfl

/-! ## C59 -/

/-- C59: loading twice raises and changes nothing -/
theorem C59_load_twice (py : Py Src Code Glob Fn Args V W) (d : Dyn Src Code Glob Fn) (f : Fn) (hf : d.funcVal = some f) (w : W) :
    dynLoad py false d w = (.error .alreadyLoaded, d) := by
  simp [dynLoad, hf]

/-- C59: a call on an unloaded Dynamic: `UnreadyError` without `load_on_call` -/
theorem C59_unready (py : Py Src Code Glob Fn Args V W) (d : Dyn Src Code Glob Fn) (hf : d.funcVal = none)
    (hl : d.loadOnCall = false) (args : Args) (opt : Option Bool) (w : W) :
    dynCall py args opt d w = (.error .unready, d, w) := by
  simp [dynCall, maybeLoad, hf, hl]

private theorem dynLoad_ok_func {py : Py Src Code Glob Fn Args V W} {r : Bool} {d d1 : Dyn Src Code Glob Fn} {w : W}
    (h : dynLoad py r d w = (.ok (), d1)) : d1.funcVal.isSome = true := by
  unfold dynLoad at h
  split at h
  · simp at h
  · rcases hd : dynCompile py r d w with ⟨x, d2⟩
    rw [hd] at h
    cases x with
    | error e => simp at h
    | ok u =>
      simp only [dynDefine] at h
      split at h
      · simp at h
      · split at h
        · simp only [Prod.mk.injEq] at h
          rw [← h.2]
          simp [Dyn.funcVal]
        · simp at h

/-- C59: with `load_on_call` the Dynamic is loaded, then called; what loading raises, the call raises (even an optional
one), without calling anything -/
theorem C59_load_on_call (py : Py Src Code Glob Fn Args V W) (d : Dyn Src Code Glob Fn) (hf : d.funcVal = none)
    (hl : d.loadOnCall = true) (args : Args) (opt : Option Bool) (w : W) :
    dynCall py args opt d w = match dynLoad py false d w with
      | (.ok (), d1) => dynCall py args opt d1 w
      | (.error e, d1) => (.error e, d1, w) := by
  have hm : maybeLoad py d w = dynLoad py false d w := by simp [maybeLoad, hf, hl]
  rcases hd : dynLoad py false d w with ⟨x, d1⟩
  cases x with
  | error e => simp [dynCall, hm, hd]
  | ok u =>
    have hs := dynLoad_ok_func hd
    have hm1 : maybeLoad py d1 w = (.ok (), d1) := by simp [maybeLoad, hs]
    simp only [dynCall, hm, hd, hm1]

/-- C59: loading an unloaded Dynamic whose source compiles gives its function -/
theorem C59_load (py : Py Src Code Glob Fn Args V W) (d : Dyn Src Code Glob Fn) (hf : d.funcVal = none) (hc : d.codeVal = none)
    (s : Src) (hs : d.source = some s) (c : Code) (w : W) (hcomp : py.compile s w = .ok c) (f : Fn)
    (hdef : py.define c d.globals = .ok f) (r : Bool) :
    dynLoad py r d w = (.ok (), { d with code := some (some c), func := some (some f) }) := by
  have hd : dynCompile py r d w = (.ok (), { d with code := some (some c) }) := by
    simp [dynCompile, hc, hs, compileSrc, hcomp]
  have hf' : ({ d with code := some (some c) } : Dyn Src Code Glob Fn).funcVal = none := hf
  simp only [dynLoad, hf, hd, dynDefine, hf', Option.isSome_none, Bool.and_false, Bool.false_and, Bool.false_eq_true, if_false,
    defineFn, Dyn.codeVal, Option.join_some, hdef]

/-- C59: `load(reload=True)` replaces code and function by those of the source, whatever was there -/
theorem C59_reload (py : Py Src Code Glob Fn Args V W) (d : Dyn Src Code Glob Fn) (s : Src) (hs : d.source = some s) (c : Code)
    (w : W) (hcomp : py.compile s w = .ok c) (f : Fn) (hdef : py.define c d.globals = .ok f) :
    dynLoad py true d w = (.ok (), { d with code := some (some c), func := some (some f) }) := by
  simp [dynLoad, dynCompile, dynDefine, compileSrc, hs, hcomp, defineFn, Dyn.codeVal, hdef]

/-- C59: if the source does not compile, `load(reload=True)` adds an entry and sets `compile_fail`; if there is code from
before, it makes the function from that and returns as usual, otherwise it raises `TypeError` -/
theorem C59_reload_not_compiling (py : Py Src Code Glob Fn Args V W) (d : Dyn Src Code Glob Fn) (s : Src) (hs : d.source = some s)
    (e : PyErr) (he : e.isException = true) (w : W) (hcomp : py.compile s w = .error e) :
    (d.codeVal = none → dynLoad py true d w =
      (.error .typeError, { d with errors := d.errors ++ [⟨e, .compile⟩], compileFail := true })) ∧
    ∀ c f, d.codeVal = some c → py.define c d.globals = .ok f → dynLoad py true d w =
      (.ok (), { d with errors := d.errors ++ [⟨e, .compile⟩], compileFail := true, func := some (some f) }) := by
  have hd : dynCompile py true d w =
      (.ok (), { d with errors := d.errors ++ [⟨e, .compile⟩], compileFail := true }) := by
    simp [dynCompile, compileSrc, hs, hcomp, he]
  refine ⟨fun hc => ?_, fun c f hc hf => ?_⟩
  · have hc' : ({ d with errors := d.errors ++ [⟨e, .compile⟩], compileFail := true } : Dyn Src Code Glob Fn).codeVal = none := hc
    simp [dynLoad, hd, dynDefine, hc', defineFn]
  · have hc' : ({ d with errors := d.errors ++ [⟨e, .compile⟩], compileFail := true } : Dyn Src Code Glob Fn).codeVal = some c := hc
    simp [dynLoad, hd, dynDefine, hc', defineFn, hf]

/-- C59: a Dynamic that has code but no function (`compile_source` alone, or a failed `define`) cannot be loaded without
`reload=True`, and so not called either -/
theorem C59_code_without_function (py : Py Src Code Glob Fn Args V W) (d : Dyn Src Code Glob Fn) (hf : d.funcVal = none)
    (c : Code) (hc : d.codeVal = some c) (w : W) :
    dynLoad py false d w = (.error .alreadyLoaded, d) ∧
    (d.loadOnCall = true → ∀ args opt, dynCall py args opt d w = (.error .alreadyLoaded, d, w)) := by
  have hl : dynLoad py false d w = (.error .alreadyLoaded, d) := by simp [dynLoad, hf, dynCompile, hc]
  refine ⟨hl, fun h args opt => ?_⟩
  rw [C59_load_on_call py d hf h, hl]

/-- the state of a Dynamic that has not been loaded: no function, no code, no entries, no flags -/
structure Unloaded (d : Dyn Src Code Glob Fn) : Prop where
  func : d.funcVal = none
  code : d.codeVal = none
  errors : d.errors = []
  callFail : d.callFail = false
  compileFail : d.compileFail = false

/-- C59, `unload`, in full -/
def C59_unload_full : Prop :=
  ∀ (Src Code Glob Fn Args V W : Type) (py : Py Src Code Glob Fn Args V W) (d : Dyn Src Code Glob Fn), Made py d →
    (dynUnload d).1 = .ok () ∧ Unloaded (dynUnload d).2

/-- C59: `unload` gives back the unloaded state (and keeps source, globals and options) if the Dynamic has had a function
at any time: it is loaded, or was made by `from_function`, or has been unloaded before. -/
theorem C59_unload_partial (py : Py Src Code Glob Fn Args V W) (d : Dyn Src Code Glob Fn) (h : Made py d)
    (hf : d.func.isSome = true) :
    (dynUnload d).1 = .ok () ∧ Unloaded (dynUnload d).2 ∧
    (dynUnload d).2.source = d.source ∧ (dynUnload d).2.globals = d.globals ∧ (dynUnload d).2.optional = d.optional ∧
    (dynUnload d).2.loadOnCall = d.loadOnCall := by
  have hi := made_inv h
  have hc := hi.code hf
  obtain ⟨c, hc⟩ := Option.isSome_iff_exists.1 hc
  obtain ⟨f, hf⟩ := Option.isSome_iff_exists.1 hf
  simp only [dynUnload, hc, hf]
  refine ⟨trivial, ⟨rfl, rfl, rfl, rfl, rfl⟩, ?_⟩
  simp

/-- C59: otherwise `unload` raises `AttributeError` -/
theorem C59_unload_unloaded_raises (d : Dyn Src Code Glob Fn) (h : d.func = none) :
    (dynUnload d).1 = .error .attributeError := by
  unfold dynUnload
  rw [h]
  cases d.code <;> rfl

/-- a small interpreter: sources and code are numbers, `0` does not compile; the function made from code `n` adds `n`, and
raises for negative sums -/
def toyPy : Py Nat Nat Unit Nat Int Int Unit where
  compile := fun s _ => if s = 0 then .error (.user 1) else .ok (s + 10)
  define := fun c _ => .ok (c - 10)
  run := fun f x w => if x + f < 0 then (.error .valueError, w) else (.ok (x + f), w)
  getsource := fun f => .ok f
  codeOf := fun f => f + 10
  globalsOf := fun _ => ()

/-- C59: `unload` is not for every Dynamic: not for one that has never been loaded -/
theorem C59_unload_full_false : ¬ C59_unload_full := by
  intro h
  have := (h Nat Nat Unit Nat Int Int Unit toyPy { source := some 3, lazy := true } ⟨{ source := some 3, lazy := true }, (), _, .inl rfl, [], (), (), rfl⟩).1
  cases this

/-- an optional Dynamic of the function adding 3, loaded, that has failed once -/
def toyDyn : Dyn Nat Nat Unit Nat where
  source := some 3
  optional := true
  errors := [⟨.valueError, .call⟩]
  callFail := true
  code := some (some 13)
  func := some (some 3)

theorem toyDyn_made : Made toyPy toyDyn :=
  ⟨{ source := some 3, optional := true }, (), _, .inl rfl, [(.call (-7) none, id)], (), (), rfl⟩

example : toyDyn.callFail = true ∧ Logs toyDyn .call := ⟨rfl, (C57_flags toyPy toyDyn toyDyn_made).1.1 rfl⟩

example : dynCall toyPy 4 none toyDyn () = (.ok (some 7), toyDyn, ()) := C58_call toyPy toyDyn toyDyn_made 3 rfl 4 none ()

example : dynCall toyPy (-4) none toyDyn () =
    (.ok none, { toyDyn with errors := [⟨.valueError, .call⟩, ⟨.valueError, .call⟩] }, ()) :=
  C58_call toyPy toyDyn toyDyn_made 3 rfl (-4) none ()

example : dynCall toyPy (-4) (some false) toyDyn () = (.error .valueError, toyDyn, ()) :=
  C58_call toyPy toyDyn toyDyn_made 3 rfl (-4) (some false) ()

example : dynLoad toyPy false toyDyn () = (.error .alreadyLoaded, toyDyn) := C59_load_twice toyPy toyDyn 3 rfl ()

example : dynLoad toyPy true { toyDyn with source := some 4 } () =
    (.ok (), { toyDyn with source := some 4, code := some (some 14), func := some (some 4) }) :=
  C59_reload toyPy { toyDyn with source := some 4 } 4 rfl 14 () rfl 4 rfl

/-- the old function stays -/
example : dynLoad toyPy true { toyDyn with source := some 0 } () =
    (.ok (), { toyDyn with source := some 0, errors := [⟨.valueError, .call⟩, ⟨.user 1, .compile⟩], compileFail := true }) :=
  (C59_reload_not_compiling toyPy { toyDyn with source := some 0 } 0 rfl (.user 1) rfl () rfl).2 13 3 rfl rfl

example : dynCall toyPy 4 none { source := some 3, lazy := true, code := some (some 13) } () =
    (.error .alreadyLoaded, { source := some 3, lazy := true, code := some (some 13) }, ()) :=
  (C59_code_without_function toyPy { source := some 3, lazy := true, code := some (some 13) } rfl 13 rfl ()).2 rfl 4 none

example : (dynUnload toyDyn).1 = .ok () := (C59_unload_partial toyPy toyDyn toyDyn_made rfl).1

/-- loading on call, and what happens when the source does not compile: the call raises although the Dynamic is optional -/
example : dynCall toyPy 4 none { source := some 3, lazy := true } () =
      (.ok (some 7), { source := some 3, lazy := true, code := some (some 13), func := some (some 3) }, ()) ∧
    (dynCall toyPy 4 none { source := some 0, lazy := true, optional := true } ()).1 = .error .typeError :=
  ⟨C59_load_on_call toyPy { source := some 3, lazy := true } rfl rfl 4 none (), rfl⟩

example : dynCall toyPy 4 none { source := some 3, lazy := true, loadOnCall := false } () =
    (.error .unready, { source := some 3, lazy := true, loadOnCall := false }, ()) :=
  C59_unready toyPy _ rfl rfl 4 none ()

example : dynLoad toyPy false { source := some 3, lazy := true } () =
    (.ok (), { source := some 3, lazy := true, code := some (some 13), func := some (some 3) }) :=
  C59_load toyPy _ rfl rfl 3 rfl 13 () rfl 3 rfl false

/-! ## C60 -/

/-- C60, in full: unloaded and called again, a Dynamic made from a function does what the function does, if the function's
source compiles to a function that does -/
def C60_full : Prop :=
  ∀ (Src Code Glob Fn Args V W : Type) (py : Py Src Code Glob Fn Args V W) (f : Fn) (w : W) (s : Src) (d : Dyn Src Code Glob Fn),
    py.getsource f = .ok s → py.compile s w = .ok (py.codeOf f) → py.define (py.codeOf f) (some (py.globalsOf f)) = .ok f →
    fromFunction py f {} w = .ok d → ∀ args,
      (dynCall py args none (dynUnload d).2 w).1 = (dynCall py args none d w).1

private theorem fromFunction_eq {py : Py Src Code Glob Fn Args V W} {f : Fn} {s : Src} (hs : py.getsource f = .ok s)
    (a : InitArgs Src Glob) (w : W) :
    fromFunction py f a w = .ok {
      source := a.source, globals := a.globals, optional := a.optional, lazy := a.lazy
      loadOnCall := a.loadOnCall, code := some (some (py.codeOf f)), func := some (some f) } := by
  unfold fromFunction
  rw [hs]
  simp only [dynInit]
  split
  · rfl
  · simp [dynLoad, Dyn.funcVal]

/-- C60: in fact no Dynamic made by `from_function(f)` can be called again after `unload`: the constructor it runs
forgets the source. The call raises `TypeError`. -/
theorem C60_never_reloads (py : Py Src Code Glob Fn Args V W) (f : Fn) (w : W) (d : Dyn Src Code Glob Fn)
    (h : fromFunction py f {} w = .ok d) (args : Args) (opt : Option Bool) (w' : W) :
    (dynUnload d).1 = .ok () ∧ (dynCall py args opt (dynUnload d).2 w').1 = .error .typeError := by
  cases hs : py.getsource f with
  | error e => simp [fromFunction, hs] at h
  | ok s =>
    rw [fromFunction_eq hs] at h
    cases h
    constructor
    · rfl
    · simp [dynUnload, dynCall, maybeLoad, dynLoad, dynCompile, compileSrc, dynDefine, defineFn, Dyn.funcVal, Dyn.codeVal,
        PyErr.isException]

theorem C60_full_false : ¬ C60_full := by
  intro h
  have := h Nat Nat Unit Nat Int Int Unit toyPy 3 () 3 _ rfl rfl rfl (fromFunction_eq (s := 3) rfl {} ()) 4
  exact absurd (show (Except.error PyErr.typeError : Except PyErr (Option Int)) = .ok (some 7) from this) nofun

/-- C60, the part that holds: a Dynamic made by `from_function` does what the function does until it is unloaded; and
after that too if the source and globals have been given to `from_function` again. -/
theorem C60_from_function_partial (py : Py Src Code Glob Fn Args V W) (f : Fn) (a : InitArgs Src Glob) (ha : a.optional = false)
    (w : W) (d : Dyn Src Code Glob Fn) (h : fromFunction py f a w = .ok d) (args : Args) :
    (dynCall py args none d w = ((py.run f args w).1.map some, d, (py.run f args w).2)) ∧
    (∀ s, py.getsource f = .ok s → a.source = some s → a.globals = some (py.globalsOf f) → a.loadOnCall = true →
      py.compile s w = .ok (py.codeOf f) → py.define (py.codeOf f) (some (py.globalsOf f)) = .ok f →
      dynCall py args none (dynUnload d).2 w = ((py.run f args w).1.map some, d, (py.run f args w).2)) := by
  cases hs : py.getsource f with
  | error e => simp [fromFunction, hs] at h
  | ok s =>
    rw [fromFunction_eq hs] at h
    cases h
    constructor
    · simp only [dynCall, maybeLoad, Dyn.funcVal, Option.join_some, Option.isSome_some, if_true]
      simp [finishCall, ha]
    · intro s' h1 h2 h3 h4 h5 h6
      simp [dynUnload, dynCall, maybeLoad, dynLoad, dynCompile, compileSrc, dynDefine, defineFn, Dyn.funcVal, Dyn.codeVal,
        h2, h3, h4, h5, h6, ha, finishCall]

example : ∃ d, fromFunction toyPy 3 { source := some 3, globals := some () } () = .ok d ∧
    dynCall toyPy 4 none (dynUnload d).2 () = (.ok (some 7), d, ()) :=
  ⟨_, rfl, (C60_from_function_partial toyPy 3 { source := some 3, globals := some () } rfl () _ rfl 4).2 3 rfl rfl rfl rfl rfl rfl⟩

end Verif.Props
