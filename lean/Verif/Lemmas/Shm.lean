import Verif.Model.Memutilz
/-!
# Running shared-memory programs: store transformers, `run` of each primitive, blocks as contents
-/
set_option linter.unusedSectionVars false
namespace Verif.Model
open Verif

/-- the contents of the block at an address -/
def Store.content (s : Store) (x : Str) : Option Bytes := (s.names x).map s.segs

/-- every name has its own segment, older than `next` -/
structure Store.WF (s : Store) : Prop where
  lt : ∀ {n i}, s.names n = some i → i < s.next
  inj : ∀ {n n' i}, s.names n = some i → s.names n' = some i → n = n'

/-- the empty world -/
def Store.empty : Store := { names := fun _ => none, segs := fun _ => [], next := 0 }

def Store.created (s : Store) (n : Str) (size : Nat) : Store :=
  { names := fun x => if x = n then some s.next else s.names x
    segs := fun i => if i = s.next then List.replicate size 0 else s.segs i
    next := s.next + 1 }

def Store.unlinked (s : Store) (n : Str) : Store := { s with names := fun x => if x = n then none else s.names x }

def Store.wrote (s : Store) (i : Nat) (b : Bytes) : Store := { s with segs := fun j => if j = i then b else s.segs j }

end Verif.Model

namespace Verif.Lemmas
open Verif Verif.Model
variable {α β : Type} {E : Env}

theorem content_some {s : Store} {n : Str} {i : Nat} (h : s.names n = some i) : s.content n = some (s.segs i) := by
  simp [Store.content, h]

theorem content_none {s : Store} {n : Str} : s.content n = none ↔ s.names n = none := by
  simp [Store.content]

theorem names_of_content {s : Store} {n : Str} {b : Bytes} (h : s.content n = some b) :
    ∃ i, s.names n = some i ∧ s.segs i = b := by
  simpa [Store.content] using h

theorem wf_empty : Store.empty.WF := ⟨by simp [Store.empty], by simp [Store.empty]⟩

theorem wf_created {s : Store} (w : s.WF) (n : Str) (size : Nat) : (s.created n size).WF := by
  constructor
  · intro x i h
    simp only [Store.created] at h ⊢
    split at h
    · simp at h; omega
    · have := w.lt h; omega
  · intro x y i h1 h2
    simp only [Store.created] at h1 h2
    split at h1 <;> split at h2
    · simp_all
    · rename_i a b
      have h3 := w.lt h2
      simp at h1; omega
    · have h3 := w.lt h1
      simp at h2; omega
    · exact w.inj h1 h2

theorem wf_unlinked {s : Store} (w : s.WF) (n : Str) : (s.unlinked n).WF := by
  constructor
  · intro x i h
    simp only [Store.unlinked] at h ⊢
    split at h
    · simp at h
    · exact w.lt h
  · intro x y i h1 h2
    simp only [Store.unlinked] at h1 h2
    split at h1 <;> split at h2 <;> first | simp_all; done | exact w.inj h1 h2

theorem wf_wrote {s : Store} (w : s.WF) (i : Nat) (b : Bytes) : (s.wrote i b).WF :=
  ⟨fun h => w.lt h, fun h1 h2 => w.inj h1 h2⟩

@[simp] theorem names_created (s : Store) (n x : Str) (size : Nat) :
    (s.created n size).names x = if x = n then some s.next else s.names x := rfl
@[simp] theorem names_unlinked (s : Store) (n x : Str) :
    (s.unlinked n).names x = if x = n then none else s.names x := rfl
@[simp] theorem names_wrote (s : Store) (i : Nat) (b : Bytes) (x : Str) : (s.wrote i b).names x = s.names x := rfl

theorem content_created {s : Store} (w : s.WF) (n x : Str) (size : Nat) :
    (s.created n size).content x = if x = n then some (List.replicate size 0) else s.content x := by
  by_cases h : x = n
  · subst h; simp [Store.content, Store.created]
  · simp only [Store.content, Store.created, if_neg h]
    cases hx : s.names x with
    | none => simp
    | some i =>
      have := w.lt hx
      simp [Nat.ne_of_lt this]

theorem content_unlinked (s : Store) (n x : Str) :
    (s.unlinked n).content x = if x = n then none else s.content x := by
  by_cases h : x = n
  · subst h; simp [Store.content, Store.unlinked]
  · simp [Store.content, Store.unlinked, if_neg h]

theorem content_wrote {s : Store} (w : s.WF) {n : Str} {i : Nat} (hn : s.names n = some i) (b : Bytes) (x : Str) :
    (s.wrote i b).content x = if x = n then some b else s.content x := by
  by_cases h : x = n
  · subst h; simp [Store.content, Store.wrote, hn]
  · simp only [Store.content, Store.wrote, if_neg h]
    cases hx : s.names x with
    | none => simp
    | some j =>
      have : j ≠ i := fun e => h (w.inj hx (e ▸ hn))
      simp [this]

/-! ## run -/

@[simp] theorem run_pure (a : α) (s : Store) : (pure a : Prog α).run E s = (.ok a, s) := rfl
@[simp] theorem run_ret (a : α) (s : Store) : (Prog.ret a : Prog α).run E s = (.ok a, s) := rfl
@[simp] theorem run_raise (e : PyErr) (s : Store) : (Prog.raise e : Prog α).run E s = (.err e, s) := rfl
@[simp] theorem run_stuck (s : Store) : (Prog.stuck : Prog α).run E s = (.stuck, s) := rfl

/-- continue a run -/
def andThen (E : Env) (r : Outcome α × Store) (f : α → Prog β) : Outcome β × Store :=
  match r with
  | (.ok a, s) => (f a).run E s
  | (.err e, s) => (.err e, s)
  | (.stuck, s) => (.stuck, s)

@[simp] theorem andThen_ok (a : α) (s : Store) (f : α → Prog β) : andThen E (.ok a, s) f = (f a).run E s := rfl
@[simp] theorem andThen_err (e : PyErr) (s : Store) (f : α → Prog β) : andThen E (.err e, s) f = (.err e, s) := rfl
@[simp] theorem andThen_stuck (s : Store) (f : α → Prog β) : andThen E (.stuck, s) f = (.stuck, s) := rfl

theorem run_bind' (p : Prog α) (f : α → Prog β) (s : Store) : (p.bind f).run E s = andThen E (p.run E s) f := by
  induction p generalizing s with
  | ret a => rfl
  | raise e => rfl
  | stuck => rfl
  | op o k ih => simp only [Prog.bind, Prog.run]; exact ih _ _

theorem run_bind (p : Prog α) (f : α → Prog β) (s : Store) : (p >>= f).run E s = andThen E (p.run E s) f :=
  run_bind' p f s

/-- the outcome of a run as a value -/
def asValue (r : Outcome α × Store) : Outcome (Except PyErr α) × Store :=
  match r with
  | (.ok a, s) => (.ok (.ok a), s)
  | (.err e, s) => (.ok (.error e), s)
  | (.stuck, s) => (.stuck, s)

@[simp] theorem asValue_ok (a : α) (s : Store) : asValue (.ok a, s) = (.ok (.ok a), s) := rfl
@[simp] theorem asValue_err (e : PyErr) (s : Store) : asValue (α := α) (.err e, s) = (.ok (.error e), s) := rfl
@[simp] theorem asValue_stuck (s : Store) : asValue (α := α) (.stuck, s) = (.stuck, s) := rfl

theorem run_catch (p : Prog α) (h : PyErr → Prog α) (s : Store) : (p.catch_ h).run E s =
    match p.run E s with
    | (.ok a, s') => (.ok a, s')
    | (.err e, s') => (h e).run E s'
    | (.stuck, s') => (.stuck, s') := by
  induction p generalizing s with
  | ret a => rfl
  | raise e => rfl
  | stuck => rfl
  | op o k ih => simp only [Prog.catch_, Prog.run]; exact ih _ _

theorem run_attempt (p : Prog α) (s : Store) : p.attempt.run E s = asValue (p.run E s) := by
  rw [Prog.attempt, run_catch, run_bind']
  rcases p.run E s with ⟨o, s'⟩
  cases o <;> rfl

theorem run_ofExcept_ok (a : α) (s : Store) : (Prog.ofExcept (.ok a)).run E s = (.ok a, s) := rfl
theorem run_ofExcept_err (e : PyErr) (s : Store) : (Prog.ofExcept (.error e) : Prog α).run E s = (.err e, s) := rfl

theorem run_intBytes {w n : Nat} (h : n < 256 ^ w) (s : Store) : (intBytes w n).run E s = (.ok (toLE w n), s) := by
  rw [intBytes, if_pos h]; rfl

theorem run_intBytes_overflow {w n : Nat} (h : ¬ n < 256 ^ w) (s : Store) :
    (intBytes w n).run E s = (.err .overflowError, s) := by
  rw [intBytes, if_neg h]; rfl

theorem run_create {n : Str} {size : Nat} {s : Store} (hz : size ≠ 0) (hok : E.okName n = true)
    (hn : s.names n = none) : (create n size).run E s = (.ok s.next, s.created n size) := by
  simp [create, Prog.prim, Prog.run, Op.step, hz, hok, hn, Store.created]

theorem run_create_zero (n : Str) (s : Store) : (create n 0).run E s = (.err .valueError, s) := by
  simp [create, Prog.prim, Prog.run, Op.step]

theorem run_create_bad {n : Str} {size : Nat} (s : Store) (hz : size ≠ 0) (hok : E.okName n = false) :
    (create n size).run E s = (.err .osError, s) := by
  simp [create, Prog.prim, Prog.run, Op.step, hz, hok]

theorem run_create_exists {n : Str} {size i : Nat} {s : Store} (hz : size ≠ 0) (hok : E.okName n = true)
    (hn : s.names n = some i) : (create n size).run E s = (.err .fileExists, s) := by
  simp [create, Prog.prim, Prog.run, Op.step, hz, hok, hn]

theorem run_attach {n : Str} {i : Nat} {s : Store} (hok : E.okName n = true)
    (hn : s.names n = some i) : (attach n).run E s = (.ok i, s) := by
  simp [attach, Prog.prim, Prog.run, Op.step, hok, hn]

theorem run_attach_none {n : Str} {s : Store} (hok : E.okName n = true)
    (hn : s.names n = none) : (attach n).run E s = (.err .fileNotFound, s) := by
  simp [attach, Prog.prim, Prog.run, Op.step, hok, hn]

theorem run_attach_bad {n : Str} (s : Store) (hok : E.okName n = false) :
    (attach n).run E s = (.err .osError, s) := by
  simp [attach, Prog.prim, Prog.run, Op.step, hok]

theorem run_unlink {n : Str} {i : Nat} {s : Store} (hn : s.names n = some i) :
    (unlink n).run E s = (.ok (), s.unlinked n) := by
  simp [unlink, Prog.prim, Prog.run, Op.step, hn, Store.unlinked]

theorem run_unlink_none {n : Str} {s : Store} (hn : s.names n = none) :
    (unlink n).run E s = (.err .fileNotFound, s) := by
  simp [unlink, Prog.prim, Prog.run, Op.step, hn]

theorem run_read (i : Nat) (s : Store) : (read i).run E s = (.ok (s.segs i), s) := rfl

theorem run_write {i : Nat} {b : Bytes} {s : Store} (h : b.length = (s.segs i).length) :
    (write i b).run E s = (.ok (), s.wrote i b) := by
  simp [write, Prog.prim, Prog.run, Op.step, h, Store.wrote]

theorem run_write_bad {i : Nat} {b : Bytes} {s : Store} (h : b.length ≠ (s.segs i).length) :
    (write i b).run E s = (.err .valueError, s) := by
  simp [write, Prog.prim, Prog.run, Op.step, h]

theorem run_writeFront (i : Nat) (b : Bytes) (s : Store) :
    (writeFront i b).run E s = (.ok (), s.wrote i (b ++ (s.segs i).drop b.length)) := by
  simp [writeFront, Prog.prim, Prog.run, Op.step, Store.wrote]

/-! ## memutilz -/

theorem run_existsBlock {a : Str} (s : Store) (hok : E.okName a = true) :
    (existsBlock a).run E s = (.ok (s.names a).isSome, s) := by
  rw [existsBlock, run_bind, run_attempt]
  cases hn : s.names a with
  | none => rw [run_attach_none hok hn]; rfl
  | some i => rw [run_attach hok hn]; rfl

theorem run_openBlock_new {a : Str} {size : Nat} {ow : Bool} {s : Store} (hz : size ≠ 0) (hok : E.okName a = true)
    (hn : s.names a = none) : (openBlock a size true ow).run E s = (.ok s.next, s.created a size) := by
  rw [openBlock, run_bind, run_attempt]
  simp only [if_true]
  rw [run_create hz hok hn]; rfl

theorem run_openBlock_attach {a : Str} {size i : Nat} {s : Store} (hz : size ≠ 0) (hok : E.okName a = true)
    (hn : s.names a = some i) : (openBlock a size true false).run E s = (.ok i, s) := by
  rw [openBlock, run_bind, run_attempt]
  simp only [if_true]
  rw [run_create_exists hz hok hn]
  simp only [asValue_err, andThen_ok, if_true]
  exact run_attach hok hn

theorem run_openBlock_over {a : Str} {size i : Nat} {s : Store} (hz : size ≠ 0) (hok : E.okName a = true)
    (hn : s.names a = some i) :
    (openBlock a size true true).run E s = (.ok s.next, (s.unlinked a).created a size) := by
  rw [openBlock, run_bind, run_attempt]
  simp only [if_true]
  rw [run_create_exists hz hok hn]
  simp only [asValue_err, andThen_ok, if_true]
  rw [if_neg (by simp), run_bind, run_attach hok hn, andThen_ok, run_bind, run_unlink hn, andThen_ok,
    run_create hz hok (by simp)]
  rfl

theorem run_openBlock_zero {a : Str} {ow : Bool} (s : Store) :
    (openBlock a 0 true ow).run E s = (.err .valueError, s) := by
  rw [openBlock, run_bind, run_attempt]
  simp only [if_true]
  rw [run_create_zero]; rfl

theorem run_openBlock_bad {a : Str} {size : Nat} {cr ow : Bool} (s : Store) (hz : size ≠ 0)
    (hok : E.okName a = false) : (openBlock a size cr ow).run E s = (.err .osError, s) := by
  rw [openBlock, run_bind, run_attempt]
  cases cr
  · simp only [if_false, Bool.false_eq_true]
    rw [run_attach_bad s hok]; rfl
  · simp only [if_true]
    rw [run_create_bad s hz hok]; rfl

theorem run_openBlock_nocreate {a : Str} {size i : Nat} {ow : Bool} {s : Store} (hok : E.okName a = true)
    (hn : s.names a = some i) : (openBlock a size false ow).run E s = (.ok i, s) := by
  rw [openBlock, run_bind, run_attempt]
  simp only [if_false, Bool.false_eq_true]
  rw [run_attach hok hn]; rfl

theorem run_openBlock_nocreate_none {a : Str} {size : Nat} {ow : Bool} {s : Store} (hok : E.okName a = true)
    (hn : s.names a = none) : (openBlock a size false ow).run E s = (.err .fileNotFound, s) := by
  rw [openBlock, run_bind, run_attempt]
  simp only [if_false, Bool.false_eq_true]
  rw [run_attach_none hok hn]; rfl

theorem run_deleteBlock {a : Str} {i : Nat} {mo : Bool} {s : Store} (hok : E.okName a = true)
    (hn : s.names a = some i) : (deleteBlock a mo).run E s = (.ok (), s.unlinked a) := by
  rw [deleteBlock, run_bind, run_attempt, run_bind, run_attach hok hn, andThen_ok, run_unlink hn]; rfl

theorem run_deleteBlock_none {a : Str} {mo : Bool} {s : Store} (hok : E.okName a = true)
    (hn : s.names a = none) : (deleteBlock a mo).run E s = (.err .fileNotFound, s) := by
  rw [deleteBlock, run_bind, run_attempt, run_bind, run_attach_none hok hn]; rfl

theorem run_fetchBlockBytes {a : Str} {b : Bytes} {s : Store} (hok : E.okName a = true)
    (hn : s.content a = some b) : (fetchBlockBytes a).run E s = (.ok b, s) := by
  obtain ⟨i, h1, h2⟩ := names_of_content hn
  rw [fetchBlockBytes, run_bind, run_attach hok h1, andThen_ok, run_read, h2]

/-! ## one-address effects -/

/-- `s'` differs from `s` at most at address `a`, which now has contents `v` -/
structure Eff (s s' : Store) (a : Str) (v : Option Bytes) : Prop where
  wf : s'.WF
  content : ∀ x, s'.content x = if x = a then v else s.content x
  names : ∀ x, x ≠ a → s'.names x = s.names x

theorem eff_created {s : Store} (w : s.WF) (a : Str) (size : Nat) :
    Eff s (s.created a size) a (some (List.replicate size 0)) :=
  ⟨wf_created w _ _, fun x => content_created w _ _ _, fun x h => by simp [h]⟩

theorem eff_unlinked {s : Store} (w : s.WF) (a : Str) : Eff s (s.unlinked a) a none :=
  ⟨wf_unlinked w _, fun x => content_unlinked _ _ _, fun x h => by simp [h]⟩

theorem eff_wrote {s : Store} (w : s.WF) {a : Str} {i : Nat} (hn : s.names a = some i) (b : Bytes) :
    Eff s (s.wrote i b) a (some b) :=
  ⟨wf_wrote w _ _, fun x => content_wrote w hn _ _, fun x h => by simp⟩

theorem Eff.trans {s s' s'' : Store} {a : Str} {v v' : Option Bytes} (h1 : Eff s s' a v) (h2 : Eff s' s'' a v') :
    Eff s s'' a v' :=
  ⟨h2.wf, fun x => by rw [h2.content, h1.content]; split <;> rfl, fun x h => by rw [h2.names x h, h1.names x h]⟩

/-- a fresh zeroed block at `a`, whatever was there -/
theorem run_openBlock_fresh {a : Str} {size : Nat} {s : Store} (w : s.WF) (hz : size ≠ 0) (hok : E.okName a = true) :
    ∃ i s', (openBlock a size true true).run E s = (.ok i, s') ∧ s'.names a = some i ∧
      s'.segs i = List.replicate size 0 ∧ Eff s s' a (some (List.replicate size 0)) := by
  cases hn : s.names a with
  | none =>
    exact ⟨_, _, run_openBlock_new hz hok hn, by simp, by simp [Store.created], eff_created w _ _⟩
  | some i =>
    refine ⟨_, _, run_openBlock_over hz hok hn, by simp [Store.unlinked], by simp [Store.created, Store.unlinked], ?_⟩
    exact (eff_unlinked w a).trans (eff_created (wf_unlinked w a) _ _)

/-- open a fresh block and fill it: the pattern `block = open_block(a, len(b), True, True); block.buf[:] = b` -/
theorem run_put {a : Str} {b : Bytes} {s : Store} (w : s.WF) (hz : b ≠ []) (hok : E.okName a = true) :
    ∃ i s1 s', (openBlock a b.length true true).run E s = (.ok i, s1) ∧ (write i b).run E s1 = (.ok (), s') ∧
      s'.names a = some i ∧ Eff s s' a (some b) ∧ Eff s s1 a (some (List.replicate b.length 0)) := by
  have hz' : b.length ≠ 0 := by simpa using hz
  obtain ⟨i, s1, e1, n1, g1, f1⟩ := run_openBlock_fresh w hz' hok (E := E)
  refine ⟨i, s1, _, e1, run_write (by rw [g1]; simp), by simpa using n1, ?_, f1⟩
  exact f1.trans (eff_wrote f1.wf n1 b)

/-- write to the block at `a` through a current handle -/
theorem run_write_at {a : Str} {i : Nat} {b : Bytes} {s : Store} (w : s.WF) (hn : s.names a = some i)
    (hl : b.length = (s.segs i).length) :
    ∃ s', (write i b).run E s = (.ok (), s') ∧ s'.names a = some i ∧ Eff s s' a (some b) :=
  ⟨_, run_write hl, by simpa using hn, eff_wrote w hn b⟩

end Verif.Lemmas
