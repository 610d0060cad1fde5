import Verif.Spec.ResTracker
import Verif.Lemmas.Shm
/-! # The tracker's lines, programs run with it, and histories of processes -/
namespace Verif.Lemmas
open Verif Verif.Model Verif.Spec
variable {α β : Type} {E : Env}

/-! ## the line protocol -/

theorem trackerLines_one (l : Str) (h : '\n' ∉ l) (acc : Str) : trackerLines acc (l ++ ['\n']) = [acc ++ l] := by
  induction l generalizing acc with
  | nil => simp [trackerLines]
  | cons c t ih =>
    simp only [List.mem_cons, not_or] at h
    simp [trackerLines, Ne.symm h.1, ih h.2]

theorem splitColons_none (l : Str) (h : ':' ∉ l) : splitColons l = [l] := by
  induction l with
  | nil => rfl
  | cons c t ih =>
    simp only [List.mem_cons, not_or] at h
    simp [splitColons, Ne.symm h.1, ih h.2]

theorem splitColons_cons (l t : Str) (h : ':' ∉ l) : splitColons (l ++ ':' :: t) = l :: splitColons t := by
  induction l with
  | nil => simp [splitColons]
  | cons c r ih =>
    simp only [List.mem_cons, not_or] at h
    simp [splitColons, Ne.symm h.1, ih h.2]

theorem splitColons_ne_nil (l : Str) : splitColons l ≠ [] := by
  cases l with
  | nil => simp [splitColons]
  | cons c t =>
    simp only [splitColons]
    split
    · simp
    · split <;> simp

theorem splitColons_length (l t : Str) :
    (splitColons (l ++ ':' :: t)).length = (splitColons l).length + (splitColons t).length := by
  induction l with
  | nil => simp [splitColons]; omega
  | cons c r ih =>
    simp only [List.cons_append, splitColons]
    split
    · simp [ih]; omega
    · have h1 := splitColons_ne_nil r
      have h2 := splitColons_ne_nil (r ++ ':' :: t)
      rcases e1 : splitColons r with _ | ⟨x, xs⟩
      · exact absurd e1 h1
      rcases e2 : splitColons (r ++ ':' :: t) with _ | ⟨y, ys⟩
      · exact absurd e2 h2
      rw [e1, e2] at ih
      simpa using ih

theorem splitColons_mem (l : Str) (h : ':' ∈ l) : 2 ≤ (splitColons l).length := by
  obtain ⟨a, b, rfl⟩ := List.append_of_mem h
  rw [splitColons_length]
  have h1 := List.length_pos_iff.2 (splitColons_ne_nil a)
  have h2 := List.length_pos_iff.2 (splitColons_ne_nil b)
  omega

theorem line_eq (cmd name rtype : Str) : trackerLine cmd name rtype = (cmd ++ ':' :: (name ++ ':' :: rtype)) ++ ['\n'] := by
  simp [trackerLine]

theorem feed_line (c : List Str) {cmd name : Str} (h1 : '\n' ∉ cmd) (h2 : '\n' ∉ name) :
    trackerFeed c (trackerLine cmd name shmType) = trackerEats c (cmd ++ ':' :: (name ++ ':' :: shmType)) := by
  have : '\n' ∉ shmType := by decide
  rw [trackerFeed, line_eq, trackerLines_one]
  · rfl
  · simp only [List.mem_append, List.mem_cons, not_or]
    exact ⟨h1, by decide, h2, by decide, this⟩

theorem eats_line (c : List Str) {cmd name : Str} (h1 : ':' ∉ cmd) (h2 : ':' ∉ name) :
    trackerEats c (cmd ++ ':' :: (name ++ ':' :: shmType)) =
      if cmd = regWord then if name ∈ c then c else name :: c
      else if cmd = unregWord then c.filter (fun x => x ≠ name) else c := by
  have : ':' ∉ shmType := by decide
  rw [trackerEats, splitColons_cons _ _ h1, splitColons_cons _ _ h2, splitColons_none _ this]
  simp

theorem eats_colon (c : List Str) {cmd name : Str} (h1 : ':' ∉ cmd) (h2 : ':' ∈ name) :
    trackerEats c (cmd ++ ':' :: (name ++ ':' :: shmType)) = c := by
  have h3 := splitColons_mem _ h2
  have h4 := splitColons_length name shmType
  have h5 := List.length_pos_iff.2 (splitColons_ne_nil shmType)
  rw [trackerEats, splitColons_cons _ _ h1]
  rcases e : splitColons (name ++ ':' :: shmType) with _ | ⟨a, _ | ⟨b, _ | ⟨d, r⟩⟩⟩
  · rfl
  · rfl
  · rw [e] at h4; simp at h4; omega
  · rfl

theorem feed_nil (c : List Str) : trackerFeed c [] = c := rfl

theorem feed_register (c : List Str) {n : Str} (h : LineName n) :
    trackerFeed c (trackerLine regWord ('/' :: n) shmType) = if '/' :: n ∈ c then c else ('/' :: n) :: c := by
  rw [feed_line c (by decide) (by simp [h.2.2]), eats_line c (by decide) (by simp [h.2.1])]
  simp

theorem feed_unregister (c : List Str) {n : Str} (h : LineName n) :
    trackerFeed c (trackerLine unregWord ('/' :: n) shmType) = c.filter (fun x => x ≠ '/' :: n) := by
  rw [feed_line c (by decide) (by simp [h.2.2]), eats_line c (by decide) (by simp [h.2.1])]
  simp [show unregWord ≠ regWord by decide]

theorem feed_colon (c : List Str) {cmd n : Str} (hc : cmd = regWord ∨ cmd = unregWord) (h : ':' ∈ n) (h' : '\n' ∉ n) :
    trackerFeed c (trackerLine cmd ('/' :: n) shmType) = c := by
  rw [feed_line c (by rcases hc with rfl | rfl <;> decide) (by simp [h']),
    eats_colon c (by rcases hc with rfl | rfl <;> decide) (by simp [h])]

theorem trackerSend_ascii {cmd n : Str} (hc : cmd = regWord ∨ cmd = unregWord) (h : AsciiText n) (hl : n.length ≤ 255) :
    trackerSend cmd ('/' :: n) shmType = .ok (trackerLine cmd ('/' :: n) shmType) := by
  have h1 : (trackerLine cmd ('/' :: n) shmType).any (fun c => 128 ≤ c.toNat) = false := by
    simp only [trackerLine, List.cons_append, List.any_append, List.any_cons, Bool.or_eq_false_iff]
    refine ⟨by rcases hc with rfl | rfl <;> decide, by decide, by decide, ?_, by decide, by decide, by decide⟩
    rw [List.any_eq_false]
    intro c hm
    have := h c hm
    simp; omega
  have h2 : (trackerLine cmd ('/' :: n) shmType).length ≤ 512 := by
    have : cmd.length ≤ 10 := by rcases hc with rfl | rfl <;> decide
    have h3 : shmType.length = 13 := by decide
    simp only [trackerLine, List.length_append, List.length_cons, List.length_nil, h3]
    omega
  simp only [trackerSend, h1]
  simp; omega

theorem trackerSend_nonascii {cmd n : Str} (h : ¬ AsciiText n) :
    trackerSend cmd ('/' :: n) shmType = .error .unicodeEncode := by
  have h1 : (trackerLine cmd ('/' :: n) shmType).any (fun c => 128 ≤ c.toNat) = true := by
    simp only [AsciiText, Classical.not_forall] at h
    obtain ⟨c, hc, hn⟩ := h
    rw [List.any_eq_true]
    refine ⟨c, by simp [trackerLine, hc], by simp; omega⟩
  simp only [trackerSend, h1]
  rfl

/-! ## one operation -/

/-- the name an operation sends -/
theorem note_words {o : Op} {cmd n : Str} (h : o.note = some (cmd, n)) : cmd = regWord ∨ cmd = unregWord := by
  cases o <;> simp [Op.note] at h <;> simp [← h.1]

theorem trackedStep_patched {pr : TProc} (hp : pr.patched = true) (o : Op) (w : Store × List Str) :
    trackedStep E pr o w = ((o.step E w.1).1, ((o.step E w.1).2, w.2)) := by
  rw [trackedStep]
  rcases e : o.step E w.1 with ⟨r, s⟩
  cases r with
  | error e => rfl
  | ok v =>
    dsimp only
    rcases o.note with _ | ⟨cmd, n⟩
    · rfl
    · simp [trackerCall, hp, feed_nil]

theorem trackedStep_store (pr : TProc) (o : Op) (w : Store × List Str) :
    (trackedStep E pr o w).2.1 = (o.step E w.1).2 := by
  rw [trackedStep]
  rcases e : o.step E w.1 with ⟨r, s⟩
  cases r with
  | error e => rfl
  | ok v =>
    dsimp only
    rcases o.note with _ | ⟨cmd, n⟩
    · rfl
    · dsimp only
      split <;> rfl

/-- the tracker answers: nothing else changes -/
theorem trackedStep_same {pr : TProc} {o : Op} (w : Store × List Str)
    (h : ∀ cmd n, o.note = some (cmd, n) → (∃ v s', o.step E w.1 = (.ok v, s')) → ∃ t, trackerCall pr cmd n shmType = .ok t) :
    (trackedStep E pr o w).1 = (o.step E w.1).1 ∧ (trackedStep E pr o w).2.1 = (o.step E w.1).2 := by
  rw [trackedStep]
  rcases e : o.step E w.1 with ⟨r, s⟩
  cases r with
  | error e => exact ⟨rfl, rfl⟩
  | ok v =>
    dsimp only
    rcases en : o.note with _ | ⟨cmd, n⟩
    · exact ⟨rfl, rfl⟩
    · obtain ⟨t, ht⟩ := h cmd n en ⟨v, s, e⟩
      simp [ht]

/-! ## programs -/

/-- run the next program on the outcome of the previous one -/
def thenIn (E : Env) (pr : TProc) (r : Outcome α × (Store × List Str)) (f : α → Prog β) :
    Outcome β × (Store × List Str) :=
  match r with
  | (.ok a, w) => (f a).runIn E pr w
  | (.err e, w) => (.err e, w)
  | (.stuck, w) => (.stuck, w)

@[simp] theorem thenIn_ok (pr : TProc) (a : α) (w : Store × List Str) (f : α → Prog β) :
    thenIn E pr (.ok a, w) f = (f a).runIn E pr w := rfl
@[simp] theorem thenIn_err (pr : TProc) (e : PyErr) (w : Store × List Str) (f : α → Prog β) :
    thenIn E pr (.err e, w) f = (.err e, w) := rfl

@[simp] theorem runIn_pure (pr : TProc) (a : α) (w : Store × List Str) : (pure a : Prog α).runIn E pr w = (.ok a, w) := rfl
@[simp] theorem runIn_ret (pr : TProc) (a : α) (w : Store × List Str) : (Prog.ret a : Prog α).runIn E pr w = (.ok a, w) := rfl
@[simp] theorem runIn_raise (pr : TProc) (e : PyErr) (w : Store × List Str) :
    (Prog.raise e : Prog α).runIn E pr w = (.err e, w) := rfl

theorem runIn_bind (pr : TProc) (p : Prog α) (f : α → Prog β) (w : Store × List Str) :
    (p >>= f).runIn E pr w = thenIn E pr (p.runIn E pr w) f := by
  show (p.bind f).runIn E pr w = _
  induction p generalizing w with
  | ret a => rfl
  | raise e => rfl
  | stuck => rfl
  | op o k ih => simp only [Prog.bind, Prog.runIn]; exact ih _ _

/-- the outcome as a value -/
def valueIn (r : Outcome α × (Store × List Str)) : Outcome (Except PyErr α) × (Store × List Str) :=
  match r with
  | (.ok a, w) => (.ok (.ok a), w)
  | (.err e, w) => (.ok (.error e), w)
  | (.stuck, w) => (.stuck, w)

@[simp] theorem valueIn_ok (a : α) (w : Store × List Str) : valueIn (.ok a, w) = (.ok (.ok a), w) := rfl
@[simp] theorem valueIn_err (e : PyErr) (w : Store × List Str) : valueIn (α := α) (.err e, w) = (.ok (.error e), w) := rfl

theorem runIn_attempt (pr : TProc) (p : Prog α) (w : Store × List Str) :
    p.attempt.runIn E pr w = valueIn (p.runIn E pr w) := by
  unfold Prog.attempt
  induction p generalizing w with
  | ret a => rfl
  | raise e => rfl
  | stuck => rfl
  | op o k ih => simp only [Prog.bind, Prog.catch_, Prog.runIn]; exact ih _ _

theorem runIn_prim (pr : TProc) (o : Op) (w : Store × List Str) :
    (Prog.prim o).runIn E pr w = match (trackedStep E pr o w).1 with
      | .ok v => (.ok v, (trackedStep E pr o w).2)
      | .error e => (.err e, (trackedStep E pr o w).2) := by
  simp only [Prog.prim, Prog.runIn]
  split <;> simp_all

/-- a program in a process that has deactivated the tracker runs as if there were none -/
theorem runIn_patched {pr : TProc} (hp : pr.patched = true) (p : Prog α) (w : Store × List Str) :
    p.runIn E pr w = ((p.run E w.1).1, ((p.run E w.1).2, w.2)) := by
  induction p generalizing w with
  | ret a => rfl
  | raise e => rfl
  | stuck => rfl
  | op o k ih => simp only [Prog.runIn, Prog.run, trackedStep_patched hp]; rw [ih]

/-- every block name in the program, whatever the operations return -/
def NamesIn (P : Str → Prop) : Prog α → Prop
  | .ret _ => True
  | .raise _ => True
  | .stuck => True
  | .op o k => (∀ cmd n, o.note = some (cmd, '/' :: n) → P n) ∧ ∀ r, NamesIn P (k r)

theorem note_slash {o : Op} {cmd n : Str} (h : o.note = some (cmd, n)) : ∃ m, n = '/' :: m := by
  cases o <;> simp [Op.note] at h <;> exact ⟨_, h.2.symm⟩

/-- an operation that succeeds and opens or removes a block has a name the OS accepts -/
theorem step_ok_name {o : Op} {cmd n : Str} {s s' : Store} {v : o.Res} (h : o.note = some (cmd, '/' :: n))
    (hs : o.step E s = (.ok v, s')) (hw : ∀ x, s.names x ≠ none → E.okName x = true) : E.okName n = true := by
  cases o with
  | create m size =>
    simp [Op.note] at h
    rw [← h.2]
    by_cases h1 : size = 0
    · simp [Op.step, h1] at hs
    by_cases h2 : E.okName m = false
    · simp [Op.step, h1, h2] at hs
    · simpa using h2
  | attach m =>
    simp [Op.note] at h
    rw [← h.2]
    by_cases h2 : E.okName m = false
    · simp [Op.step, h2] at hs
    · simpa using h2
  | unlink m =>
    simp [Op.note] at h
    rw [← h.2]
    rcases e : s.names m with _ | i
    · simp [Op.step, e] at hs
    · exact hw m (by simp [e])
  | read i => simp [Op.note] at h
  | write i b => simp [Op.note] at h
  | writeFront i b => simp [Op.note] at h

/-- only names the OS accepts exist -/
def OnlyOk (E : Env) (s : Store) : Prop := ∀ x, s.names x ≠ none → E.okName x = true

theorem onlyOk_step {o : Op} {s : Store} (h : OnlyOk E s) : OnlyOk E (o.step E s).2 := by
  intro x hx
  cases o with
  | create n size =>
    by_cases h1 : size = 0
    · simp [Op.step, h1] at hx; exact h x hx
    by_cases h2 : E.okName n = false
    · simp [Op.step, h1, h2] at hx; exact h x hx
    rcases e : s.names n with _ | i
    · simp [Op.step, h1, h2, e] at hx
      by_cases h3 : x = n
      · subst h3; simpa using h2
      · exact h x (by simpa [h3] using hx)
    · simp [Op.step, h1, h2, e] at hx; exact h x hx
  | attach n =>
    by_cases h2 : E.okName n = false
    · simp [Op.step, h2] at hx; exact h x hx
    · rcases e : s.names n with _ | i <;> simp [Op.step, h2, e] at hx <;> exact h x hx
  | unlink n =>
    rcases e : s.names n with _ | i <;> simp [Op.step, e] at hx
    · exact h x hx
    · exact h x hx.2
  | read i => exact h x hx
  | write i b =>
    simp only [Op.step] at hx
    split at hx <;> exact h x hx
  | writeFront i b => exact h x hx

theorem onlyOk_run {s : Store} (p : Prog α) (h : OnlyOk E s) : OnlyOk E (p.run E s).2 := by
  induction p generalizing s with
  | ret a => exact h
  | raise e => exact h
  | stuck => exact h
  | op o k ih => exact ih _ (onlyOk_step h)

/-- with ASCII names only, a program runs as if there were no tracker -/
theorem runIn_ascii (hE : NameMax E) {pr : TProc} (p : Prog α) (w : Store × List Str) (hn : NamesIn AsciiText p)
    (ho : OnlyOk E w.1) : (p.runIn E pr w).1 = (p.run E w.1).1 ∧ (p.runIn E pr w).2.1 = (p.run E w.1).2 := by
  induction p generalizing w with
  | ret a => exact ⟨rfl, rfl⟩
  | raise e => exact ⟨rfl, rfl⟩
  | stuck => exact ⟨rfl, rfl⟩
  | op o k ih =>
    have h := trackedStep_same (E := E) (pr := pr) (o := o) w (fun cmd n hno ⟨v, s', hs⟩ => by
      obtain ⟨m, rfl⟩ := note_slash hno
      by_cases hp : pr.patched = true
      · exact ⟨[], by simp [trackerCall, hp]⟩
      · refine ⟨trackerLine cmd ('/' :: m) shmType, ?_⟩
        simp only [trackerCall, hp]
        exact trackerSend_ascii (note_words hno) (hn.1 _ _ hno) (hE m (step_ok_name hno hs ho)))
    simp only [Prog.runIn, Prog.run]
    have h2 := ih (trackedStep E pr o w).1 (trackedStep E pr o w).2 (hn.2 _) (by rw [h.2]; exact onlyOk_step ho)
    rw [h.1, h.2] at h2
    rw [h.1]
    exact h2

end Verif.Lemmas
