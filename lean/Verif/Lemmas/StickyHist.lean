import Verif.Lemmas.ShmWF
import Verif.Model.Notepad
import Verif.Spec.Sticky
/-! # Histories of Stickies at one address -/
namespace Verif.Lemmas
open Verif Verif.Model Verif.Spec
variable {E : Env} {V : Type} {c : Codec V}

/-- the outcome of a call that gives a new note -/
def newNote (o : Outcome (Sticky V)) (ns : List (Sticky V)) : StickyAnswer V × List (Sticky V) :=
  match o with
  | .ok n => (.joined, ns ++ [n])
  | .err e => (.failed e, ns)
  | .stuck => (.stuck, ns)

def readNote (i : Nat) (o : Outcome (Option V × Sticky V)) (ns : List (Sticky V)) : StickyAnswer V × List (Sticky V) :=
  match o with
  | .ok (v, n) => (.value v, ns.set i n)
  | .err e => (.failed e, ns)
  | .stuck => (.stuck, ns)

def stickNote (i : Nat) (o : Outcome (Sticky V)) (ns : List (Sticky V)) : StickyAnswer V × List (Sticky V) :=
  match o with
  | .ok n => (.done, ns.set i n)
  | .err e => (.failed e, ns)
  | .stuck => (.stuck, ns)

def closeNote (o : Outcome Unit) (ns : List (Sticky V)) : StickyAnswer V × List (Sticky V) :=
  match o with
  | .ok _ => (.done, ns)
  | .err e => (.failed e, ns)
  | .stuck => (.stuck, ns)

/-- the call on the model; the notes are objects of the processes that made them -/
def runSticky (E : Env) (c : Codec V) (nil : V → Bool) (a : Str) (ns : List (Sticky V)) (s : Store) :
    StickyCall V → (StickyAnswer V × List (Sticky V)) × Store
  | .join => ((.joined, ns ++ [stickyInit a]), s)
  | .note v => (newNote ((stickyNote c nil v a).run E s).1 ns, ((stickyNote c nil v a).run E s).2)
  | .read i reread => match ns[i]? with
    | none => ((.noNote, ns), s)
    | some n => (readNote i ((stickyRead c nil n reread).run E s).1 ns, ((stickyRead c nil n reread).run E s).2)
  | .stick i v => match ns[i]? with
    | none => ((.noNote, ns), s)
    | some n => (stickNote i ((stickyStick c nil n v).run E s).1 ns, ((stickyStick c nil n v).run E s).2)
  | .close i => match ns[i]? with
    | none => ((.noNote, ns), s)
    | some n => (closeNote ((stickyClose n).run E s).1 ns, ((stickyClose n).run E s).2)

def playSticky (E : Env) (c : Codec V) (nil : V → Bool) (a : Str) : List (StickyCall V) → List (Sticky V) → Store →
    List (StickyAnswer V) × List (Sticky V) × Store
  | [], ns, s => ([], ns, s)
  | o :: t, ns, s =>
    let r := runSticky E c nil a ns s o
    let q := playSticky E c nil a t r.1.2 r.2
    (r.1.1 :: q.1, q.2)

/-- an object that the codec writes and reads back -/
def StickyOK (c : Codec V) (enc : V → Bytes) (v : V) : Prop :=
  c.encode v = .ok (enc v) ∧ enc v ≠ [] ∧ c.decode (enc v) = .ok v

/-- the objects of a call are fine -/
def StickyCallOK (c : Codec V) (enc : V → Bytes) : StickyCall V → Prop
  | .note v => StickyOK c enc v
  | .stick _ v => StickyOK c enc v
  | _ => True

/-- the notes and the memory hold the state -/
structure StickyHolds (c : Codec V) (enc : V → Bytes) (a : Str) (s : Store) (ns : List (Sticky V)) (st : StickyState V) :
    Prop where
  wf : s.WF
  cell : s.content a = st.cell.map enc
  notes : ns = st.notes.map fun r => ⟨a, r⟩
  coded : ∀ v, st.cell = some v → StickyOK c enc v

section
variable {enc : V → Bytes} {nil : V → Bool} {a : Str} {s : Store} {ns : List (Sticky V)} {st : StickyState V}

theorem StickyHolds.note (h : StickyHolds c enc a s ns st) (i : Nat) : ns[i]? = (st.notes[i]?).map fun r => ⟨a, r⟩ := by
  rw [h.notes, List.getElem?_map]

/-- sticking an object -/
theorem StickyHolds.stick (h : StickyHolds c enc a s ns st) (hok : E.okName a = true) {v : V} (hv : StickyOK c enc v)
    (r : Option V) :
    ∃ s', (stickyStick c nil ⟨a, r⟩ v).run E s = (match cellPut enc st.cell v with
        | .ok w => .ok ⟨a, seen nil w⟩ | .error e => .err e, s') ∧
      (match cellPut enc st.cell v with
        | .ok w => w = v ∧ Eff s s' a (some (enc v))
        | .error _ => s' = s) := by
  have hz : (enc v).length ≠ 0 := by simpa using hv.2.1
  have hc := h.cell
  cases hcell : st.cell with
  | none =>
    rw [hcell] at hc
    have f := eff_created h.wf a (enc v).length
    have hn1 : (s.created a (enc v).length).names a = some s.next := by simp
    obtain ⟨s', e2, n2, f2⟩ := run_write_at (E := E) (b := enc v) f.wf hn1 (by simp [Store.created])
    refine ⟨s', ?_, rfl, f.trans f2⟩
    unfold stickyStick
    rw [hv.1, run_bind, run_ofExcept_ok, andThen_ok, run_bind, run_openBlock_new hz hok (content_none.1 hc), andThen_ok,
      run_bind, e2]
    rfl
  | some old =>
    rw [hcell] at hc
    obtain ⟨i, hi, hsi⟩ := names_of_content hc
    simp only [cellPut]
    by_cases hl : (enc v).length = (enc old).length
    · obtain ⟨s', e, n, f⟩ := run_write_at (E := E) (b := enc v) h.wf hi (by rw [hsi]; exact hl)
      rw [if_pos hl]
      refine ⟨s', ?_, rfl, f⟩
      unfold stickyStick
      rw [hv.1, run_bind, run_ofExcept_ok, andThen_ok, run_bind, run_openBlock_attach hz hok hi, andThen_ok, run_bind, e]
      rfl
    · rw [if_neg hl]
      refine ⟨s, ?_, rfl⟩
      unfold stickyStick
      rw [hv.1, run_bind, run_ofExcept_ok, andThen_ok, run_bind, run_openBlock_attach hz hok hi, andThen_ok, run_bind,
        run_write_bad (by rw [hsi]; exact hl)]
      rfl

/-- reading -/
theorem StickyHolds.read (h : StickyHolds c enc a s ns st) (hok : E.okName a = true) (r : Option V) (reread : Bool) :
    (stickyRead c nil ⟨a, r⟩ reread).run E s =
      (.ok (noteRead nil st.cell r reread, ⟨a, noteKeep nil st.cell r reread⟩), s) := by
  have hc := h.cell
  have look : ∀ r' : Option V, ((do
      match ← (attach a).attempt with
      | .error .fileNotFound => pure (none, (⟨a, r'⟩ : Sticky V))
      | .error e => .raise e
      | .ok h => do
        let b ← Model.read h
        let v ← Prog.ofExcept (c.decode b)
        let r := if nil v then none else some v
        pure (r, ⟨a, r⟩)) : Prog (Option V × Sticky V)).run E s =
      (.ok (st.cell.bind (seen nil), ⟨a, match st.cell with | none => r' | some v => seen nil v⟩), s) := by
    intro r'
    cases hcell : st.cell with
    | none =>
      rw [hcell] at hc
      rw [run_bind, run_attempt, run_attach_none hok (content_none.1 hc)]
      rfl
    | some v =>
      rw [hcell] at hc
      obtain ⟨i, hi, hsi⟩ := names_of_content hc
      rw [run_bind, run_attempt, run_attach hok hi, asValue_ok, andThen_ok]
      simp only []
      rw [run_bind, run_read, andThen_ok, run_bind, hsi, (h.coded v hcell).2.2]
      rfl
  unfold stickyRead noteRead noteKeep
  cases r with
  | none => simp only [ne_eq, not_true_eq_false, and_false, if_false]; exact look none
  | some v =>
    cases reread with
    | true => simp only [Bool.true_eq_false, false_and, if_false]; exact look (some v)
    | false => simp [Prog.run, pure]

/-- one call -/
theorem runSticky_ok (h : StickyHolds c enc a s ns st) (hok : E.okName a = true) (o : StickyCall V)
    (ho : StickyCallOK c enc o) :
    (runSticky E c nil a ns s o).1.1 = (stickyAnswer enc nil st o).1 ∧
      StickyHolds c enc a (runSticky E c nil a ns s o).2 (runSticky E c nil a ns s o).1.2 (stickyAnswer enc nil st o).2 ∧
      ∀ x, x ≠ a → (runSticky E c nil a ns s o).2.content x = s.content x := by
  cases o with
  | join => exact ⟨rfl, ⟨h.wf, h.cell, by simp [runSticky, stickyAnswer, h.notes, stickyInit], h.coded⟩, fun _ _ => rfl⟩
  | note v =>
    obtain ⟨s', e, he⟩ := h.stick (nil := nil) hok ho (if nil v then none else some v)
    have e' : (stickyNote c nil v a).run E s = _ := e
    cases hp : cellPut enc st.cell v with
    | error er =>
      rw [hp] at he e'
      subst he
      refine ⟨by simp only [runSticky, e', stickyAnswer, hp, newNote], ?_, fun x _ => by simp only [runSticky, e']⟩
      simp only [runSticky, e', stickyAnswer, hp, newNote]
      exact h
    | ok w =>
      rw [hp] at he e'
      obtain ⟨rfl, f⟩ := he
      refine ⟨by simp only [runSticky, e', stickyAnswer, hp, newNote], ?_, fun x hx => by
        simp only [runSticky, e']; rw [f.content, if_neg hx]⟩
      simp only [runSticky, e', stickyAnswer, hp, newNote]
      refine ⟨f.wf, by rw [f.content]; simp, by simp [h.notes], fun v' hv' => ?_⟩
      injection hv' with hv'
      exact hv' ▸ ho
  | read i reread =>
    simp only [runSticky, stickyAnswer, h.note i]
    cases hi : st.notes[i]? with
    | none => exact ⟨rfl, h, fun _ _ => rfl⟩
    | some r =>
      simp only [Option.map_some, h.read hok r reread, readNote]
      refine ⟨trivial, ⟨h.wf, h.cell, ?_, h.coded⟩, fun _ _ => trivial⟩
      rw [h.notes, List.map_set]
  | stick i v =>
    simp only [runSticky, stickyAnswer, h.note i]
    cases hi : st.notes[i]? with
    | none => exact ⟨rfl, h, fun _ _ => rfl⟩
    | some r =>
      obtain ⟨s', e, he⟩ := h.stick (nil := nil) hok ho r
      cases hp : cellPut enc st.cell v with
      | error er =>
        rw [hp] at he e
        subst he
        simp only [Option.map_some, e, stickNote]
        exact ⟨trivial, h, fun _ _ => trivial⟩
      | ok w =>
        rw [hp] at he e
        obtain ⟨rfl, f⟩ := he
        simp only [Option.map_some, e, stickNote]
        refine ⟨trivial, ⟨f.wf, by rw [f.content]; simp, by rw [h.notes, List.map_set], fun v' hv' => ?_⟩, fun x hx => by
          rw [f.content, if_neg hx]⟩
        injection hv' with hv'
        exact hv' ▸ ho
  | close i =>
    simp only [runSticky, stickyAnswer, h.note i]
    have hc := h.cell
    cases hi : st.notes[i]? with
    | none => exact ⟨rfl, h, fun _ _ => rfl⟩
    | some r =>
      simp only [Option.map_some]
      cases hcell : st.cell with
      | none =>
        rw [hcell] at hc
        have e : (stickyClose (⟨a, r⟩ : Sticky V)).run E s = (.err .fileNotFound, s) := by
          rw [stickyClose, run_bind, run_attach_none hok (content_none.1 hc)]
          rfl
        simp only [e, closeNote]
        exact ⟨trivial, h, fun _ _ => trivial⟩
      | some v =>
        rw [hcell] at hc
        obtain ⟨j, hj, hsj⟩ := names_of_content hc
        have e : (stickyClose (⟨a, r⟩ : Sticky V)).run E s = (.ok (), s.unlinked a) := by
          rw [stickyClose, run_bind, run_attach hok hj, andThen_ok, run_unlink hj]
        have f := eff_unlinked h.wf a
        simp only [e, closeNote]
        refine ⟨trivial, ⟨f.wf, by rw [f.content]; simp, h.notes, by simp⟩, fun x hx => by rw [f.content, if_neg hx]⟩

/-- a history -/
theorem playSticky_ok (ops : List (StickyCall V)) (h : StickyHolds c enc a s ns st) (hok : E.okName a = true)
    (ho : ∀ o ∈ ops, StickyCallOK c enc o) :
    (playSticky E c nil a ops ns s).1 = (stickyPlay enc nil ops st).1 ∧
      StickyHolds c enc a (playSticky E c nil a ops ns s).2.2 (playSticky E c nil a ops ns s).2.1
        (stickyPlay enc nil ops st).2 ∧
      ∀ x, x ≠ a → (playSticky E c nil a ops ns s).2.2.content x = s.content x := by
  induction ops generalizing s ns st with
  | nil => exact ⟨rfl, h, fun _ _ => rfl⟩
  | cons o t ih =>
    obtain ⟨h1, h2, h3⟩ := runSticky_ok (nil := nil) h hok o (ho o (by simp))
    obtain ⟨g1, g2, g3⟩ := ih h2 (fun o' ho' => ho o' (by simp [ho']))
    refine ⟨?_, g2, fun x hx => (g3 x hx).trans (h3 x hx)⟩
    simp only [playSticky, stickyPlay, h1, g1]

end
end Verif.Lemmas
