import Verif.Py.Err
import Verif.Py.Str
/-!
# What a Sticky is for: one cell of shared memory with remembered reads

`enc` is how objects are written, `nil` tells `None`. The cell keeps the size of the first object stuck to it.
-/
namespace Verif.Spec
open Verif

/-- the cell, and what each note remembers -/
structure StickyState (V : Type) where
  cell : Option V
  notes : List (Option V)

/-- a call on the notes of one address -/
inductive StickyCall (V : Type) where
  | join                                   -- `Sticky(address)`
  | note (v : V)                           -- `Sticky.note(v, address)`
  | read (i : Nat) (reread : Bool)
  | stick (i : Nat) (v : V)
  | close (i : Nat)

/-- what it gives; `value none` is `None` -/
inductive StickyAnswer (V : Type) where
  | joined
  | value (v : Option V)
  | done
  | failed (e : PyErr)
  | noNote
  | stuck

/-- an object as a caller sees it -/
def seen {V : Type} (nil : V → Bool) (v : V) : Option V := if nil v then none else some v

/-- the cell after an object is stuck to it, unless it does not fit -/
def cellPut {V : Type} (enc : V → Bytes) (cell : Option V) (v : V) : Except PyErr V :=
  match cell with
  | none => .ok v
  | some old => if (enc v).length = (enc old).length then .ok v else .error .valueError

/-- what a note gives: what it remembers, unless asked again, or else what the cell holds -/
def noteRead {V : Type} (nil : V → Bool) (cell : Option V) (remembered : Option V) (reread : Bool) : Option V :=
  if reread = false ∧ remembered ≠ none then remembered else cell.bind (seen nil)

/-- what a note remembers then -/
def noteKeep {V : Type} (nil : V → Bool) (cell : Option V) (remembered : Option V) (reread : Bool) : Option V :=
  if reread = false ∧ remembered ≠ none then remembered else
    match cell with
    | none => remembered
    | some v => seen nil v

/-- answer and new state -/
def stickyAnswer {V : Type} (enc : V → Bytes) (nil : V → Bool) (st : StickyState V) :
    StickyCall V → StickyAnswer V × StickyState V
  | .join => (.joined, { st with notes := st.notes ++ [none] })
  | .note v => match cellPut enc st.cell v with
    | .ok w => (.joined, ⟨some w, st.notes ++ [seen nil w]⟩)
    | .error e => (.failed e, st)
  | .read i reread => match st.notes[i]? with
    | none => (.noNote, st)
    | some r => (.value (noteRead nil st.cell r reread), { st with notes := st.notes.set i (noteKeep nil st.cell r reread) })
  | .stick i v => match st.notes[i]? with
    | none => (.noNote, st)
    | some _ => match cellPut enc st.cell v with
      | .ok w => (.done, ⟨some w, st.notes.set i (seen nil w)⟩)
      | .error e => (.failed e, st)
  | .close i => match st.notes[i]? with
    | none => (.noNote, st)
    | some _ => match st.cell with
      | none => (.failed .fileNotFound, st)
      | some _ => (.done, { st with cell := none })

/-- answers to a sequence of calls -/
def stickyPlay {V : Type} (enc : V → Bytes) (nil : V → Bool) : List (StickyCall V) → StickyState V →
    List (StickyAnswer V) × StickyState V
  | [], st => ([], st)
  | o :: t, st => ((stickyAnswer enc nil st o).1 :: (stickyPlay enc nil t (stickyAnswer enc nil st o).2).1,
      (stickyPlay enc nil t (stickyAnswer enc nil st o).2).2)

end Verif.Spec
