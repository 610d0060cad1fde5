import Verif.Model.Bytewise
/-!
# What a `Sticky` may read while others stick
-/
namespace Verif.Spec
open Verif Verif.Model
variable {V : Type}

/-- the calls a process has begun -/
def StickyProc.begun (p : StickyProc V) : List (StickyCall V) := p.hist.map Prod.fst ++ (p.now.map Prod.fst).toList

/-- a process that has made a `Sticky(a)` and has not called it yet -/
def StickyProc.Fresh (a : Str) (p : StickyProc V) : Prop := p.obj = { address := a, cached := none } ∧ p.hist = [] ∧ p.now = none

/-- the encodings that somebody has begun to stick, or that were there -/
def StuckSource (c : Codec V) (s : Store) (a : Str) (ps : List (StickyProc V)) (b : Bytes) : Prop :=
  (s.names a).map s.segs = some b ∨ ∃ p ∈ ps, ∃ v, .stick v ∈ StickyProc.begun p ∧ c.encode v = .ok b

/-- byte by byte zero or from one of the sources of this length -/
def Blend (Src : Bytes → Prop) (d : Bytes) : Prop :=
  ∀ i, i < d.length → d.getD i 0 = 0 ∨ ∃ b, Src b ∧ b.length = d.length ∧ d.getD i 0 = b.getD i 0

/-- one of the sources, or zeros -/
def OneOf (Src : Bytes → Prop) (d : Bytes) : Prop := Src d ∨ ∃ z, d = List.replicate z 0

/-- what a read gives for bytes that decode like this -/
def noteVal (isNone : V → Bool) : Except PyErr V → Except PyErr (StickyOut V)
  | .error e => .error e
  | .ok v => .ok (.val (if isNone v then none else some v))

/-- the outcome of reading: nothing there; what bytes seen in the block decode to, now or at an earlier read of this object; a
value the object has stuck itself -/
def NoteRead (c : Codec V) (isNone : V → Bool) (SegP : Bytes → Prop) (own : List (StickyCall V)) (out : Except PyErr (StickyOut V)) : Prop :=
  out = .ok (.val none) ∨ (∃ d, SegP d ∧ out = noteVal isNone (c.decode d)) ∨
    ∃ v, .stick v ∈ own ∧ isNone v = false ∧ out = .ok (.val (some v))

end Verif.Spec
