import Verif.Model.TwoStep
/-!
# What it means that creation in two steps cannot be told from creation in one
-/
namespace Verif.Spec
open Verif Verif.Model
variable {α : Type}

/-- the process as it is when the operation that it has begun is taken as complete, and successful -/
def overall : Proc α → Prog α
  | .run p => p
  | .sizing h _ k => k (.ok h)
  | .mapping h k => k (.ok h)

/-- the process is between two operations -/
def Between : Proc α → Prop
  | .run _ => True
  | _ => False

/-- the stores are the same, but that what is being created is empty in the first and complete in the second -/
structure SameButHalf (ps : List (Proc α)) (s s' : Store) : Prop where
  names : s'.names = s.names
  next : s'.next = s.next
  half : ∀ (i h z : Nat) (k : Except PyErr Nat → Prog α), ps[i]? = some (.sizing h z k) → s.segs h = [] ∧ s'.segs h = List.replicate z 0
  rest : ∀ h, (∀ (i z : Nat) (k : Except PyErr Nat → Prog α), ps[i]? ≠ some (.sizing h z k)) → s'.segs h = s.segs h

/-- A program keeps to the rules: it uses only blocks that it was given (`K`) or that it has created or opened; it opens a
block either under a name in `A`, or in a way that goes on in the same way whether the block is found to be there or to
be empty (as `exists_block` does); it unlinks only names in `U`; when it returns, `Q` holds of the blocks it may use and the
value. -/
def Keeps (A U : Str → Prop) (Q : (Nat → Prop) → α → Prop) : (Nat → Prop) → Prog α → Prop
  | K, .ret a => Q K a
  | _, .raise _ => True
  | _, .stuck => True
  | K, .op (.create _ _) k => ∀ r : Except PyErr Nat, Keeps A U Q (fun x => K x ∨ r = .ok x) (k r)
  | K, .op (.attach n) k => (A n ∨ ∀ i : Nat, k (.error .valueError) = k (.ok i)) ∧
      ∀ r : Except PyErr Nat, Keeps A U Q (fun x => K x ∨ r = .ok x) (k r)
  | K, .op (.unlink n) k => U n ∧ ∀ r, Keeps A U Q K (k r)
  | K, .op (.read h) k => K h ∧ ∀ r, Keeps A U Q K (k r)
  | K, .op (.write h _) k => K h ∧ ∀ r, Keeps A U Q K (k r)
  | K, .op (.writeFront h _) k => K h ∧ ∀ r, Keeps A U Q K (k r)

/-- the program uses only blocks that it was given or that it has created or opened -/
def Handles (K : Nat → Prop) (p : Prog α) : Prop := Keeps (fun _ => True) (fun _ => True) (fun _ _ => True) K p

/-- no process that opens a block finds it empty, unless it goes on as if it had found it complete -/
def Unnoticed (E : Env) : List Nat → List (Proc α) → Store → Prop
  | [], _, _ => True
  | i :: sched, ps, s =>
    (∀ (h : Nat) (k : Except PyErr Nat → Prog α), ps[i]? = some (.mapping h k) → s.segs h = [] → k (.error .valueError) = k (.ok h)) ∧
    match ps[i]? with
    | none => Unnoticed E sched ps s
    | some p => match p.step E s with
      | none => Unnoticed E sched ps s
      | some (p', s') => Unnoticed E sched (ps.set i p') s'

end Verif.Spec
