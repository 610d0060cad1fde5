import Verif.Lemmas.RG
import Verif.Lemmas.LockQuiet
/-!
# The phases of `with lock: body` (the program of Model/Index.lean) and its place in the transition system of
Model/LockTS.lean
-/
namespace Verif.Lemmas
open Verif Verif.Model
open Verif.Model.LockTS (Pc)
variable {α : Type} {E : Env}

/-- what is left of `withLock` at the end of the body -/
def leaveP (name : Str) (h : Held) (r : Except PyErr α) : Prog α := (lockRelease name h).bind fun _ => Prog.ofExcept r

/-- what is left of `withLock` when `p` is what is left of the body -/
def bodyP (name : Str) (h : Held) (p : Prog α) : Prog α := p.attempt.bind (leaveP name h)

/-- what is left of `lockEnter` when the markers from `k` on are to be tried -/
def enterMark (fuel : Nat) (name : Str) (c f fuel' k : Nat) : Prog Held :=
  (renumber name fuel' k).bind fun number =>
    (create (lockAddr name number) 1).attempt.bind fun r => match r with
      | .ok _ => (spin name f number fuel).bind fun _ => pure { count := c, number, own := true }
      | .error .fileExists => pure { count := c, number, own := false }
      | .error e => (unlink (markerAddr name number)).bind fun _ => .raise e

/-- … when the lock block is to be placed -/
def enterPlace (fuel : Nat) (name : Str) (c f number : Nat) : Prog Held :=
  (create (lockAddr name number) 1).attempt.bind fun r => match r with
      | .ok _ => (spin name f number fuel).bind fun _ => pure { count := c, number, own := true }
      | .error .fileExists => pure { count := c, number, own := false }
      | .error e => (unlink (markerAddr name number)).bind fun _ => .raise e

/-- … when `d` lock blocks are still to be looked for -/
def enterScan (name : Str) (c f number fuel' d : Nat) : Prog Held :=
  ((scanLocks name f d).bind fun b => if b then pure () else spin name f number fuel').bind fun _ =>
    pure { count := c, number, own := true }

/-- … when the count block is to be read -/
def enterRead (fuel : Nat) (name : Str) (c : Nat) : Prog Held :=
  (read c).bind fun b => enterMark fuel name c (fromLE b) fuel (fromLE b + 1)

/-- where a program `withLock (.sliding fuel) name body` is (`away`: its client is not using the lock) -/
inductive Ph (α : Type) where
  | fresh (fuel : Nat) (body : Prog α)
  | opening (fuel : Nat) (body : Prog α)
  | reading (fuel : Nat) (body : Prog α) (c : Nat)
  | marking (fuel : Nat) (body : Prog α) (c f fuel' k : Nat)
  | placing (fuel : Nat) (body : Prog α) (c f n : Nat)
  | scanning (body : Prog α) (c f n fuel' d : Nat)
  | inside (c n : Nat) (own : Bool) (p : Prog α)
  | unlocking (n : Nat) (r : Except PyErr α)
  | unmarking (n : Nat) (r : Except PyErr α)
  | ended (r : Except PyErr α)
  | dead (pc : Pc)
  | away

namespace Ph

/-- the program that is left -/
def prog (name : Str) : Ph α → Prog α
  | fresh fuel body => withLock (.sliding fuel) name body
  | opening fuel body => ((attach (countAddr name)).bind fun c => enterRead fuel name c).bind (fun h => bodyP name h body)
  | reading fuel body c => (enterRead fuel name c).bind (fun h => bodyP name h body)
  | marking fuel body c f fuel' k => (enterMark fuel name c f (fuel' + 1) k).bind (fun h => bodyP name h body)
  | placing fuel body c f n => (enterPlace fuel name c f n).bind (fun h => bodyP name h body)
  | scanning body c f n fuel' d => (enterScan name c f n fuel' d).bind (fun h => bodyP name h body)
  | inside c n own p => bodyP name ⟨c, n, own⟩ p
  | unlocking n r => ((unlink (lockAddr name n)).bind fun _ => unlink (markerAddr name n)).bind fun _ => Prog.ofExcept r
  | unmarking n r => (unlink (markerAddr name n)).bind fun _ => Prog.ofExcept r
  | ended r => Prog.ofExcept r
  | dead _ => .stuck
  | away => .raise .assertionError

/-- its place in the transition system -/
def pc : Ph α → Pc
  | fresh _ _ => .out
  | opening _ _ => .out
  | reading _ _ _ => .reading
  | marking _ _ _ f _ k => .marking f k
  | placing _ _ _ f n => .placing f n
  | scanning _ _ f n _ d => .scanning f n d
  | inside _ n own _ => .inside n own
  | unlocking n _ => .unlocking n
  | unmarking n _ => .unmarking n
  | ended _ => .out
  | dead p => p
  | away => .out

/-- how the body has ended, once the release has begun -/
def res : Ph α → Option (Except PyErr α)
  | unlocking _ r => some r
  | unmarking _ r => some r
  | ended r => some r
  | _ => none

/-- the handle of the count block it holds and may still use -/
def handle : Ph α → Option Nat
  | reading _ _ c => some c
  | marking _ _ c _ _ _ => some c
  | placing _ _ c _ _ => some c
  | scanning _ c _ _ _ _ => some c
  | inside c _ _ _ => some c
  | _ => none

/-- has not begun a call, or is busy elsewhere -/
def isFresh : Ph α → Bool
  | fresh _ _ => true
  | away => true
  | _ => false

def isInside : Ph α → Bool
  | inside _ _ _ _ => true
  | _ => false

end Ph

/-! ## what the programs do next -/

section shapes
variable (name : Str)

theorem prog_fresh (fuel : Nat) (body : Prog α) : (Ph.fresh fuel body).prog name =
    .op (.create (countAddr name) 5) fun r => match r with
      | .ok c => (Ph.reading fuel body c).prog name
      | .error .fileExists => (Ph.opening fuel body).prog name
      | .error e => .raise e := by
  show Prog.op _ _ = _
  congr 1
  funext r
  cases r with
  | ok c => rfl
  | error e => cases e <;> rfl

theorem prog_opening (fuel : Nat) (body : Prog α) : (Ph.opening fuel body).prog name =
    .op (.attach (countAddr name)) fun r => match r with
      | .ok c => (Ph.reading fuel body c).prog name
      | .error e => .raise e := by
  show Prog.op _ _ = _
  congr 1
  funext r
  cases r <;> rfl

/-- what follows once the marker has been tried -/
def afterMark (fuel : Nat) (body : Prog α) (c f fuel' k : Nat) : Ph α :=
  match fuel' with
  | 0 => .dead (.marking f k)
  | g + 1 => .marking fuel body c f g k

theorem prog_afterMark (fuel : Nat) (body : Prog α) (c f fuel' k : Nat) :
    (afterMark fuel body c f fuel' k).prog name = (enterMark fuel name c f fuel' k).bind (fun h => bodyP name h body) := by
  cases fuel' <;> rfl

theorem prog_reading (fuel : Nat) (body : Prog α) (c : Nat) : (Ph.reading fuel body c).prog name =
    .op (.read c) fun r => match r with
      | .ok b => (afterMark fuel body c (fromLE b) fuel (fromLE b + 1)).prog name
      | .error e => .raise e := by
  show Prog.op _ _ = _
  congr 1
  funext r
  cases r with
  | ok b => exact (prog_afterMark name fuel body c (fromLE b) fuel (fromLE b + 1)).symm
  | error e => rfl

theorem prog_marking (fuel : Nat) (body : Prog α) (c f fuel' k : Nat) : (Ph.marking fuel body c f fuel' k).prog name =
    .op (.create (markerAddr name k) 1) fun r => match r with
      | .ok _ => (Ph.placing fuel body c f k).prog name
      | .error .fileExists => (afterMark fuel body c f fuel' (k + 1)).prog name
      | .error e => .raise e := by
  show Prog.op _ _ = _
  congr 1
  funext r
  cases r with
  | ok c => rfl
  | error e => cases e <;> first | rfl | (rw [prog_afterMark]; rfl)

/-- what follows once a lock block has been seen -/
def afterScan (body : Prog α) (c f n fuel' : Nat) : Ph α :=
  match fuel' with
  | 0 => .dead (.scanning f n (n - f))
  | g + 1 => .scanning body c f n g (n - f)

theorem prog_afterScan (body : Prog α) (c f n fuel' : Nat) : (afterScan body c f n fuel').prog name =
    ((spin name f n fuel').bind fun _ => pure (f := Prog) (Held.mk c n true)).bind (fun h => bodyP name h body) := by
  cases fuel' <;> rfl

theorem prog_placing (fuel : Nat) (body : Prog α) (c f n : Nat) : (Ph.placing fuel body c f n).prog name =
    .op (.create (lockAddr name n) 1) fun r => match r with
      | .ok _ => (afterScan body c f n fuel).prog name
      | .error .fileExists => (Ph.inside c n false body).prog name
      | .error e => .op (.unlink (markerAddr name n)) fun r => match r with
        | .ok _ => .raise e
        | .error e' => .raise e' := by
  show Prog.op _ _ = _
  congr 1
  funext r
  cases r with
  | ok c => rw [prog_afterScan]; rfl
  | error e =>
    cases e
    case fileExists => rfl
    all_goals
      (show Prog.op _ _ = _
       congr 1
       funext r
       cases r <;> rfl)

theorem prog_scanning (body : Prog α) (c f n fuel' d : Nat) : (Ph.scanning body c f n fuel' (d + 1)).prog name =
    .op (.attach (lockAddr name (f + d))) fun r => match r with
      | .ok _ => (afterScan body c f n fuel').prog name
      | .error .fileNotFound =>
        (if d = 0 then Ph.inside c n true body else Ph.scanning body c f n fuel' d).prog name
      | .error .valueError => (afterScan body c f n fuel').prog name
      | .error e => .raise e := by
  show Prog.op _ _ = _
  congr 1
  funext r
  cases r with
  | ok i => rw [prog_afterScan]; rfl
  | error e =>
    cases e
    case fileNotFound => cases d <;> rfl
    case valueError => rw [prog_afterScan]; rfl
    all_goals rfl

theorem prog_unlocking (n : Nat) (r : Except PyErr α) : (Ph.unlocking n r).prog name =
    .op (.unlink (lockAddr name n)) fun x => match x with
      | .ok _ => (Ph.unmarking n r).prog name
      | .error e => .raise e := by
  show Prog.op _ _ = _
  congr 1
  funext r
  cases r <;> rfl

theorem prog_unmarking (n : Nat) (r : Except PyErr α) : (Ph.unmarking n r).prog name =
    .op (.unlink (markerAddr name n)) fun x => match x with
      | .ok _ => (Ph.ended r).prog name
      | .error e => .raise e := by
  show Prog.op _ _ = _
  congr 1
  funext r
  cases r <;> rfl

theorem prog_inside_op (c n : Nat) (own : Bool) (o : Op) (k : Except PyErr o.Res → Prog α) :
    (Ph.inside c n own (.op o k)).prog name = .op o fun r => (Ph.inside c n own (k r)).prog name := rfl

theorem prog_inside_stuck (c n : Nat) (own : Bool) : (Ph.inside c n own (.stuck : Prog α)).prog name = .stuck := rfl

/-- what follows the end of the body -/
theorem leave_shape (c n : Nat) (own : Bool) (r : Except PyErr α) (hn : n < 256 ^ 5) : leaveP name ⟨c, n, own⟩ r =
    .op (.write c (toLE 5 n)) fun x => match x with
      | .ok _ => (if own then Ph.unlocking n r else Ph.unmarking n r).prog name
      | .error e => .raise e := by
  unfold leaveP lockRelease intBytes
  rw [if_pos hn]
  show Prog.op _ _ = _
  congr 1
  funext x
  cases x <;> cases own <;> rfl

theorem leave_overflow (c n : Nat) (own : Bool) (r : Except PyErr α) (hn : ¬ n < 256 ^ 5) :
    leaveP name ⟨c, n, own⟩ r = .raise .overflowError := by
  unfold leaveP lockRelease intBytes
  rw [if_neg hn]; rfl

theorem prog_inside_ret (c n : Nat) (own : Bool) (a : α) :
    (Ph.inside c n own (.ret a)).prog name = leaveP name ⟨c, n, own⟩ (.ok a) := rfl
theorem prog_inside_raise (c n : Nat) (own : Bool) (e : PyErr) :
    (Ph.inside c n own (.raise e : Prog α)).prog name = leaveP name ⟨c, n, own⟩ (.error e) := rfl

/-- only an ended program is a value -/
theorem prog_ret {ph : Ph α} {a : α} (h : ph.prog name = .ret a) : ph = .ended (.ok a) := by
  cases ph with
  | fresh fuel body => rw [prog_fresh] at h; simp at h
  | opening fuel body => rw [prog_opening] at h; simp at h
  | reading fuel body c => rw [prog_reading] at h; simp at h
  | marking fuel body c f fuel' k => rw [prog_marking] at h; simp at h
  | placing fuel body c f n => rw [prog_placing] at h; simp at h
  | scanning body c f n fuel' d =>
    cases d with
    | zero => exfalso; exact absurd h (by
        show bodyP name ⟨c, n, true⟩ body ≠ _
        cases body with
        | ret a =>
          show leaveP name ⟨c, n, true⟩ (.ok a) ≠ _
          by_cases hn : n < 256 ^ 5
          · rw [leave_shape name c n true _ hn]; simp
          · rw [leave_overflow name c n true _ hn]; simp
        | raise e =>
          show leaveP name ⟨c, n, true⟩ (.error e) ≠ _
          by_cases hn : n < 256 ^ 5
          · rw [leave_shape name c n true _ hn]; simp
          · rw [leave_overflow name c n true _ hn]; simp
        | stuck => exact fun h => by cases h
        | op o k => exact fun h => by cases h)
    | succ d => rw [prog_scanning] at h; simp at h
  | inside c n own p =>
    cases p with
    | ret a =>
      rw [prog_inside_ret] at h
      by_cases hn : n < 256 ^ 5
      · rw [leave_shape name c n own _ hn] at h; simp at h
      · rw [leave_overflow name c n own _ hn] at h; simp at h
    | raise e =>
      rw [prog_inside_raise] at h
      by_cases hn : n < 256 ^ 5
      · rw [leave_shape name c n own _ hn] at h; simp at h
      · rw [leave_overflow name c n own _ hn] at h; simp at h
    | stuck => cases h
    | op o k => cases h
  | unlocking n r => rw [prog_unlocking] at h; simp at h
  | unmarking n r => rw [prog_unmarking] at h; simp at h
  | ended r =>
    cases r with
    | ok b => injection h with h; rw [h]
    | error e => cases h
  | dead pc => cases h
  | away => cases h

theorem leave_raise {c n : Nat} {own : Bool} {r : Except PyErr α} {e : PyErr} (h : leaveP name ⟨c, n, own⟩ r = .raise e) :
    e = .overflowError := by
  by_cases hn : n < 256 ^ 5
  · rw [leave_shape name c n own _ hn] at h; simp at h
  · rw [leave_overflow name c n own _ hn] at h; injection h with h; exact h.symm

/-- only an ended program raises, but for the overflow of the slot number -/
theorem prog_raise {ph : Ph α} {e : PyErr} (h : ph.prog name = .raise e) :
    ph = .ended (.error e) ∨ e = .overflowError ∨ ph = .away := by
  have hb : ∀ c n own (p : Prog α), bodyP name ⟨c, n, own⟩ p = .raise e → e = .overflowError := by
    intro c n own p h
    cases p with
    | ret a => exact leave_raise name (r := .ok a) h
    | raise e' => exact leave_raise name (r := .error e') h
    | stuck => cases h
    | op o k => cases h
  cases ph with
  | fresh fuel body => rw [prog_fresh] at h; simp at h
  | opening fuel body => rw [prog_opening] at h; simp at h
  | reading fuel body c => rw [prog_reading] at h; simp at h
  | marking fuel body c f fuel' k => rw [prog_marking] at h; simp at h
  | placing fuel body c f n => rw [prog_placing] at h; simp at h
  | scanning body c f n fuel' d =>
    cases d with
    | zero => exact Or.inr (Or.inl (hb c n true body h))
    | succ d => rw [prog_scanning] at h; simp at h
  | inside c n own p => exact Or.inr (Or.inl (hb c n own p h))
  | unlocking n r => rw [prog_unlocking] at h; simp at h
  | unmarking n r => rw [prog_unmarking] at h; simp at h
  | ended r =>
    cases r with
    | ok b => cases h
    | error e' => injection h with h; rw [h]; exact Or.inl rfl
  | dead pc => cases h
  | away => exact Or.inr (Or.inr rfl)

end shapes
end Verif.Lemmas
