import Verif.Lemmas.CompStore
/-! # Runs do not look at the steps of the Composition they are given, only at the list they go through -/
namespace Verif.Lemmas
open Verif Verif.Model Verif.Spec

variable {V X : Type}

/-- the same Composition with other steps -/
def withSteps (S : Dict Name (Step V X)) (c : Comp V X) : Comp V X := { c with steps := S }

theorem withSteps_withSteps (S T : Dict Name (Step V X)) (c : Comp V X) : withSteps S (withSteps T c) = withSteps S c := rfl

theorem placeInto_withSteps (S : Dict Name (Step V X)) (c : Comp V X) (v : V) (t : Target V X) (p : Name) (w : World V X) :
    placeInto (withSteps S c) v t p w =
      ((placeInto c v t p w).1, withSteps S (placeInto c v t p w).2.1, (placeInto c v t p w).2.2) := by
  cases t with
  | list id =>
    cases p with
    | none => rfl
    | _ =>
      simp only [placeInto]
      split <;> rfl
  | _ => rfl

theorem performSend_withSteps (S : Dict Name (Step V X)) (c : Comp V X) (v : V) (sd : Send V X) (w : World V X) :
    performSend (withSteps S c) v sd w =
      ((performSend c v sd w).1, withSteps S (performSend c v sd w).2.1, (performSend c v sd w).2.2) := by
  obtain ⟨p, t, ptr⟩ := sd
  cases t with
  | none =>
    cases p with
    | none => rfl
    | some p =>
      simp only [performSend]
      rcases p v w with ⟨r, w'⟩
      cases r <;> rfl
  | some t =>
    cases p with
    | none => exact placeInto_withSteps ..
    | some p =>
      simp only [performSend]
      rcases p v w with ⟨r, w'⟩
      cases r with
      | ok y => exact placeInto_withSteps ..
      | error e => rfl

theorem performSendList_withSteps (S : Dict Name (Step V X)) (c : Comp V X) (v : V) (l : List (Send V X)) (w : World V X) :
    performSendList (withSteps S c) v l w =
      ((performSendList c v l w).1, withSteps S (performSendList c v l w).2.1, (performSendList c v l w).2.2) := by
  induction l generalizing c w with
  | nil => rfl
  | cons sd t ih =>
    rw [performSendList, performSendList, performSend_withSteps]
    rcases performSend c v sd w with ⟨r, c1, w1⟩
    cases r with
    | ok u => exact ih c1 w1
    | error e => rfl

theorem callStep_withSteps (S : Dict Name (Step V X)) (c : Comp V X) (n : Name) (s : Step V X) (v : V) :
    callStep (withSteps S c) n s v = callStep c n s v := rfl

theorem doStep_withSteps (S : Dict Name (Step V X)) (c : Comp V X) (n : Name) (s : Step V X) (v : V) (w : World V X) :
    doStep (withSteps S c) n s v w =
      ((doStep c n s v w).1, withSteps S (doStep c n s v w).2.1, (doStep c n s v w).2.2) := by
  rw [doStep, doStep, callStep_withSteps]
  rcases callStep c n s v w with ⟨r, w1⟩
  cases r with
  | error e => rfl
  | ok x =>
    simp only [performSends]
    rw [show (withSteps S c).sends = c.sends from rfl, performSendList_withSteps]
    rcases performSendList c x ((c.sends.get? n).getD []) w1 with ⟨r, c2, w2⟩
    cases r <;> rfl

theorem iterSteps_withSteps (S : Dict Name (Step V X)) (c : Comp V X) (v : V) (l : Dict Name (Step V X)) (w : World V X) :
    iterSteps (withSteps S c) v l w = ((iterSteps c v l w).1, (iterSteps c v l w).2.1,
      withSteps S (iterSteps c v l w).2.2.1, (iterSteps c v l w).2.2.2) := by
  induction l generalizing c v w with
  | nil => rfl
  | cons p t ih =>
    obtain ⟨n, s⟩ := p
    rw [iterSteps, iterSteps, doStep_withSteps]
    rcases doStep c n s v w with ⟨r, c1, w1⟩
    cases r with
    | error e => rfl
    | ok x =>
      simp only [ih c1 x w1]

/-- if the lists of steps give the same runs, and their steps are the same objects, the executions agree -/
theorem execute_withSteps [PyNone V] {S T : Dict Name (Step V X)} {c : Comp V X} {v : V} {w : World V X}
    (hrun : iterSteps c v S w = iterSteps c v T w) (hid : S.map (fun p => p.2.ident) = T.map fun p => p.2.ident) :
    execute (withSteps S c) v w = ((execute (withSteps T c) v w).1, withSteps S (execute (withSteps T c) v w).2.1,
      (execute (withSteps T c) v w).2.2) := by
  unfold execute itercall
  rw [show (withSteps S c).steps = S from rfl, show (withSteps T c).steps = T from rfl, iterSteps_withSteps,
    iterSteps_withSteps, hrun]
  rcases iterSteps c v T w with ⟨outs, e, c', w'⟩
  cases e with
  | none => rfl
  | some e =>
    simp only
    rw [show (withSteps S c).tracker = c.tracker from rfl, show (withSteps T c).tracker = c.tracker from rfl,
      show (withSteps S c).optional = c.optional from rfl, show (withSteps T c).optional = c.optional from rfl]
    by_cases he : (fromGenerator e).isException = true
    · rw [if_pos he, if_pos he]
      have hix : (S[outs.length]?).map (fun p => p.2.ident) = (T[outs.length]?).map fun p => p.2.ident := by
        rw [← List.getElem?_map, ← List.getElem?_map, hid]
      cases c.tracker with
      | none => rfl
      | some t =>
        cases hS : S[outs.length]? with
        | none =>
          cases hT : T[outs.length]? with
          | none => rfl
          | some q => rw [hS, hT] at hix; cases hix
        | some p =>
          cases hT : T[outs.length]? with
          | none => rw [hS, hT] at hix; cases hix
          | some q =>
            rw [hS, hT] at hix
            simp only [Option.map_some, Option.some.injEq] at hix
            simp only [hix]
            rcases t { target := q.2.ident, failure := some (fromGenerator e) } w' with ⟨r, w''⟩
            cases r <;> rfl
    · rw [if_neg he, if_neg he]; rfl

end Verif.Lemmas
