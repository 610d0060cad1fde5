import Verif.Lemmas.Shm
/-! # Well-formedness of the store is kept by every program -/
namespace Verif.Lemmas
open Verif Verif.Model

theorem step_wf (E : Env) (o : Op) (s : Store) (w : s.WF) : (o.step E s).2.WF := by
  cases o with
  | create n size =>
    simp only [Op.step]
    split
    · exact w
    · split
      · exact w
      · cases hn : s.names n with
        | some i => exact w
        | none => exact wf_created w n size
  | attach n =>
    simp only [Op.step]
    split
    · exact w
    · cases hn : s.names n <;> exact w
  | unlink n =>
    simp only [Op.step]
    cases hn : s.names n with
    | none => exact w
    | some i => exact wf_unlinked w n
  | read i => exact w
  | write i b =>
    simp only [Op.step]
    split
    · exact wf_wrote w i b
    · exact w
  | writeFront i b => exact wf_wrote w i _

theorem run_wf {α : Type} (E : Env) (p : Prog α) (s : Store) (w : s.WF) : (p.run E s).2.WF := by
  induction p generalizing s with
  | ret a => exact w
  | raise e => exact w
  | stuck => exact w
  | op o k ih => exact ih _ _ (step_wf E o s w)

theorem crash_wf {α : Type} (E : Env) (n : Nat) (p : Prog α) (s : Store) (w : s.WF) : (p.crash E n s).WF := by
  induction n generalizing p s with
  | zero => cases p <;> exact w
  | succ n ih =>
    cases p with
    | op o k => exact ih _ _ (step_wf E o s w)
    | _ => exact w

end Verif.Lemmas
