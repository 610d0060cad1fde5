import Verif.Lemmas.CompSwap
import Verif.Props.Composition
/-!
# C33, further: `reindex` with sends and inserts
-/
namespace Verif.Props
open Verif Verif.Model Verif.Lemmas Verif.Spec

variable {V X : Type}

/-- the inserts and sends kept for each step under its name and under the number of its place are the same -/
def SameAtPlaces (c : Comp V X) : Prop :=
  ∀ (i : Nat) n s, c.steps[i]? = some (n, s) →
    (c.inserts.get? n).getD [] = (c.inserts.get? (.int i)).getD [] ∧
      (c.sends.get? n).getD [] = (c.sends.get? (.int i)).getD []

/-- a send of a step that goes to another step goes to the same place before and after `reindex` -/
def SendsToPlaces (c : Comp V X) : Prop :=
  ∀ (i : Nat) n s, c.steps[i]? = some (n, s) → ∀ sd ∈ (c.sends.get? n).getD [], ∀ b, sd.target.bind Target.step? = some b →
    ∀ (j : Nat) m s', c.steps[j]? = some (m, s') → (b = m ↔ b = .int j)

/-- what is needed of a list of steps, each with its two names, for the run under either to be the same -/
structure Renames (P : List (Name × Name × Step V X)) (c : Comp V X) : Prop where
  inserts : ∀ p ∈ P, (c.inserts.get? p.1).getD [] = (c.inserts.get? p.2.1).getD []
  sends : ∀ p ∈ P, (c.sends.get? p.1).getD [] = (c.sends.get? p.2.1).getD []
  targets : ∀ p ∈ P, ∀ sd ∈ (c.sends.get? p.1).getD [], ∀ b, sd.target.bind Target.step? = some b →
    ∀ q ∈ P, (b = q.1 ↔ b = q.2.1)

theorem Renames.tail {p : Name × Name × Step V X} {P : List (Name × Name × Step V X)} {c : Comp V X}
    (h : Renames (p :: P) c) : Renames P c :=
  ⟨fun q hq => h.inserts q (.tail _ hq), fun q hq => h.sends q (.tail _ hq),
    fun q hq sd hsd b hb r hr => h.targets q (.tail _ hq) sd hsd b hb r (.tail _ hr)⟩

/-- an insert for a step that has the same place under both names -/
theorem Renames.addInsert {P : List (Name × Name × Step V X)} {c : Comp V X} (h : Renames P c) {b : Name}
    (hb : ∀ q ∈ P, (b = q.1 ↔ b = q.2.1)) (k : Name) (v : V) : Renames P (Model.addInsert c b k v) := by
  refine ⟨fun p hp => ?_, h.sends, h.targets⟩
  have hp' := hb p hp
  simp only [Model.addInsert, Dict.get?_set]
  by_cases e : b = p.1
  · rw [if_pos e, if_pos (hp'.1 e)]
  · rw [if_neg e, if_neg (fun e' => e (hp'.2 e'))]
    exact h.inserts p hp

theorem Renames.placeInto {P : List (Name × Name × Step V X)} {c : Comp V X} (h : Renames P c) {t : Target V X}
    (ht : ∀ b, t.step? = some b → ∀ q ∈ P, (b = q.1 ↔ b = q.2.1)) (v : V) (k : Name) (w : World V X) :
    Renames P (Model.placeInto c v t k w).2.1 := by
  cases t with
  | stepInt n => exact h.addInsert (ht _ rfl) k v
  | stepStr n => exact h.addInsert (ht _ rfl) k v
  | list id =>
    cases k with
    | none => exact h
    | _ =>
      simp only [Model.placeInto]
      split <;> exact h
  | dict id => exact h
  | writer f => exact h
  | inert => exact h

/-- the run under the second names is the run under the first -/
theorem iterSteps_renames (P : List (Name × Name × Step V X)) {c : Comp V X} (h : Renames P c) (v : V) (w : World V X) :
    iterSteps c v (P.map fun p => (p.2.1, p.2.2)) w = iterSteps c v (P.map fun p => (p.1, p.2.2)) w := by
  induction P generalizing c v w with
  | nil => rfl
  | cons p t ih =>
    obtain ⟨n, m, s⟩ := p
    have hd : doStep c m s v w = doStep c n s v w := by
      have hc : callStep c m s v w = callStep c n s v w := by
        unfold callStep
        rw [h.inserts _ (.head _)]
      rw [doStep, doStep, hc]
      rcases callStep c n s v w with ⟨r, w1⟩
      cases r with
      | error e => rfl
      | ok x =>
        simp only [performSends]
        rw [h.sends _ (.head _)]
    have hk : Renames t (doStep c n s v w).2.1 :=
      doStep_ind h.tail n s v w fun sd hsd tg htg c' hc' y w' =>
        hc'.placeInto (fun b hb q hq =>
          h.targets _ (.head _) sd hsd b (by rw [htg]; exact hb) q (.tail _ hq)) y sd.pointer w'
    simp only [List.map_cons]
    rw [iterSteps, iterSteps, hd]
    rcases hr : doStep c n s v w with ⟨r, c1, w1⟩
    rw [hr] at hk
    cases r with
    | error e => rfl
    | ok x => simp only [ih hk x w1]

/-- C33, a larger part: with any sends and inserts, if what is kept for each step is the same under its name and under the
number of its place (nothing under both, say), and the steps that sends go to have the same place under both, `reindex`
changes neither what `execute` gives and does nor the inserts it leaves -/
theorem C33_attached_partial [PyNone V] (c : Comp V X) (hs : SameAtPlaces c) (ht : SendsToPlaces c) (v : V) (w : World V X) :
    (execute (reindex c) v w).1 = (execute c v w).1 ∧ (execute (reindex c) v w).2.2 = (execute c v w).2.2 ∧
      (execute (reindex c) v w).2.1.inserts = (execute c v w).2.1.inserts := by
  let P : List (Name × Name × Step V X) := c.steps.mapIdx fun i p => (p.1, .int i, p.2)
  have hmem : ∀ p ∈ P, ∃ i : Nat, c.steps[i]? = some (p.1, p.2.2) ∧ p.2.1 = .int i := by
    intro p hp
    obtain ⟨i, hi, rfl⟩ := List.mem_mapIdx.1 hp
    exact ⟨i, List.getElem?_eq_getElem hi, rfl⟩
  have hP : Renames P c := by
    refine ⟨fun p hp => ?_, fun p hp => ?_, fun p hp sd hsd b hb q hq => ?_⟩
    · obtain ⟨i, hi, e⟩ := hmem p hp
      rw [e]
      exact (hs i _ _ hi).1
    · obtain ⟨i, hi, e⟩ := hmem p hp
      rw [e]
      exact (hs i _ _ hi).2
    · obtain ⟨i, hi, _⟩ := hmem p hp
      obtain ⟨j, hj, e⟩ := hmem q hq
      rw [e]
      exact ht i _ _ hi sd hsd b hb j _ _ hj
  have h1 : P.map (fun p => (p.1, p.2.2)) = c.steps := by
    simp only [P, map_mapIdx]
    exact mapIdx_self _
  have h2 : P.map (fun p => (p.2.1, p.2.2)) = (reindex c).steps := by
    rw [reindex_steps]
    apply List.ext_getElem?
    intro i
    simp only [P, List.getElem?_map, List.getElem?_mapIdx, Dict.values, Option.map_map]
    rfl
  have hrun := iterSteps_renames P hP v w
  rw [h1, h2] at hrun
  have hid : (reindex c).steps.map (fun p => p.2.ident) = c.steps.map fun p => p.2.ident := by
    rw [← h2, ← h1]
    simp only [List.map_map]
    rfl
  have he := execute_withSteps (c := c) (v := v) (w := w) hrun hid
  rw [show withSteps (reindex c).steps c = reindex c from rfl, show withSteps c.steps c = c from rfl] at he
  rw [he]
  exact ⟨rfl, rfl, rfl⟩

/-- a numbered step, a named one and one numbered by its place again; the first sends to the last -/
def sendsPast : Comp Int Unit :=
  { steps := [(.int 0, addTwo), (firstName, timesThree), (.int 2, digitStep)]
    sends := [(.int 0, [{ pipe := .none, target := some (.stepInt 2), pointer := .int 1 }])] }

theorem sendsPast_steps {i : Nat} {n : Name} {s : Step Int Unit} (h : sendsPast.steps[i]? = some (n, s)) :
    (i = 0 ∧ n = .int 0) ∨ (i = 1 ∧ n = firstName) ∨ (i = 2 ∧ n = .int 2) := by
  rcases i with _ | _ | _ | i
  · cases h; exact .inl ⟨rfl, rfl⟩
  · cases h; exact .inr (.inl ⟨rfl, rfl⟩)
  · cases h; exact .inr (.inr ⟨rfl, rfl⟩)
  · simp [sendsPast] at h

example : (execute (reindex sendsPast) 3 w0).1 = (execute sendsPast 3 w0).1 ∧
    (execute (reindex sendsPast) 3 w0).2.2 = (execute sendsPast 3 w0).2.2 ∧
    (execute (reindex sendsPast) 3 w0).2.1.inserts = (execute sendsPast 3 w0).2.1.inserts := by
  refine C33_attached_partial sendsPast ?_ ?_ 3 w0
  · intro i n s h
    rcases sendsPast_steps h with ⟨rfl, rfl⟩ | ⟨rfl, rfl⟩ | ⟨rfl, rfl⟩ <;> exact ⟨rfl, rfl⟩
  · intro i n s h sd hsd b hb j m s' h'
    have e : b = .int 2 := by
      rcases sendsPast_steps h with ⟨rfl, rfl⟩ | ⟨rfl, rfl⟩ | ⟨rfl, rfl⟩
      · cases hsd with
        | head => cases hb; rfl
        | tail _ h => cases h
      · cases hsd
      · cases hsd
    subst e
    rcases sendsPast_steps h' with ⟨rfl, rfl⟩ | ⟨rfl, rfl⟩ | ⟨rfl, rfl⟩ <;> simp [firstName]

/-- the send arrives: the last step gets the output of the first and of the second -/
example : (execute sendsPast 3 w0).1 = .ok 155 := rfl

end Verif.Props
