import Verif.Spec.CompHook
import Verif.Lemmas.CompNest
import Verif.Props.Composition
/-! # C177: keyword arguments of `execute` -/
namespace Verif.Props
open Verif Verif.Model Verif.Spec Verif.Lemmas

variable {V X : Type}

/-- C177: a Composition takes any keyword arguments and does with them what it does without -/
theorem C177_ignored [PyNone V] (kw : Dict Str V) (c : Comp V X) (v : V) (w : World V X) :
    executeWith noHook kw c v w = execute c v w := by
  have hs := iterSteps_same c v c.steps w
  simp only [executeWith, itercallWith, noHook, execute, itercall]
  rcases hit : iterSteps c v c.steps w with ⟨outs, e, c', w'⟩
  rw [hit] at hs
  simp only at hs
  cases e with
  | none => rfl
  | some e => simp only [hs.tracker, hs.steps, hs.optional]; rfl

/-- C177: in a subclass, what is bound is in place for the run, from its first step on -/
theorem C177_bound [PyNone V] (hook : Hook V X) (kw : Dict Str V) (c c1 : Comp V X) (v : V) (w w1 : World V X)
    (h : hook kw c w = (.ok (), c1, w1)) : executeWith hook kw c v w = execute c1 v w1 := by
  rw [← C177_ignored kw c1 v w1]
  simp only [executeWith, itercallWith, h, noHook]

/-- C177: if the binding raises, no step is called, and the first step is noted as the one that failed -/
theorem C177_blamed [PyNone V] (hook : Hook V X) (kw : Dict Str V) (c c1 : Comp V X) (v : V) (w w1 : World V X) (e : PyErr)
    (h : hook kw c w = (.error e, c1, w1)) (he : (fromGenerator e).isException = true) (n : Name) (s : Step V X)
    (rest : Dict Name (Step V X)) (hst : c1.steps = (n, s) :: rest) (ht : c1.tracker = some logTracker) :
    executeWith hook kw c v w =
      (if c1.optional then .ok PyNone.none else .error (fromGenerator e), c1,
        { w1 with log := w1.log ++ [{ target := s.ident, failure := some (fromGenerator e) }] }) := by
  simp only [executeWith, itercallWith, h]
  rw [if_pos he, ht, hst]
  rfl

/-! ### Binding twice -/

theorem set_set_same {κ α : Type} [DecidableEq κ] (d : Dict κ α) (k : κ) (a b : α) : (d.set k a).set k b = d.set k b := by
  induction d with
  | nil => simp [Dict.set]
  | cons p t ih =>
    obtain ⟨k', v'⟩ := p
    by_cases h : k' = k
    · simp [Dict.set, h]
    · simp [Dict.set, h, ih]

theorem set_comm_mem {κ α : Type} [DecidableEq κ] {d : Dict κ α} {k k' : κ} (hk : k ∈ Dict.keys d) (hne : k ≠ k') (a b : α) :
    (d.set k' b).set k a = (d.set k a).set k' b := by
  induction d with
  | nil => cases hk
  | cons p t ih =>
    obtain ⟨q, v⟩ := p
    by_cases h : q = k
    · have h' : ¬ q = k' := fun e => hne (h.symm.trans e)
      simp [Dict.set, h, hne]
    · by_cases h' : q = k'
      · simp [Dict.set, h', Ne.symm hne]
      · have hm : k ∈ Dict.keys t := by
          rcases List.mem_cons.1 hk with e | hm
          · exact absurd e.symm h
          · exact hm
        simp [Dict.set, h, h', ih hm]

/-- there is an insert for the step under the key -/
def HasSlot (c : Comp V X) (n k : Name) : Prop := ∃ d, c.inserts.get? n = some d ∧ k ∈ Dict.keys d

theorem HasSlot.addInsert {c : Comp V X} {n k : Name} (h : HasSlot c n k) (n' k' : Name) (v : V) :
    HasSlot (addInsert c n' k' v) n k := by
  obtain ⟨d, h1, h2⟩ := h
  by_cases e : n' = n
  · subst e
    refine ⟨d.set k' v, by simp [Model.addInsert, Dict.get?_set, h1], ?_⟩
    rw [Dict.keys_set]
    split
    · exact h2
    · exact List.mem_append_left _ h2
  · exact ⟨d, by simp [Model.addInsert, Dict.get?_set, e, h1], h2⟩

theorem hasSlot_self (c : Comp V X) (n k : Name) (v : V) : HasSlot (addInsert c n k v) n k := by
  refine ⟨((c.inserts.get? n).getD []).set k v, by simp [addInsert, Dict.get?_set], ?_⟩
  rw [← Dict.get?_isSome, Dict.get?_set_self]
  rfl

theorem addInsert_twice (c : Comp V X) (n k : Name) (a b : V) :
    addInsert (addInsert c n k a) n k b = addInsert c n k b := by
  simp only [addInsert, Dict.get?_set_self, Option.getD_some, set_set_same]

theorem addInsert_comm {c : Comp V X} {n k : Name} (h : HasSlot c n k) {n' k' : Name} (hne : (n, k) ≠ (n', k')) (a b : V) :
    addInsert (addInsert c n' k' b) n k a = addInsert (addInsert c n k a) n' k' b := by
  obtain ⟨d, h1, h2⟩ := h
  by_cases e : n = n'
  · subst e
    have hk : k ≠ k' := fun e => hne (by rw [e])
    simp only [addInsert, Dict.get?_set_self, Option.getD_some, h1, set_set_same]
    rw [set_comm_mem h2 hk]
  · have hm : n ∈ Dict.keys c.inserts := Dict.get?_isSome.1 (by rw [h1]; rfl)
    simp only [addInsert, Dict.get?_set_ne _ _ e, Dict.get?_set_ne _ _ (Ne.symm e)]
    rw [set_comm_mem hm e]

theorem bindTable_cons (b : Binding) (t : List Binding) (kw : Dict Str V) (c : Comp V X) :
    bindTable (b :: t) kw c = bindTable t kw (match kw.get? b.kwarg with | some v => addInsert c b.step b.key v | none => c) := rfl

theorem bindTable_comm (t : List Binding) (kw : Dict Str V) {n k : Name} (hn : ∀ b ∈ t, (n, k) ≠ (b.step, b.key)) {c : Comp V X}
    (h : HasSlot c n k) (v : V) : addInsert (bindTable t kw c) n k v = bindTable t kw (addInsert c n k v) := by
  induction t generalizing c with
  | nil => rfl
  | cons b t ih =>
    rw [bindTable_cons, bindTable_cons]
    cases kw.get? b.kwarg with
    | none => exact ih (fun b' hb => hn b' (.tail _ hb)) h
    | some u =>
      simp only
      rw [ih (fun b' hb => hn b' (.tail _ hb)) (h.addInsert ..), addInsert_comm h (hn b (.head _))]

/-- arguments bound again are as if bound once -/
theorem bindTable_again (t : List Binding) (ho : OwnSlots t) (kw kw' : Dict Str V)
    (hs : ∀ b ∈ t, (kw.get? b.kwarg).isSome = (kw'.get? b.kwarg).isSome) (c : Comp V X) :
    bindTable t kw' (bindTable t kw c) = bindTable t kw' c := by
  induction t generalizing c with
  | nil => rfl
  | cons b t ih =>
    obtain ⟨h1, h2⟩ := List.nodup_cons.1 ho
    have hb := hs b (.head _)
    have ih' := ih h2 fun b' hb' => hs b' (.tail _ hb')
    rw [bindTable_cons, bindTable_cons, bindTable_cons]
    cases hk : kw.get? b.kwarg with
    | none =>
      rw [hk] at hb
      have : kw'.get? b.kwarg = none := by
        cases hk' : kw'.get? b.kwarg with
        | none => rfl
        | some u => rw [hk'] at hb; cases hb
      simp only [this]
      exact ih' c
    | some u =>
      rw [hk] at hb
      cases hk' : kw'.get? b.kwarg with
      | none => rw [hk'] at hb; cases hb
      | some u' =>
        simp only
        rw [bindTable_comm t kw (fun b' hb' e => h1 (List.mem_map.2 ⟨b', hb', e.symm⟩)) (hasSlot_self ..), addInsert_twice]
        exact ih' _

theorem bindTable_sends (t : List Binding) (kw : Dict Str V) (c : Comp V X) : (bindTable t kw c).sends = c.sends := by
  induction t generalizing c with
  | nil => rfl
  | cons b t ih =>
    rw [bindTable_cons, ih]
    cases kw.get? b.kwarg <;> rfl

theorem execute_stays [PyNone V] {c : Comp V X} (h : NoStepSends c) (v : V) (w : World V X) : (execute c v w).2.1 = c := by
  rw [execute_comp]
  exact iterSteps_stays h v c.steps w

/-- C177, the part that holds: if the same keyword arguments (of those that are bound) are given to both runs, the second is
as if it were the first, in all that it gives and does -/
theorem C177_rebound_partial [PyNone V] (table : List Binding) (c : Comp V X) (ho : OwnSlots table) (hn : NoStepSends c)
    (kw kw' : Dict Str V) (hs : ∀ b ∈ table, (kw.get? b.kwarg).isSome = (kw'.get? b.kwarg).isSome) (v v' : V) (w w' : World V X) :
    executeWith (tableHook table) kw' (executeWith (tableHook table) kw c v w).2.1 v' w' =
      executeWith (tableHook table) kw' c v' w' := by
  have hn' : NoStepSends (bindTable table kw c) := by
    intro n sd hsd
    rw [sendsOf, bindTable_sends] at hsd
    exact hn n sd hsd
  rw [C177_bound (tableHook table) kw c (bindTable table kw c) v w w rfl, execute_stays hn',
    C177_bound (tableHook table) kw' (bindTable table kw c) _ v' w' w' rfl,
    C177_bound (tableHook table) kw' c (bindTable table kw' c) v' w' w' rfl, bindTable_again table ho kw kw' hs]

/-- C177: an argument stays bound: given to one run and not to those after, it is still in place in them -/
theorem C177_stays_bound [PyNone V] (table : List Binding) (c : Comp V X) (hn : NoStepSends c) (kw : Dict Str V)
    (v v' : V) (w w' : World V X) :
    executeWith (tableHook table) [] (executeWith (tableHook table) kw c v w).2.1 v' w' =
      executeWith (tableHook table) kw c v' w' := by
  have hn' : NoStepSends (bindTable table kw c) := by
    intro n sd hsd
    rw [sendsOf, bindTable_sends] at hsd
    exact hn n sd hsd
  have hnil : ∀ (t : List Binding) (c : Comp V X), bindTable t [] c = c := by
    intro t
    induction t with
    | nil => intro c; rfl
    | cons b t ih => intro c; exact ih c
  rw [C177_bound (tableHook table) kw c (bindTable table kw c) v w w rfl, execute_stays hn',
    C177_bound (tableHook table) [] (bindTable table kw c) _ v' w' w' rfl,
    C177_bound (tableHook table) kw c (bindTable table kw c) v' w' w' rfl, hnil]

/-- the argument `scale` goes to the only step, as its second argument -/
def scaleName : Str := "scale".toList
def scaleTable : List Binding := [⟨scaleName, .int 0, .int 1⟩]

/-- a step that multiplies its arguments -/
def timesStep : Step Int Unit where
  ident := 4
  call := fun args _ w => (.ok (args.foldl (· * ·) 1), w)

def scaled : Comp Int Unit := { steps := [(.int 0, timesStep)] }

theorem scaled_noStepSends : NoStepSends scaled := fun n sd h => by simp [sendsOf, scaled] at h

/-- C177, in full, is false: run with `scale=10`, then without, it scales by 10 both times -/
theorem C177_full_false : ¬ OnlyThatRun Int Unit := by
  intro h
  have h1 := h scaleTable scaled (by simp [OwnSlots, scaleTable]) scaled_noStepSends [(scaleName, 10)] [] 3 3 w0 w0
  rw [C177_stays_bound scaleTable scaled scaled_noStepSends] at h1
  have h2 : (executeWith (tableHook scaleTable) [(scaleName, 10)] scaled 3 w0).1 = .ok 30 := by decide +kernel
  have h3 : (executeWith (tableHook scaleTable) [] scaled 3 w0).1 = .ok 3 := by decide +kernel
  rw [h2, h3] at h1
  exact absurd h1 (by decide)

/-- with `scale=10`, then `scale=7` -/
example : executeWith (tableHook scaleTable) [(scaleName, 7)] (executeWith (tableHook scaleTable) [(scaleName, 10)] scaled 3 w0).2.1 4 w0 =
    executeWith (tableHook scaleTable) [(scaleName, 7)] scaled 4 w0 :=
  C177_rebound_partial scaleTable scaled (by simp [OwnSlots, scaleTable]) scaled_noStepSends _ _
    (fun b hb => by cases hb with
      | head => decide +kernel
      | tail _ h => cases h) 3 4 w0 w0

example : (executeWith (tableHook scaleTable) [(scaleName, 7)] scaled 4 w0).1 = .ok 28 := by decide +kernel

/-- a subclass that takes no keyword arguments it does not know -/
def strictHook : Hook Int Unit := fun kw c w => if kw.isEmpty then (.ok (), c, w) else (.error .typeError, c, w)

/-- the step is noted as failed, though it was not called -/
example : executeWith strictHook [(scaleName, 1)] { scaled with tracker := some logTracker, optional := true } 3 w0 =
    (.ok (-1), { scaled with tracker := some logTracker, optional := true },
      { w0 with log := [{ target := 4, failure := some .typeError }] }) :=
  C177_blamed strictHook [(scaleName, 1)] _ _ 3 w0 w0 .typeError rfl rfl (.int 0) timesStep [] rfl rfl

example : executeWith noHook [(scaleName, 10)] scaled 3 w0 = execute scaled 3 w0 := C177_ignored _ _ _ _

end Verif.Props
