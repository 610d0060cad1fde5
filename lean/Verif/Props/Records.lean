import Verif.Lemmas.Records
/-!
# C01: `to_records`
-/
namespace Verif.Props
open Verif Verif.Model Verif.Spec Verif.Lemmas
variable {A : Type} [DecidableEq A]

/-- What a record for the leaf mapping with items `sub`, reached by following keys `ks`, must be: the field named like
a level holds the key followed at (the last) level of that name; any other field is the leaf's own; the leaf's fields
come first and in the leaf's order. -/
structure IsRecord (names : Nat → Option A) (ks : List A) (sub r : Dict A (Val A)) : Prop where
  level : ∀ f k, levelKey names 0 ks f = some k → Dict.get? r f = some (.atom k)
  field : ∀ f, levelKey names 0 ks f = none → Dict.get? r f = Dict.get? sub f
  order : Dict.keys sub <+: Dict.keys r
  wf : Dict.WF r

/-- **C01** (success). If every top-level value is a mapping and there are enough level names, `to_records` returns
exactly one record per leaf position, in document order. -/
theorem C01_to_records (names : Nat → Option A) (t : Tag) (l : List (A × Val A)) (hwf : (Val.map t l).WF)
    (hall : allMaps l = true) (hn : ∀ i < levelsNeeded (.map t l), names i ≠ none) :
    ∃ (ps : List (List Nat)) (rs : List (Dict A (Val A))),
      toRecordsTop names (.map t l) = .ok rs ∧ ps.Pairwise DocBefore ∧
      (∀ pos, pos ∈ ps ↔ (leafAt pos l).isSome) ∧
      List.Forall₂ (fun pos r => ∃ ks sub, leafAt pos l = some (ks, sub) ∧ IsRecord names ks sub r) ps rs := by
  obtain ⟨rs, h1, ps, h2, h3, h4⟩ := (toRecords_main names (.map t l) hwf rfl hall 0 [] Dict.wf_nil).1
    (by simpa using hn)
  refine ⟨ps, rs, h1, h2, h3, h4.imp ?_⟩
  rintro pos r ⟨ks, sub, ha, hb⟩
  refine ⟨ks, sub, ha, ?_, ?_, hb.pre, hb.wf⟩
  · intro f k hf
    have := hb.lookup f
    rw [hf] at this
    exact this
  · intro f hf
    have := hb.lookup f
    rw [hf] at this
    exact this

/-- **C01** (not enough level names): `StopIteration`. -/
theorem C01_too_few_names (names : Nat → Option A) (t : Tag) (l : List (A × Val A)) (hwf : (Val.map t l).WF)
    (hall : allMaps l = true) (hn : ∃ i < levelsNeeded (.map t l), names i = none) :
    toRecordsTop names (.map t l) = .error .stopIteration :=
  (toRecords_main names (.map t l) hwf rfl hall 0 [] Dict.wf_nil).2 (by simpa using hn)

/-- **C01** (a non-mapping where a mapping is needed): if some top-level value is not a mapping and the level names
suffice, `AttributeError`; below the top level this cannot happen. The same holds if the argument itself is not a
mapping. -/
theorem C01_not_a_mapping (names : Nat → Option A) :
    (∀ (t : Tag) (l : List (A × Val A)), (Val.map t l).WF → allMaps l = false →
      (∀ i < levelsNeeded (.map t l), names i ≠ none) →
      toRecordsTop names (.map t l) = .error .attributeError) ∧
    (∀ a : A, names 0 ≠ none → toRecordsTop names (.atom a) = .error .attributeError) := by
  constructor
  · intro t l hwf hall hn
    obtain ⟨nm, hnm⟩ := isSome_names (hn 0 (by simp only [levelsNeeded]; omega))
    have hl : ∀ i < levelsNeededItems l, names (1 + i) ≠ none := fun i hi =>
      hn (1 + i) (by simp only [levelsNeeded]; omega)
    have loop : ∀ l' : List (A × Val A), (∀ k v, (k, v) ∈ l' → v.WF) → allMaps l' = false →
        (∀ i < levelsNeededItems l', names (1 + i) ≠ none) →
        toRecordsLoop names 0 [] nm l' = .error .attributeError := by
      intro l'
      induction l' with
      | nil => intro _ h; simp [allMaps] at h
      | cons x rest ih =>
        obtain ⟨k, v⟩ := x
        intro hwf' ha hn'
        simp only [levelsNeededItems] at hn'
        cases v with
        | atom a => rfl
        | map tv sub =>
          have har : allMaps rest = false := by simpa [allMaps] using ha
          have e2 := ih (fun k' v' h => hwf' k' v' (List.mem_cons_of_mem _ h)) har fun i hi => hn' i (by omega)
          by_cases hs : allMaps sub = true
          · have hs' : (sub.all fun kv => kv.2.isMapping) = true := hs
            have hw := hwf' k (.map tv sub) (by simp)
            obtain ⟨rs, e1, _⟩ := (toRecords_main names (.map tv sub) hw rfl hs (0 + 1) (Dict.set [] nm (.atom k))
              (Dict.wf_set Dict.wf_nil _ _)).1 fun i hi => by
                have := hn' i (by simp [hs]; omega)
                simpa using this
            simp only [toRecordsLoop, hs', if_true, e1, e2, bind, Except.bind]
          · have hs' : (sub.all fun kv => kv.2.isMapping) = false := by simpa [allMaps] using hs
            simp only [toRecordsLoop, hs', e2, bind, Except.bind]
            rfl
    have := loop l (Val.wf_map.1 hwf).2 hall hl
    simp only [toRecordsTop, toRecords, hnm, this]
  · intro a h
    obtain ⟨nm, hnm⟩ := isSome_names h
    simp only [toRecordsTop, toRecords, hnm]

/-- every leaf is reached, and none twice: distinct leaf positions are ordered one way -/
theorem C01_positions_distinct (ps : List (List Nat)) (h : ps.Pairwise DocBefore) : ps.Nodup := by
  have irr : ∀ p, ¬ DocBefore p p := by
    intro p
    induction p with
    | nil => simp [DocBefore]
    | cons i is ih => simp [DocBefore, ih]
  refine h.imp ?_
  intro a b hab e
  subst e
  exact irr _ hab

/-- witness: {1: {10: {20: 5}, 11: {20: 6}}, 2: {12: {}}} with level names 100, 101, 102, …: two leaves; the empty
mapping is not a leaf -/
example : toRecordsTop (A := Nat) (fun i => some (100 + i))
    (.map .dict [(1, .map .dict [(10, .map .dict [(20, .atom 5)]), (11, .map .dict [(101, .atom 6)])]),
      (2, .map .dict [(12, .map .dict [])])]) =
    .ok [[(20, .atom 5), (100, .atom 1), (101, .atom 10)], [(101, .atom 11), (100, .atom 1)]] := rfl

example : allMaps (A := Nat) [(1, .map .dict [(10, .map .dict [(20, .atom 5)]), (11, .map .dict [(101, .atom 6)])]),
      (2, .map .dict [(12, .map .dict [])])] = true := rfl

end Verif.Props
