import Mathlib.Data.List.Forall2
import Verif.Model.Nested
import Verif.Spec.Nested
/-! Helper lemmas for `to_records`. -/
namespace Verif.Lemmas
open Verif Verif.Model Verif.Spec
variable {A : Type} [DecidableEq A]

theorem keys_prefix_set {α β : Type} [DecidableEq α] (d : Dict α β) (k : α) (v : β) :
    Dict.keys d <+: Dict.keys (Dict.set d k v) := by
  rw [Dict.keys_set]; split <;> simp

theorem keys_prefix_update {α β : Type} [DecidableEq α] (d e : Dict α β) :
    Dict.keys d <+: Dict.keys (Dict.update d e) := by
  induction e generalizing d with
  | nil => simp [Dict.update_nil]
  | cons x e ih =>
    obtain ⟨k, v⟩ := x
    rw [Dict.update_cons]
    exact (keys_prefix_set d k v).trans (ih _)

/-- the record made for a leaf with followed keys `ks` (from level `lvl`) and items `sub`, given enclosing levels -/
structure RecFor (names : NameStream A) (lvl : Nat) (acc : Dict A (Val A)) (ks : List A) (sub r : Dict A (Val A)) :
    Prop where
  lookup : ∀ f, Dict.get? r f = match levelKey names lvl ks f with
    | some k => some (.atom k)
    | none => match Dict.get? acc f with
      | some w => some w
      | none => Dict.get? sub f
  pre : Dict.keys sub <+: Dict.keys r
  wf : Dict.WF r

def RecsOK (names : NameStream A) (lvl : Nat) (acc : Dict A (Val A)) (l : List (A × Val A))
    (rs : List (Dict A (Val A))) : Prop :=
  ∃ ps : List (List Nat), ps.Pairwise DocBefore ∧ (∀ pos, pos ∈ ps ↔ (leafAt pos l).isSome) ∧
    List.Forall₂ (fun pos r => ∃ ks sub, leafAt pos l = some (ks, sub) ∧ RecFor names lvl acc ks sub r) ps rs

theorem leafAt_succ (i is) (x : A × Val A) (l) : leafAt ((i + 1) :: is) (x :: l) = leafAt (i :: is) l := by
  simp [leafAt]

def shiftHd : List Nat → List Nat
  | [] => []
  | i :: is => (i + 1) :: is

theorem leafAt_nil (l : List (A × Val A)) : leafAt [] l = none := by simp [leafAt]

theorem leafAt_shiftHd (pos) (x : A × Val A) (l) : leafAt (shiftHd pos) (x :: l) = leafAt pos l := by
  cases pos with
  | nil => simp [shiftHd, leafAt]
  | cons i is => exact leafAt_succ ..

theorem docBefore_shiftHd (p q) : DocBefore (shiftHd p) (shiftHd q) ↔ DocBefore p q := by
  cases p <;> cases q <;> simp [shiftHd, DocBefore]

theorem forall₂_app {α β : Type} {R : α → β → Prop} {a c : List α} {b d : List β} (h : List.Forall₂ R a b)
    (h' : List.Forall₂ R c d) : List.Forall₂ R (a ++ c) (b ++ d) := by
  induction h with
  | nil => exact h'
  | cons h _ ih => exact .cons h ih

/-- adding the records `hs` of the first item at positions `0 :: q` to those of the rest -/
theorem recsOK_cons (names : NameStream A) (lvl : Nat) (acc : Dict A (Val A)) (x : A × Val A) (l)
    (hs rs : List (Dict A (Val A))) (qs : List (List Nat)) (hq1 : qs.Pairwise DocBefore)
    (hq2 : ∀ q, q ∈ qs ↔ (leafAt (0 :: q) (x :: l)).isSome)
    (hq3 : List.Forall₂ (fun q r => ∃ ks sub, leafAt (0 :: q) (x :: l) = some (ks, sub) ∧
      RecFor names lvl acc ks sub r) qs hs)
    (h : RecsOK names lvl acc l rs) : RecsOK names lvl acc (x :: l) (hs ++ rs) := by
  obtain ⟨ps, h1, h2, h3⟩ := h
  refine ⟨qs.map (0 :: ·) ++ ps.map shiftHd, ?_, ?_, ?_⟩
  · rw [List.pairwise_append, List.pairwise_map, List.pairwise_map]
    refine ⟨hq1.imp (by intro a b h; simp [DocBefore, h]), h1.imp fun h => (docBefore_shiftHd _ _).2 h, ?_⟩
    intro a ha b hb
    obtain ⟨q, _, rfl⟩ := List.mem_map.1 ha
    obtain ⟨p, hp, rfl⟩ := List.mem_map.1 hb
    have := (h2 p).1 hp
    cases p with
    | nil => simp [leafAt] at this
    | cons i is => simp [shiftHd, DocBefore]
  · intro pos
    rw [List.mem_append]
    constructor
    · rintro (h | h)
      · obtain ⟨q, hq, rfl⟩ := List.mem_map.1 h
        exact (hq2 q).1 hq
      · obtain ⟨p, hp, rfl⟩ := List.mem_map.1 h
        rw [leafAt_shiftHd]
        exact (h2 p).1 hp
    · intro h
      match pos, h with
      | [], h => simp [leafAt] at h
      | 0 :: q, h => exact Or.inl (List.mem_map.2 ⟨q, (hq2 q).2 h, rfl⟩)
      | (i + 1) :: is, h =>
        rw [leafAt_succ] at h
        exact Or.inr (List.mem_map.2 ⟨i :: is, (h2 _).2 h, rfl⟩)
  · have hA : List.Forall₂ (fun pos r => ∃ ks sub, leafAt pos (x :: l) = some (ks, sub) ∧
        RecFor names lvl acc ks sub r) (qs.map (0 :: ·)) hs := by
      clear hq1 hq2
      induction hq3 with
      | nil => exact .nil
      | cons h _ ih => exact .cons h ih
    have hB : List.Forall₂ (fun pos r => ∃ ks sub, leafAt pos (x :: l) = some (ks, sub) ∧
        RecFor names lvl acc ks sub r) (ps.map shiftHd) rs := by
      clear h1 h2
      induction h3 with
      | nil => exact .nil
      | cons h _ ih => exact .cons (by rw [leafAt_shiftHd]; exact h) ih
    exact forall₂_app hA hB

omit [DecidableEq A] in
theorem isSome_names {names : NameStream A} {n} (h : names n ≠ none) : ∃ a, names n = some a := by
  cases hn : names n with
  | none => exact absurd hn h
  | some a => exact ⟨a, rfl⟩

/-- the outcome of `to_records` on a mapping of mappings -/
theorem toRecords_main (names : NameStream A) (v : Val A) : v.WF → v.isMapping = true → allMaps v.items = true →
    ∀ lvl acc, Dict.WF acc →
      ((∀ i < levelsNeeded v, names (lvl + i) ≠ none) →
        ∃ rs, toRecords names lvl acc v = .ok rs ∧ RecsOK names lvl acc v.items rs) ∧
      ((∃ i < levelsNeeded v, names (lvl + i) = none) → toRecords names lvl acc v = .error .stopIteration) := by
  induction v using Val.induct with
  | hatom a => intro _ h; cases h
  | hmap t l ih =>
    intro hwf _ hall lvl acc hacc
    rw [Val.wf_map] at hwf
    simp only [Val.items_map] at hall ⊢
    have loop : ∀ nm, names lvl = some nm → ∀ l' : List (A × Val A), (∀ x ∈ l', x ∈ l) →
        ((∀ i < levelsNeededItems l', names (lvl + 1 + i) ≠ none) →
          ∃ rs, toRecordsLoop names lvl acc nm l' = .ok rs ∧ RecsOK names lvl acc l' rs) ∧
        ((∃ i < levelsNeededItems l', names (lvl + 1 + i) = none) →
          toRecordsLoop names lvl acc nm l' = .error .stopIteration) := by
      intro nm hnm l'
      induction l' with
      | nil =>
        intro _
        refine ⟨fun _ => ⟨[], rfl, [], .nil, ?_, .nil⟩, ?_⟩
        · intro pos; cases pos <;> simp [leafAt]
        · rintro ⟨i, hi, _⟩; simp [levelsNeededItems] at hi
      | cons x rest ihl =>
        intro hsub
        obtain ⟨k, w⟩ := x
        have ihr := ihl fun y hy => hsub y (List.mem_cons_of_mem _ hy)
        have hkw : (k, w) ∈ l := hsub _ (by simp)
        have hm : w.isMapping = true := by
          have := List.all_eq_true.1 hall _ hkw
          exact this
        obtain ⟨tw, sub, rfl⟩ : ∃ tw sub, w = .map tw sub := by
          cases w with
          | atom a => cases hm
          | map tw sub => exact ⟨tw, sub, rfl⟩
        have hwfs := hwf.2 _ _ hkw
        have hacc' : Dict.WF (Dict.set acc nm (.atom k)) := Dict.wf_set hacc _ _
        by_cases hs : allMaps sub = true
        · have hs' : (sub.all fun kv => kv.2.isMapping) = true := hs
          have ihw := ih k _ hkw hwfs rfl hs (lvl + 1) (Dict.set acc nm (.atom k)) hacc'
          have hneed : levelsNeededItems ((k, .map tw sub) :: rest) =
              max (levelsNeeded (.map tw sub)) (levelsNeededItems rest) := by
            simp [levelsNeededItems, hs]
          constructor
          · intro hn
            rw [hneed] at hn
            obtain ⟨hsr, e1, qs, g1, g2, g3⟩ := ihw.1 fun i hi => hn i (by omega)
            obtain ⟨rs, e2, hr⟩ := ihr.1 fun i hi => hn i (by omega)
            refine ⟨hsr ++ rs, ?_, ?_⟩
            · simp only [toRecordsLoop, hs', if_true, e1, e2, bind, Except.bind, pure, Except.pure]
            · have hz : ∀ q, leafAt (0 :: q) ((k, Val.map tw sub) :: rest) =
                  (leafAt q sub).map fun x => (k :: x.1, x.2) := by
                intro q; simp [leafAt, hs]
              refine recsOK_cons names lvl acc _ _ hsr rs qs g1 ?_ ?_ hr
              · intro q; rw [hz, Option.isSome_map]; exact g2 q
              · refine g3.imp ?_
                rintro q r ⟨ks, s, ha, hb⟩
                simp only [Val.items_map] at ha
                refine ⟨k :: ks, s, by rw [hz, ha]; rfl, ?_, hb.pre, hb.wf⟩
                intro f
                rw [hb.lookup f]
                simp only [levelKey]
                cases levelKey names (lvl + 1) ks f with
                | some y => rfl
                | none =>
                  simp only [Dict.get?_set, hnm, Option.some.injEq]
                  by_cases hf : f = nm
                  · simp [hf]
                  · have hf' : ¬ nm = f := fun h => hf h.symm
                    simp [hf, hf']
          · rintro ⟨i, hi, hnone⟩
            rw [hneed] at hi
            by_cases hlt : i < levelsNeeded (.map tw sub)
            · have e1 := ihw.2 ⟨i, hlt, hnone⟩
              simp only [toRecordsLoop, hs', if_true, e1, bind, Except.bind]
            · have e2 := ihr.2 ⟨i, by omega, hnone⟩
              by_cases hok : ∀ i < levelsNeeded (.map tw sub), names (lvl + 1 + i) ≠ none
              · obtain ⟨hsr, e1, _⟩ := ihw.1 hok
                simp only [toRecordsLoop, hs', if_true, e1, e2, bind, Except.bind]
              · push Not at hok
                have e1 := ihw.2 hok
                simp only [toRecordsLoop, hs', if_true, e1, bind, Except.bind]
        · have hs' : (sub.all fun kv => kv.2.isMapping) = false := by simpa [allMaps] using hs
          have hsf : allMaps sub = false := by simpa using hs
          have hneed : levelsNeededItems ((k, .map tw sub) :: rest) = levelsNeededItems rest := by
            simp [levelsNeededItems, hsf]
          rw [hneed]
          constructor
          · intro hn
            obtain ⟨rs, e2, hr⟩ := ihr.1 hn
            refine ⟨[Dict.update sub (Dict.set acc nm (.atom k))] ++ rs, ?_, ?_⟩
            · simp only [toRecordsLoop, hs', e2, bind, Except.bind, pure, Except.pure]
              rfl
            · refine recsOK_cons names lvl acc _ _ _ rs [[]] (by simp) ?_ ?_ hr
              · intro q
                cases q <;> simp [leafAt, hsf]
              · refine .cons ⟨[k], sub, by simp [leafAt, hsf], ?_, keys_prefix_update _ _, ?_⟩ .nil
                · intro f
                  rw [Dict.get?_update _ _ hacc', Dict.get?_set]
                  simp only [levelKey, hnm, Option.some.injEq]
                  by_cases hf : f = nm
                  · simp [hf]
                  · have hf' : ¬ nm = f := fun h => hf h.symm
                    simp only [hf, hf', if_false]
                    cases Dict.get? acc f <;> rfl
                · exact Dict.wf_update (Val.wf_map.1 hwfs).1 _
          · intro hn
            have e2 := ihr.2 hn
            simp only [toRecordsLoop, hs', e2, bind, Except.bind]
            rfl
    have hneed : levelsNeeded (.map t l) = 1 + levelsNeededItems l := rfl
    constructor
    · intro hn
      obtain ⟨nm, hnm⟩ := isSome_names (hn 0 (by rw [hneed]; omega))
      obtain ⟨rs, e, h⟩ := (loop nm hnm l fun _ h => h).1 fun i hi => by
        have := hn (1 + i) (by rw [hneed]; omega)
        rwa [← Nat.add_assoc] at this
      have hnm' : names lvl = some nm := hnm
      exact ⟨rs, by simp only [toRecords, hnm', e], h⟩
    · rintro ⟨i, hi, hnone⟩
      cases hnm : names lvl with
      | none => simp only [toRecords, hnm]
      | some nm =>
        have hi0 : i ≠ 0 := by rintro rfl; simp [hnm] at hnone
        obtain ⟨j, rfl⟩ : ∃ j, i = 1 + j := ⟨i - 1, by omega⟩
        have := (loop nm hnm l fun _ h => h).2 ⟨j, by rw [hneed] at hi; omega, by rwa [Nat.add_assoc]⟩
        simp only [toRecords, hnm, this]

end Verif.Lemmas
