import Verif.Model.Nested
import Verif.Spec.Nested
/-! Helper lemmas for the dig family. -/
namespace Verif.Lemmas
open Verif Verif.Model Verif.Spec
variable {A : Type}

/-- a predicate that never raises -/
abbrev tot (p : A → Val A → Bool) : DigPred A := fun k v => .ok (p k v)

theorem levelItems_tot (p : A → Val A → Bool) (l : List (A × Val A)) :
    levelItems (tot p) l = .ok (l.filter fun kv => p kv.1 kv.2) := by
  induction l with
  | nil => rfl
  | cons x r ih =>
    obtain ⟨k, v⟩ := x
    simp only [levelItems, tot] at *
    rw [ih]
    simp only [bind, Except.bind, pure, Except.pure, List.filter_cons]

/-- advance the first index of a position -/
def shift : List Nat → List Nat
  | [] => []
  | i :: is => (i + 1) :: is

theorem itemAt_nil (mt) (v : Val A) : itemAt mt [] v = none := by cases v <;> rfl

theorem itemAt_atom (mt) (pos) (a : A) : itemAt mt pos (.atom a) = none := by
  match pos with
  | [] => rfl
  | [_] => rfl
  | _ :: _ :: _ => rfl

theorem itemAt_shift (mt) (t) (x : A × Val A) (rest) (pos) :
    itemAt mt (shift pos) (.map t (x :: rest)) = itemAt mt pos (.map t rest) := by
  match pos with
  | [] => rfl
  | [i] => simp [shift, itemAt]
  | i :: j :: is => simp [shift, itemAt]

theorem itemAt_zero (mt) (t) (k : A) (v) (rest) (j is) :
    itemAt mt (0 :: j :: is) (.map t ((k, v) :: rest)) = if v.isA mt then itemAt mt (j :: is) v else none := by
  simp [itemAt]

theorem before_shift (p q : List Nat) : Before (shift p) (shift q) ↔ Before p q := by
  match p, q with
  | [], _ => cases ‹List Nat› <;> simp [shift, Before]
  | [i], [] => simp [shift, Before]
  | [i], [j] => simp [shift, Before]
  | [i], j :: j' :: js => simp [shift, Before]
  | i :: i' :: is, [] => simp [shift, Before]
  | i :: i' :: is, [j] => simp [shift, Before]
  | i :: i' :: is, j :: j' :: js => simp [shift, Before]

theorem shift_inj {p q : List Nat} (h : shift p = shift q) : p = q := by
  match p, q with
  | [], [] => rfl
  | [], _ :: _ => simp [shift] at h
  | _ :: _, [] => simp [shift] at h
  | _ :: _, _ :: _ => simp [shift] at h; simp [h]

/-- the hits of one level, as positions of length one -/
theorem level_spec (mt) (p : A → Val A → Bool) (t) (l : List (A × Val A)) :
    ∃ ps : List (List Nat), ps.Pairwise Before ∧ (∀ pos ∈ ps, pos.length = 1) ∧
      (∀ pos, pos ∈ ps ↔ pos.length = 1 ∧ MatchAt mt p (.map t l) pos) ∧
      ps.map (itemAt mt · (.map t l)) = (l.filter fun kv => p kv.1 kv.2).map some := by
  induction l with
  | nil =>
    refine ⟨[], by simp, by simp, ?_, by simp⟩
    intro pos
    simp only [List.not_mem_nil, false_iff, not_and]
    intro h
    match pos, h with
    | [i], _ => simp [MatchAt, itemAt]
  | cons x rest ih =>
    obtain ⟨ps, h1, h2, h3, h4⟩ := ih
    obtain ⟨k, v⟩ := x
    have hmap : ∀ pos ∈ ps, itemAt mt (shift pos) (.map t ((k, v) :: rest)) = itemAt mt pos (.map t rest) :=
      fun pos _ => itemAt_shift ..
    have hp : (ps.map shift).Pairwise Before := by
      rw [List.pairwise_map]
      exact h1.imp fun h => (before_shift _ _).2 h
    have hlen : ∀ pos ∈ ps.map shift, pos.length = 1 := by
      intro pos hpos
      obtain ⟨q, hq, rfl⟩ := List.mem_map.1 hpos
      have := h2 q hq
      match q, this with
      | [i], _ => rfl
    have hmem : ∀ i, [i + 1] ∈ ps.map shift ↔ MatchAt mt p (.map t rest) [i] := by
      intro i
      rw [List.mem_map]
      constructor
      · rintro ⟨q, hq, hs⟩
        have : q = [i] := shift_inj (by rw [hs]; rfl)
        subst this
        exact ((h3 _).1 hq).2
      · intro h
        exact ⟨[i], (h3 _).2 ⟨rfl, h⟩, rfl⟩
    have h0 : [0] ∉ ps.map shift := by
      intro h
      obtain ⟨q, hq, hs⟩ := List.mem_map.1 h
      match q with
      | [] => simp [shift] at hs
      | _ :: _ => simp [shift] at hs
    have hmap' : (ps.map shift).map (itemAt mt · (.map t ((k, v) :: rest))) =
        (rest.filter fun kv => p kv.1 kv.2).map some := by
      rw [List.map_map, ← h4]
      apply List.map_congr_left
      intro pos hpos
      exact hmap pos hpos
    by_cases hpk : p k v = true
    · refine ⟨[0] :: ps.map shift, ?_, ?_, ?_, ?_⟩
      · rw [List.pairwise_cons]
        refine ⟨?_, hp⟩
        intro pos hpos
        have hl := hlen pos hpos
        obtain ⟨q, hq, rfl⟩ := List.mem_map.1 hpos
        match q, h2 q hq with
        | [i], _ => simp [shift, Before]
      · intro pos hpos
        rcases List.mem_cons.1 hpos with rfl | h
        · rfl
        · exact hlen _ h
      · intro pos
        constructor
        · intro hpos
          rcases List.mem_cons.1 hpos with rfl | h
          · exact ⟨rfl, (k, v), by simp [itemAt], hpk⟩
          · have hl := hlen pos h
            refine ⟨hl, ?_⟩
            obtain ⟨q, hq, rfl⟩ := List.mem_map.1 h
            obtain ⟨kv, ha, hb⟩ := ((h3 q).1 hq).2
            exact ⟨kv, by rw [itemAt_shift]; exact ha, hb⟩
        · rintro ⟨hl, kv, ha, hb⟩
          match pos, hl with
          | [0], _ => simp
          | [i + 1], _ =>
            apply List.mem_cons_of_mem
            rw [hmem]
            exact ⟨kv, by simpa [itemAt] using ha, hb⟩
      · simp only [List.map_cons, hmap', List.filter_cons, hpk, if_true]
        simp [itemAt]
    · refine ⟨ps.map shift, hp, hlen, ?_, ?_⟩
      · intro pos
        constructor
        · intro h
          have hl := hlen pos h
          refine ⟨hl, ?_⟩
          obtain ⟨q, hq, rfl⟩ := List.mem_map.1 h
          obtain ⟨kv, ha, hb⟩ := ((h3 q).1 hq).2
          exact ⟨kv, by rw [itemAt_shift]; exact ha, hb⟩
        · rintro ⟨hl, kv, ha, hb⟩
          match pos, hl with
          | [0], _ =>
            simp [itemAt] at ha
            subst ha
            exact absurd hb hpk
          | [i + 1], _ =>
            rw [hmem]
            exact ⟨kv, by simpa [itemAt] using ha, hb⟩
      · rw [hmap']
        simp [hpk]

/-- what `digForAll` is to satisfy for a value that is a mapping -/
def DigOK (mt : Tag → Bool) (p : A → Val A → Bool) (v : Val A) : Prop :=
  ∃ ps : List (List Nat), ps.Pairwise Before ∧ (∀ pos, pos ∈ ps ↔ MatchAt mt p v pos) ∧
    ∃ r, digForAll (tot p) mt v = .ok r ∧ ps.map (itemAt mt · v) = r.map some

theorem matchAt_ne_nil {mt} {p : A → Val A → Bool} {v pos} (h : MatchAt mt p v pos) : pos ≠ [] := by
  rintro rfl
  obtain ⟨kv, h, _⟩ := h
  simp [itemAt_nil] at h

theorem nests_spec (mt) (p : A → Val A → Bool) (t) (l : List (A × Val A))
    (ih : ∀ k v, (k, v) ∈ l → v.isMapping = true → DigOK mt p v) :
    ∃ ps : List (List Nat), ps.Pairwise Before ∧
      (∀ pos, pos ∈ ps ↔ 2 ≤ pos.length ∧ MatchAt mt p (.map t l) pos) ∧
      ∃ r, digNests (tot p) mt l = .ok r ∧ ps.map (itemAt mt · (.map t l)) = r.map some := by
  induction l with
  | nil =>
    refine ⟨[], by simp, ?_, [], rfl, by simp⟩
    intro pos
    simp only [List.not_mem_nil, false_iff, not_and]
    intro hl
    match pos, hl with
    | i :: j :: is, _ => simp [MatchAt, itemAt]
  | cons x rest ihl =>
    obtain ⟨k, v⟩ := x
    obtain ⟨ps, h1, h2, r, h3, h4⟩ := ihl fun k' v' h => ih k' v' (List.mem_cons_of_mem _ h)
    have hp : (ps.map shift).Pairwise Before := by
      rw [List.pairwise_map]
      exact h1.imp fun h => (before_shift _ _).2 h
    have hmem : ∀ i j is, (i + 1) :: j :: is ∈ ps.map shift ↔ MatchAt mt p (.map t rest) (i :: j :: is) := by
      intro i j is
      rw [List.mem_map]
      constructor
      · rintro ⟨q, hq, hs⟩
        have : q = i :: j :: is := shift_inj (by rw [hs]; rfl)
        subst this
        exact ((h2 _).1 hq).2
      · intro h
        exact ⟨i :: j :: is, (h2 _).2 ⟨by simp, h⟩, rfl⟩
    have hshape : ∀ pos ∈ ps.map shift, ∃ i j is, pos = (i + 1) :: j :: is := by
      intro pos hpos
      obtain ⟨q, hq, rfl⟩ := List.mem_map.1 hpos
      have hl := ((h2 q).1 hq).1
      match q, hl with
      | i :: j :: is, _ => exact ⟨i, j, is, rfl⟩
    have hmap' : (ps.map shift).map (itemAt mt · (.map t ((k, v) :: rest))) = r.map some := by
      rw [List.map_map, ← h4]
      apply List.map_congr_left
      intro pos _
      exact itemAt_shift ..
    have hsh : ∀ i j is, MatchAt mt p (.map t ((k, v) :: rest)) ((i + 1) :: j :: is) ↔
        MatchAt mt p (.map t rest) (i :: j :: is) := by
      intro i j is
      unfold MatchAt
      rw [show (i + 1) :: j :: is = shift (i :: j :: is) from rfl, itemAt_shift]
    by_cases hv : v.isA mt = true
    · have hm : v.isMapping = true := by cases v <;> simp_all
      obtain ⟨qs, g1, g2, s, g3, g4⟩ := ih k v (by simp) hm
      have hz : ∀ q ∈ qs, ∃ j is, q = j :: is := by
        intro q hq
        have := matchAt_ne_nil ((g2 q).1 hq)
        match q, this with
        | j :: is, _ => exact ⟨j, is, rfl⟩
      refine ⟨qs.map (0 :: ·) ++ ps.map shift, ?_, ?_, s ++ r, ?_, ?_⟩
      · rw [List.pairwise_append]
        refine ⟨?_, hp, ?_⟩
        · rw [List.pairwise_map]
          refine List.Pairwise.imp_of_mem ?_ g1
          intro a b ha hb hab
          obtain ⟨j, is, rfl⟩ := hz a ha
          obtain ⟨j', is', rfl⟩ := hz b hb
          simp [Before, hab]
        · intro a ha b hb
          obtain ⟨q, hq, rfl⟩ := List.mem_map.1 ha
          obtain ⟨j, is, rfl⟩ := hz q hq
          obtain ⟨i', j', is', rfl⟩ := hshape b hb
          simp [Before]
      · intro pos
        rw [List.mem_append]
        constructor
        · rintro (h | h)
          · obtain ⟨q, hq, rfl⟩ := List.mem_map.1 h
            obtain ⟨j, is, rfl⟩ := hz q hq
            refine ⟨by simp, ?_⟩
            obtain ⟨kv, ha, hb⟩ := (g2 _).1 hq
            exact ⟨kv, by rw [itemAt_zero, if_pos hv]; exact ha, hb⟩
          · obtain ⟨i, j, is, rfl⟩ := hshape pos h
            exact ⟨by simp, (hsh ..).2 ((hmem ..).1 h)⟩
        · rintro ⟨hl, hma⟩
          match pos, hl with
          | 0 :: j :: is, _ =>
            left
            refine List.mem_map.2 ⟨j :: is, (g2 _).2 ?_, rfl⟩
            obtain ⟨kv, ha, hb⟩ := hma
            rw [itemAt_zero, if_pos hv] at ha
            exact ⟨kv, ha, hb⟩
          | (i + 1) :: j :: is, _ =>
            right
            exact (hmem ..).2 ((hsh ..).1 hma)
      · simp only [digNests, hv, if_true, g3, h3, bind, Except.bind, pure, Except.pure]
      · rw [List.map_append, hmap', List.map_append, ← g4, List.map_map]
        congr 1
        apply List.map_congr_left
        intro q hq
        obtain ⟨j, is, rfl⟩ := hz q hq
        simp only [Function.comp, itemAt_zero, hv, if_true]
    · refine ⟨ps.map shift, hp, ?_, r, ?_, hmap'⟩
      · intro pos
        constructor
        · intro h
          obtain ⟨i, j, is, rfl⟩ := hshape pos h
          exact ⟨by simp, (hsh ..).2 ((hmem ..).1 h)⟩
        · rintro ⟨hl, hma⟩
          match pos, hl with
          | 0 :: j :: is, _ =>
            obtain ⟨kv, ha, hb⟩ := hma
            rw [itemAt_zero, if_neg hv] at ha
            cases ha
          | (i + 1) :: j :: is, _ => exact (hmem ..).2 ((hsh ..).1 hma)
      · simp only [digNests, hv, h3, bind, Except.bind, pure, Except.pure]
        rfl

theorem digForAll_ok (mt) (p : A → Val A → Bool) (v : Val A) (hv : v.isMapping = true) : DigOK mt p v := by
  revert hv
  induction v using Val.induct with
  | hatom a => intro h; cases h
  | hmap t l ih =>
    intro _
    obtain ⟨ps, a1, a2, a3, a4⟩ := level_spec mt p t l
    obtain ⟨qs, b1, b2, r, b3, b4⟩ := nests_spec mt p t l ih
    refine ⟨ps ++ qs, ?_, ?_, (l.filter fun kv => p kv.1 kv.2) ++ r, ?_, ?_⟩
    · rw [List.pairwise_append]
      refine ⟨a1, b1, ?_⟩
      intro a ha b hb
      have hla := a2 a ha
      have hlb := ((b2 b).1 hb).1
      match a, b, hla, hlb with
      | [i], j :: j' :: js, _, _ => trivial
    · intro pos
      rw [List.mem_append, a3, b2]
      constructor
      · rintro (h | h) <;> exact h.2
      · intro h
        have hne := matchAt_ne_nil h
        match pos, hne with
        | [i], _ => exact Or.inl ⟨rfl, h⟩
        | i :: j :: is, _ => exact Or.inr ⟨by simp, h⟩
    · simp only [digForAll, levelItems_tot, b3, bind, Except.bind, pure, Except.pure]
    · rw [List.map_append, a4, b4, List.map_append]

/-- `dig_for` finds the hits of the first level that has any, in the same order as `dig_for_all` -/
theorem digFor_prefix (mt) (p : A → Val A → Bool) (v : Val A) (hv : v.isMapping = true) :
    ∃ r, digForAll (tot p) mt v = .ok r ∧
      ((r = [] ∧ digFor (tot p) mt v = .ok none) ∨
       (∃ h t u, r = (h :: t) ++ u ∧ digFor (tot p) mt v = .ok (some (h :: t)))) := by
  revert hv
  induction v using Val.induct with
  | hatom a => intro h; cases h
  | hmap t l ih =>
    intro _
    have nests : ∀ l' : List (A × Val A), (∀ x ∈ l', x ∈ l) →
        ∃ r, digNests (tot p) mt l' = .ok r ∧
        ((r = [] ∧ digForNests (tot p) mt l' = .ok none) ∨
         (∃ h t u, r = (h :: t) ++ u ∧ digForNests (tot p) mt l' = .ok (some (h :: t)))) := by
      intro l' hsub
      induction l' with
      | nil => exact ⟨[], rfl, Or.inl ⟨rfl, rfl⟩⟩
      | cons x rest ihl =>
        obtain ⟨k, v⟩ := x
        obtain ⟨r, hr, hcase⟩ := ihl fun y hy => hsub y (List.mem_cons_of_mem _ hy)
        by_cases hva : v.isA mt = true
        · have hm : v.isMapping = true := by cases v <;> simp_all
          obtain ⟨s, hs, hcs⟩ := ih k v (hsub _ (by simp)) hm
          refine ⟨s ++ r, by simp only [digNests, hva, if_true, hs, hr, bind, Except.bind, pure, Except.pure], ?_⟩
          rcases hcs with ⟨rfl, hd⟩ | ⟨h, tl, u, rfl, hd⟩
          · rcases hcase with ⟨rfl, hd'⟩ | ⟨h, tl, u, rfl, hd'⟩
            · left
              refine ⟨rfl, ?_⟩
              simp only [digForNests, hva, if_true, hd, hd']
            · right
              refine ⟨h, tl, u, rfl, ?_⟩
              simp only [digForNests, hva, if_true, hd, hd']
          · right
            refine ⟨h, tl, u ++ r, by simp, ?_⟩
            simp only [digForNests, hva, if_true, hd]
        · refine ⟨r, by simp only [digNests, hva, hr, bind, Except.bind, pure, Except.pure]; rfl, ?_⟩
          rcases hcase with ⟨rfl, hd'⟩ | ⟨h, tl, u, rfl, hd'⟩
          · left
            refine ⟨rfl, ?_⟩
            simp only [digForNests, hva, hd']; rfl
          · right
            refine ⟨h, tl, u, rfl, ?_⟩
            simp only [digForNests, hva, hd']; rfl
    obtain ⟨r, hr, hcase⟩ := nests l fun _ h => h
    refine ⟨(l.filter fun kv => p kv.1 kv.2) ++ r,
      by simp only [digForAll, levelItems_tot, hr, bind, Except.bind, pure, Except.pure], ?_⟩
    cases hf : l.filter fun kv => p kv.1 kv.2 with
    | nil =>
      have hd : digFor (tot p) mt (.map t l) = digForNests (tot p) mt l := by
        simp only [digFor, levelItems_tot, hf, bind, Except.bind, List.isEmpty_nil, if_true]
      rw [hd]
      rcases hcase with ⟨rfl, hd'⟩ | ⟨h, tl, u, rfl, hd'⟩
      · exact Or.inl ⟨rfl, hd'⟩
      · exact Or.inr ⟨h, tl, u, rfl, hd'⟩
    | cons h tl =>
      right
      refine ⟨h, tl, r, rfl, ?_⟩
      simp only [digFor, levelItems_tot, hf, bind, Except.bind, List.isEmpty_cons, pure, Except.pure]
      rfl

end Verif.Lemmas
