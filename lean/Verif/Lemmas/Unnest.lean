import Verif.Model.Nested
import Verif.Spec.Nested
/-! Helper lemmas for `unnest`. -/
set_option linter.unusedSectionVars false
namespace Verif.Lemmas
open Verif Verif.Model Verif.Spec
variable {A : Type} [DecidableEq A]

mutual
/-- all (path, value) leaves in document order -/
def leafPaths (mt : Tag → Bool) : Val A → List (List A × Val A)
  | .atom _ => []
  | .map _ l => leafPathsItems mt l
def leafPathsItems (mt : Tag → Bool) : List (A × Val A) → List (List A × Val A)
  | [] => []
  | (k, v) :: r => (if v.isA mt then (leafPaths mt v).map fun x => (k :: x.1, x.2) else [([k], v)])
      ++ leafPathsItems mt r
end

/-- `k` occurs as a key in `v`, inductively on the structure -/
theorem hasKey_of_mem {t : Tag} {l : List (A × Val A)} {k v} (h : (k, v) ∈ l) : HasKey k (.map t l) := by
  obtain ⟨i, hi⟩ := List.mem_iff_getElem?.1 h
  exact ⟨[i], (k, v), by simpa [itemAt] using hi, rfl⟩

theorem hasKey_of_sub {t : Tag} {l : List (A × Val A)} {k k' v} (h : (k, v) ∈ l) (hk : HasKey k' v) :
    HasKey k' (.map t l) := by
  obtain ⟨i, hi⟩ := List.mem_iff_getElem?.1 h
  obtain ⟨pos, kv, h1, h2⟩ := hk
  cases pos with
  | nil => cases v <;> simp [itemAt] at h1
  | cons j js =>
    refine ⟨i :: j :: js, kv, ?_, h2⟩
    have hv : v.isA (fun _ => true) = true := by
      cases v with
      | atom a => cases js <;> simp [itemAt] at h1
      | map => rfl
    simp [itemAt, hi, hv, h1]

theorem prefix_flatKey (str : A → List Char) (c : Char) (levels : List A) (k : A)
    (hne : ∀ x ∈ levels, str x ≠ []) :
    unnestPrefix str [c] levels ++ str k = flatKey str c (levels ++ [k]) := by
  have key : ∀ levels : List A, levels ≠ [] → [c] ++ List.intercalate ([c] ++ ['_'] ++ [c]) (levels.map str) ++ [c] ++
      ['_'] ++ str k = flatKey str c (levels ++ [k]) := by
    intro levels
    induction levels with
    | nil => intro h; exact absurd rfl h
    | cons x r ih =>
      intro _
      cases r with
      | nil => simp [flatKey, List.intercalate]
      | cons y r =>
        have := ih (by simp)
        simp only [List.cons_append, flatKey]
        simp only [List.cons_append] at this
        rw [← this]
        simp [List.intercalate]
  cases levels with
  | nil => simp [unnestPrefix, flatKey, List.intercalate]
  | cons x r =>
    have hx := hne x (by simp)
    rw [← key (x :: r) (by simp)]
    have : 0 < (List.intercalate ([c] ++ ['_'] ++ [c]) ((x :: r).map str)).length := by
      cases hs : str x with
      | nil => exact absurd hs hx
      | cons a b => cases r <;> simp [List.intercalate, hs] <;> omega
    simp only [unnestPrefix]
    rw [if_pos this]

theorem unnestRec_eq (str : A → List Char) (mt : Tag → Bool) (c : Char) (v : Val A) :
    (∀ k, HasKey k v → str k ≠ []) → ∀ levels, (∀ k ∈ levels, str k ≠ []) →
    unnestRec str mt [c] levels v = (leafPaths mt v).map fun x => [(flatKey str c (levels ++ x.1), x.2)] := by
  induction v using Val.induct with
  | hatom a => intros; rfl
  | hmap t l ih =>
    intro hk levels hlv
    simp only [unnestRec, leafPaths]
    have : ∀ l' : List (A × Val A), (∀ x ∈ l', x ∈ l) → unnestLoop str mt [c] levels l' =
        (leafPathsItems mt l').map fun x => [(flatKey str c (levels ++ x.1), x.2)] := by
      intro l'
      induction l' with
      | nil => intro _; rfl
      | cons x r ihl =>
        intro hsub
        obtain ⟨k, w⟩ := x
        have hmem : (k, w) ∈ l := hsub _ (by simp)
        simp only [unnestLoop, leafPathsItems]
        rw [ihl fun y hy => hsub y (List.mem_cons_of_mem _ hy), List.map_append]
        congr 1
        split
        · rw [ih k w hmem (fun k' h => hk k' (hasKey_of_sub hmem h)) (levels ++ [k])]
          · simp [Function.comp_def]
          · intro k' hk'
            rcases List.mem_append.1 hk' with h | h
            · exact hlv _ h
            · rw [List.mem_singleton.1 h]
              exact hk k (hasKey_of_mem hmem)
        · simp [prefix_flatKey str c levels k hlv]
    exact this l fun _ h => h

theorem leafPaths_ne_nil (mt : Tag → Bool) (v : Val A) : ∀ x ∈ leafPaths mt v, x.1 ≠ [] := by
  cases v with
  | atom a => simp [leafPaths]
  | map t l =>
    simp only [leafPaths]
    induction l with
    | nil => simp [leafPathsItems]
    | cons y r ih =>
      obtain ⟨k, w⟩ := y
      intro x hx
      simp only [leafPathsItems, List.mem_append] at hx
      rcases hx with hx | hx
      · split at hx
        · obtain ⟨z, _, rfl⟩ := List.mem_map.1 hx
          simp
        · simp at hx; subst hx; simp
      · exact ih x hx

/-- membership in `leafPaths` is `valueAt` -/
theorem mem_leafPaths (mt : Tag → Bool) (v : Val A) : v.WF → ∀ p w, (p, w) ∈ leafPaths mt v ↔ valueAt mt p v = some w := by
  induction v using Val.induct with
  | hatom a =>
    intro _ p w
    match p with
    | [] => simp [leafPaths, valueAt]
    | [_] => simp [leafPaths, valueAt]
    | _ :: _ :: _ => simp [leafPaths, valueAt]
  | hmap t l ih =>
    intro hwf p w
    rw [Val.wf_map] at hwf
    have items : (p, w) ∈ leafPathsItems mt l ↔ ∃ k u, (k, u) ∈ l ∧
        ((u.isA mt = true ∧ ∃ q, p = k :: q ∧ (q, w) ∈ leafPaths mt u) ∨
         (u.isA mt = false ∧ p = [k] ∧ w = u)) := by
      clear ih hwf
      induction l with
      | nil => simp [leafPathsItems]
      | cons y r ihl =>
        obtain ⟨k, u⟩ := y
        simp only [leafPathsItems, List.mem_append, ihl]
        constructor
        · rintro (h | ⟨k', u', hm, h⟩)
          · refine ⟨k, u, by simp, ?_⟩
            split at h
            · rename_i hu
              obtain ⟨z, hz, he⟩ := List.mem_map.1 h
              cases he
              exact Or.inl ⟨hu, z.1, rfl, hz⟩
            · rename_i hu
              simp at h
              exact Or.inr ⟨by simpa using hu, h.1, h.2⟩
          · exact ⟨k', u', List.mem_cons_of_mem _ hm, h⟩
        · rintro ⟨k', u', hm, h⟩
          rcases List.mem_cons.1 hm with heq | hm
          · cases heq
            left
            rcases h with ⟨hu, q, rfl, hq⟩ | ⟨hu, rfl, rfl⟩
            · rw [if_pos hu]
              exact List.mem_map.2 ⟨_, hq, rfl⟩
            · simp [hu]
          · exact Or.inr ⟨k', u', hm, h⟩
    simp only [leafPaths, items]
    constructor
    · rintro ⟨k, u, hm, ⟨hu, q, rfl, hq⟩ | ⟨hu, rfl, rfl⟩⟩
      · have hne := leafPaths_ne_nil mt u _ hq
        match q, hne with
        | k' :: ks, _ =>
          simp [valueAt, Dict.get?_of_mem hwf.1 hm, hu, (ih k u hm (hwf.2 _ _ hm) _ _).1 hq]
      · simp [valueAt, Dict.get?_of_mem hwf.1 hm, hu]
    · intro h
      match p, h with
      | [k], h =>
        simp only [valueAt] at h
        cases hg : Dict.get? l k with
        | none => simp [hg] at h
        | some u =>
          simp only [hg] at h
          split at h
          · cases h
          · cases h
            rename_i hu
            exact ⟨k, w, Dict.mem_of_get? hg, Or.inr ⟨by simpa using hu, rfl, rfl⟩⟩
      | k :: k' :: ks, h =>
        simp only [valueAt] at h
        cases hg : Dict.get? l k with
        | none => simp [hg] at h
        | some u =>
          simp only [hg] at h
          split at h
          · rename_i hu
            have hm := Dict.mem_of_get? hg
            exact ⟨k, u, hm, Or.inl ⟨hu, _, rfl, (ih k u hm (hwf.2 _ _ hm) _ _).2 h⟩⟩
          · cases h

theorem leafPaths_nodup (mt : Tag → Bool) (v : Val A) : v.WF → ((leafPaths mt v).map Prod.fst).Nodup := by
  induction v using Val.induct with
  | hatom a => intro _; simp [leafPaths]
  | hmap t l ih =>
    intro hwf
    rw [Val.wf_map] at hwf
    obtain ⟨hk, hv⟩ := hwf
    have hheads : ∀ l' : List (A × Val A), ∀ p ∈ (leafPathsItems mt l').map Prod.fst,
        ∃ k q, p = k :: q ∧ k ∈ Dict.keys l' := by
      intro l'
      induction l' with
      | nil => simp [leafPathsItems]
      | cons y r ihl =>
        obtain ⟨k, u⟩ := y
        intro p hp
        simp only [leafPathsItems, List.map_append, List.mem_append] at hp
        rcases hp with hp | hp
        · split at hp
          · simp only [List.map_map, List.mem_map] at hp
            obtain ⟨z, _, rfl⟩ := hp
            exact ⟨k, z.1, rfl, by simp⟩
          · simp at hp
            exact ⟨k, [], hp, by simp⟩
        · obtain ⟨k', q, h1, h2⟩ := ihl p hp
          exact ⟨k', q, h1, by simp [h2]⟩
    simp only [leafPaths]
    induction l with
    | nil => simp [leafPathsItems]
    | cons y r ihl =>
      obtain ⟨k, u⟩ := y
      have hk' := List.nodup_cons.1 (show (k :: Dict.keys r).Nodup from hk)
      have ihr := ihl (fun k' v' h => ih k' v' (List.mem_cons_of_mem _ h)) hk'.2
        (fun k' v' h => hv k' v' (List.mem_cons_of_mem _ h))
      simp only [leafPathsItems, List.map_append]
      rw [List.nodup_append]
      refine ⟨?_, ihr, ?_⟩
      · split
        · have := ih k u (by simp) (hv k u (by simp))
          rw [List.map_map]
          have e : (Prod.fst ∘ fun x : List A × Val A => (k :: x.1, x.2)) = (fun p => k :: p) ∘ Prod.fst := rfl
          rw [e, ← List.map_map]
          exact List.Pairwise.map _ (by intro a b h h'; exact h (by simpa using h')) this
        · simp
      · intro a ha b hb hab
        subst hab
        have hb' := hheads r a hb
        obtain ⟨k', q, rfl, hk2⟩ := hb'
        split at ha
        · simp only [List.map_map, List.mem_map] at ha
          obtain ⟨z, _, hz⟩ := ha
          simp at hz
          exact hk'.1 (hz.1 ▸ hk2)
        · simp at ha
          exact hk'.1 (ha.1 ▸ hk2)

/-- splitting at the first `c` is unambiguous -/
theorem split_at_char {c : Char} {a b x y : List Char} (ha : c ∉ a) (hb : c ∉ b) (h : a ++ c :: x = b ++ c :: y) :
    a = b ∧ x = y := by
  induction a generalizing b with
  | nil =>
    cases b with
    | nil => simpa using h
    | cons d b => simp at h; exact absurd h.1 (by intro e; exact hb (by simp [e]))
  | cons d a ih =>
    cases b with
    | nil => simp at h; exact absurd h.1 (by intro e; exact ha (by simp [e]))
    | cons e b =>
      simp only [List.cons_append, List.cons.injEq] at h
      obtain ⟨rfl, h⟩ := h
      have := ih (fun hh => ha (List.mem_cons_of_mem _ hh)) (fun hh => hb (List.mem_cons_of_mem _ hh)) h
      simp [this.1, this.2]

theorem flatKey_inj (str : A → List Char) (c : Char) (p q : List A)
    (hp : ∀ k ∈ p, c ∉ str k) (hq : ∀ k ∈ q, c ∉ str k)
    (hinj : ∀ k ∈ p, ∀ k' ∈ q, str k = str k' → k = k') (hpn : p ≠ []) (hqn : q ≠ [])
    (h : flatKey str c p = flatKey str c q) : p = q := by
  induction p generalizing q with
  | nil => exact absurd rfl hpn
  | cons k ks ih =>
    match ks, q, hqn, h with
    | [], [k'], _, h => rw [hinj k (by simp) k' (by simp) (by simpa [flatKey] using h)]
    | [], k' :: k'' :: ks', _, h =>
      simp only [flatKey] at h
      exact absurd (by rw [h]; simp) (hp k (by simp))
    | k2 :: ks, [k'], _, h =>
      simp only [flatKey] at h
      exact absurd (by rw [← h]; simp) (hq k' (by simp))
    | k2 :: ks, k' :: k'' :: ks', _, h =>
      simp only [flatKey, List.cons.injEq, true_and] at h
      obtain ⟨h1, h2⟩ := split_at_char (hp k (by simp)) (hq k' (by simp)) h
      have hk := hinj k (by simp) k' (by simp) h1
      simp only [List.cons.injEq, true_and] at h2
      have := ih (k'' :: ks') (fun x hx => hp x (List.mem_cons_of_mem _ hx))
        (fun x hx => hq x (List.mem_cons_of_mem _ hx))
        (fun x hx y hy => hinj x (List.mem_cons_of_mem _ hx) y (List.mem_cons_of_mem _ hy)) (by simp) (by simp) h2
      rw [hk, this]

/-- keys on a leaf path are keys of the mapping -/
theorem hasKey_of_valueAt (mt : Tag → Bool) (p : List A) : ∀ (v w : Val A), valueAt mt p v = some w →
    ∀ k ∈ p, HasKey k v := by
  induction p with
  | nil => simp
  | cons k ks ih =>
    intro v w h x hx
    match ks, v, h with
    | [], .atom _, h => simp [valueAt] at h
    | _ :: _, .atom _, h => simp [valueAt] at h
    | [], .map t l, h =>
      simp only [valueAt] at h
      cases hg : Dict.get? l k with
      | none => simp [hg] at h
      | some u =>
        have : x = k := by simpa using hx
        subst this
        exact hasKey_of_mem (Dict.mem_of_get? hg)
    | k' :: ks, .map t l, h =>
      simp only [valueAt] at h
      cases hg : Dict.get? l k with
      | none => simp [hg] at h
      | some u =>
        simp only [hg] at h
        split at h
        · rcases List.mem_cons.1 hx with rfl | hx
          · exact hasKey_of_mem (Dict.mem_of_get? hg)
          · exact hasKey_of_sub (Dict.mem_of_get? hg) (ih u w h x hx)
        · cases h

theorem foldl_update_singletons {κ α : Type} [DecidableEq κ] (l : List (κ × α)) (d : Dict κ α)
    (h : (Dict.keys (d ++ l)).Nodup) : (l.map fun x => [x]).foldl Dict.update d = d ++ l := by
  induction l generalizing d with
  | nil => simp
  | cons x r ih =>
    obtain ⟨k, v⟩ := x
    simp only [List.map_cons, List.foldl_cons]
    have hk : k ∉ Dict.keys d := by
      rw [Dict.keys_append, Dict.keys_cons, List.nodup_append] at h
      intro hm
      exact h.2.2 k hm k (by simp) rfl
    have : Dict.update d [(k, v)] = d ++ [(k, v)] := by
      rw [Dict.update_cons, Dict.update_nil, Dict.set_of_not_mem _ _ hk]
    rw [this, ih _ (by simpa [Dict.keys] using h)]
    simp

end Verif.Lemmas
