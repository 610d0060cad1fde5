import Verif.Lemmas.Unnest
/-!
# C02: `unnest`
-/
namespace Verif.Props
open Verif Verif.Model Verif.Spec Verif.Lemmas
variable {A : Type} [DecidableEq A]

/-- **C02**. With an escape character `c` that occurs in no (rendered) key, no key rendered as the empty string, and
no two different keys rendered alike, `unnest` maps the flat key of every leaf path to exactly the value there and
contains nothing else; different leaf paths have different flat keys. -/
theorem C02_unnest_lossless (str : A → List Char) (mt : Tag → Bool) (c : Char) (t : Tag) (l : List (A × Val A))
    (ht : mt t = true) (hwf : (Val.map t l).WF)
    (hesc : ∀ k, HasKey k (.map t l) → c ∉ str k) (hne : ∀ k, HasKey k (.map t l) → str k ≠ [])
    (hinj : ∀ k k', HasKey k (.map t l) → HasKey k' (.map t l) → str k = str k' → k = k') :
    ∃ d, unnest str mt [c] (.map t l) = .ok d ∧ Dict.WF d ∧
      (∀ p w, valueAt mt p (.map t l) = some w → Dict.get? d (flatKey str c p) = some w) ∧
      (∀ s w, Dict.get? d s = some w → ∃ p, valueAt mt p (.map t l) = some w ∧ flatKey str c p = s) ∧
      (∀ p q w w', valueAt mt p (.map t l) = some w → valueAt mt q (.map t l) = some w' →
        flatKey str c p = flatKey str c q → p = q) := by
  have inj : ∀ p q w w', valueAt mt p (.map t l) = some w → valueAt mt q (.map t l) = some w' →
        flatKey str c p = flatKey str c q → p = q := by
    intro p q w w' hp hq h
    have hkp := hasKey_of_valueAt mt p _ _ hp
    have hkq := hasKey_of_valueAt mt q _ _ hq
    refine flatKey_inj str c p q (fun k hk => hesc k (hkp k hk)) (fun k hk => hesc k (hkq k hk))
      (fun k hk k' hk' => hinj k k' (hkp k hk) (hkq k' hk')) ?_ ?_ h
    · rintro rfl; simp [valueAt] at hp
    · rintro rfl; simp [valueAt] at hq
  let pairs : List (List Char × Val A) := (leafPaths mt (.map t l)).map fun x => (flatKey str c x.1, x.2)
  have hnd : (Dict.keys pairs).Nodup := by
    have h := leafPaths_nodup mt _ hwf
    simp only [Dict.keys, pairs, List.map_map]
    rw [List.Nodup, List.pairwise_map] at h ⊢
    refine h.imp_of_mem ?_
    intro a b ha hb hab heq
    exact hab (inj a.1 b.1 a.2 b.2 ((mem_leafPaths mt _ hwf _ _).1 ha) ((mem_leafPaths mt _ hwf _ _).1 hb) heq)
  have hd : unnest str mt [c] (.map t l) = .ok pairs := by
    simp only [unnest, ht, if_true]
    rw [unnestRec_eq str mt c _ hne [] (by simp)]
    have := foldl_update_singletons pairs [] (by simpa using hnd)
    simp only [pairs, List.map_map, List.nil_append] at this
    exact congrArg Except.ok this
  refine ⟨pairs, hd, hnd, ?_, ?_, inj⟩
  · intro p w h
    exact Dict.get?_of_mem hnd (List.mem_map.2 ⟨(p, w), (mem_leafPaths mt _ hwf _ _).2 h, rfl⟩)
  · intro s w h
    obtain ⟨x, hx, he⟩ := List.mem_map.1 (Dict.mem_of_get? h)
    cases he
    exact ⟨x.1, (mem_leafPaths mt _ hwf _ _).1 hx, rfl⟩

/-- example keys are strings given as character lists -/
private abbrev s (x : String) : List Char := x.toList

/-- witness: {"a": {"b_c": 1}, "a_b": {"c": 2}} with escape "|" keeps both leaves -/
example : (unnest (A := List Char) id Tag.isDict ['|']
    (.map .dict [(s "a", .map .dict [(s "b_c", .atom (s "1"))]), (s "a_b", .map .dict [(s "c", .atom (s "2"))])])) =
    .ok [(s "|a|_b_c", .atom (s "1")), (s "|a_b|_c", .atom (s "2"))] := rfl

/-- **C02, default escape**: with `escape=''` the two leaves above collide and one value is lost, although all keys
are distinct non-empty strings. -/
theorem C02_default_escape_loses :
    ∃ (v : Val (List Char)), v.WF ∧ (∀ k, HasKey k v → k ≠ []) ∧
      valueAt Tag.isDict [s "a", s "b_c"] v = some (.atom (s "1")) ∧
      valueAt Tag.isDict [s "a_b", s "c"] v = some (.atom (s "2")) ∧
      unnest id Tag.isDict [] v = .ok [(s "a_b_c", .atom (s "2"))] := by
  refine ⟨.map .dict [(s "a", .map .dict [(s "b_c", .atom (s "1"))]), (s "a_b", .map .dict [(s "c", .atom (s "2"))])],
    ?_, ?_, by rfl, by rfl, by rfl⟩
  · simp [Val.WF, Val.WFItems, Dict.WF, Dict.keys, s]
  · rintro k ⟨pos, kv, h, rfl⟩
    match pos, h with
    | [0], h => simp [itemAt] at h; simp [← h]
    | [1], h => simp [itemAt] at h; simp [← h]
    | [i + 2], h => simp [itemAt] at h
    | [0, 0], h => simp [itemAt] at h; simp [← h]
    | [1, 0], h => simp [itemAt] at h; simp [← h]
    | [0, i + 1], h => simp [itemAt] at h
    | [1, i + 1], h => simp [itemAt] at h
    | (i + 2) :: j :: js, h => simp [itemAt] at h
    | 0 :: 0 :: j :: js, h => simp [itemAt] at h
    | 1 :: 0 :: j :: js, h => simp [itemAt] at h
    | 0 :: (i + 1) :: j :: js, h => simp [itemAt] at h
    | 1 :: (i + 1) :: j :: js, h => simp [itemAt] at h

end Verif.Props
