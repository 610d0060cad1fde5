import Mathlib.Data.List.Nodup
import Verif.Spec.PqMeta
import Verif.Props.Tables
import Verif.Props.DowncastDf
/-!
# Lemmas for tables of parquet metadata
-/
namespace Verif.Lemmas
open Verif Verif.Model Verif.Spec Verif.Props

section general
variable {V : Type}

theorem metaEq_eq [DecidableEq V] : (metaEq : Option V → Option V → Bool) = cellEq := by
  funext a b
  cases a <;> cases b <;> simp [metaEq, cellEq]

theorem select_length {α : Type} (l : List α) (m : List Bool) (h : l.length = m.length) : (select l m).length = m.count true := by
  induction l generalizing m with
  | nil => cases m <;> simp_all [select]
  | cons a t ih =>
    rcases m with _ | ⟨_ | _, m⟩
    · simp at h
    · simpa [select] using ih m (by simpa using h)
    · simpa [select] using ih m (by simpa using h)

theorem select_map_map {α β : Type} (F : α → β) (P : α → Bool) (l : List α) : select (l.map F) (l.map P) = (l.filter P).map F := by
  rw [select_map, select_filter]

/-- the places of a table of this many columns and row groups, column after column -/
def places (columns groups : Nat) : List (Nat × Nat) := (List.range columns).flatMap fun c => (List.range groups).map fun g => (c, g)

theorem mem_places {columns groups : Nat} {p : Nat × Nat} : p ∈ places columns groups ↔ p.1 < columns ∧ p.2 < groups := by
  obtain ⟨c, g⟩ := p
  simp only [places, List.mem_flatMap, List.mem_range, List.mem_map, Prod.mk.injEq]
  constructor
  · rintro ⟨a, ha, b, hb, rfl, rfl⟩; exact ⟨ha, hb⟩
  · rintro ⟨ha, hb⟩; exact ⟨c, ha, g, hb, rfl, rfl⟩

theorem places_filter {columns groups : Nat} {c : Nat} (hc : c < columns) :
    (places columns groups).filter (fun p => decide (p.1 = c)) = (List.range groups).map fun g => (c, g) := by
  have h : ∀ l : List Nat, l.Nodup → (l.flatMap fun c => (List.range groups).map fun g => (c, g)).filter (fun p => decide (p.1 = c)) =
      if c ∈ l then (List.range groups).map fun g => (c, g) else [] := by
    intro l hn
    induction l with
    | nil => simp
    | cons a t ih =>
      rw [List.nodup_cons] at hn
      rw [List.flatMap_cons, List.filter_append, ih hn.2]
      by_cases ha : a = c
      · subst ha
        have : ((List.range groups).map fun g => (a, g)).filter (fun p => decide (p.1 = a)) = (List.range groups).map fun g => (a, g) := by
          rw [List.filter_eq_self]; simp
        rw [this]
        simp [hn.1]
      · have : ((List.range groups).map fun g => (a, g)).filter (fun p => decide (p.1 = c)) = [] := by
          rw [List.filter_eq_nil_iff]; simp [ha]
        rw [this]
        simp [Ne.symm ha]
  rw [places, h _ List.nodup_range, if_pos (by simpa using hc)]

/-- values that come several times in a row, taken once -/
theorem distinct_runs {α : Type} [DecidableEq α] (n : Nat) (hn : 0 < n) (l : List α) (hl : l.Nodup) (seen : List α)
    (hs : ∀ a ∈ l, a ∉ seen) : select (l.flatMap fun a => List.replicate n a)
      ((duplicated seen (l.flatMap fun a => List.replicate n a)).map not) = l := by
  have run : ∀ (k : Nat) (a : α) (rest seen : List α), a ∈ seen →
      select (List.replicate k a ++ rest) ((duplicated seen (List.replicate k a ++ rest)).map not) =
        select rest ((duplicated (List.replicate k a ++ seen) rest).map not) := by
    intro k a rest
    induction k with
    | zero => intro seen _; simp
    | succ k ih =>
      intro seen ha
      rw [List.replicate_succ, List.cons_append, duplicated]
      simp only [ha, decide_true, List.map_cons, Bool.not_true, select]
      rw [ih (a :: seen) (by simp)]
      congr 3
      rw [← List.singleton_append, ← List.append_assoc, ← List.replicate_succ', List.replicate_succ]
  induction l generalizing seen with
  | nil => rfl
  | cons a t ih =>
    rw [List.nodup_cons] at hl
    obtain ⟨k, rfl⟩ : ∃ k, n = k + 1 := ⟨n - 1, by omega⟩
    rw [List.flatMap_cons, List.replicate_succ, List.cons_append, duplicated]
    simp only [hs a (by simp), decide_false, List.map_cons, Bool.not_false, select]
    rw [run k a _ (a :: seen) (by simp), ih hl.2]
    intro b hb hm
    rcases List.mem_append.1 hm with hm | hm
    · rw [List.mem_replicate] at hm
      exact hl.1 (hm.2 ▸ hb)
    · rcases List.mem_cons.1 hm with rfl | hm
      · exact hl.1 hb
      · exact hs b (by simp [hb]) hm

theorem get?_zip_keys {κ α : Type} [DecidableEq κ] (d : Dict κ α) (k : κ) :
    Dict.get? ((Dict.keys d).zip (Dict.values d)) k = Dict.get? d k := by
  induction d with
  | nil => rfl
  | cons a t ih =>
    obtain ⟨a, v⟩ := a
    simp only [Dict.keys, Dict.values, List.map_cons, List.zip_cons_cons, Dict.get?_cons] at ih ⊢
    rw [ih]

theorem get?_append {κ α : Type} [DecidableEq κ] (d e : Dict κ α) (k : κ) :
    Dict.get? (d ++ e) k = (Dict.get? d k).or (Dict.get? e k) := by
  induction d with
  | nil => rfl
  | cons a t ih =>
    obtain ⟨a, v⟩ := a
    simp only [List.cons_append, Dict.get?_cons, ih]
    split <;> rfl

theorem get?_filter_key {κ α : Type} [DecidableEq κ] (P : κ → Bool) (d : Dict κ α) (k : κ) :
    Dict.get? (d.filter fun c => P c.1) k = if P k then Dict.get? d k else none := by
  induction d with
  | nil => simp
  | cons a t ih =>
    obtain ⟨a, v⟩ := a
    rw [List.filter_cons]
    by_cases hP : P a = true
    · simp only [hP, if_true, Dict.get?_cons, ih]
      split
      · rename_i h; subst h; simp [hP]
      · rfl
    · simp only [hP, Bool.false_eq_true, if_false, ih, Dict.get?_cons]
      split
      · rename_i h
        rw [if_neg]
        rintro rfl
        exact hP h
      · rfl

theorem get?_map_same {α : Type} (F : Str → α) (l : List Str) (k : Str) :
    Dict.get? (l.map fun n => (n, F n)) k = if k ∈ l then some (F k) else none := by
  induction l with
  | nil => simp
  | cons a t ih =>
    simp only [List.map_cons, Dict.get?_cons, ih, List.mem_cons]
    by_cases h : a = k
    · subst h; simp
    · simp [h, Ne.symm h]

theorem forall₂_mem_right {α β : Type} {R : α → β → Prop} {l : List α} {l' : List β} (h : List.Forall₂ R l l') {b : β} (hb : b ∈ l') :
    ∃ a ∈ l, R a b := by
  induction h with
  | nil => cases hb
  | cons h t ih =>
    rcases List.mem_cons.1 hb with rfl | hb
    · exact ⟨_, List.mem_cons_self .., h⟩
    · obtain ⟨a, ha, hr⟩ := ih hb; exact ⟨a, List.mem_cons_of_mem _ ha, hr⟩

/-- the rows of Series put side by side -/
theorem concat_rows (ss : List (Series Str (Option V))) (hne : ss ≠ []) (hnd : ∀ s ∈ ss, s.index.Nodup)
    (hlen : ∀ s ∈ ss, s.cells.length = s.index.length) :
    ∃ g, concatColumns none ss = .ok g ∧ (∀ k ∈ g.index, ∃ s ∈ ss, k ∈ s.index) ∧
      List.Forall₂ (fun s row => ∀ k, (Dict.get? row k).join = (s.at k).join) ss (g.columns.map fun c => g.index.zip c.2) := by
  cases ss with
  | nil => exact absurd rfl hne
  | cons s t =>
    unfold concatColumns
    simp only
    split
    · rename_i hsame
      refine ⟨_, rfl, fun k hk => ⟨s, by simp, hk⟩, ?_⟩
      rw [List.map_map, List.forall₂_map_right_iff, List.forall₂_same]
      intro x hx k
      have : x.index = s.index := by
        rcases List.mem_cons.1 hx with rfl | hx
        · rfl
        · exact hsame x hx
      simp only [Function.comp_apply, Series.at, this]
    · refine ⟨_, rfl, fun k hk => by simpa [unionLabels_mem] using hk, ?_⟩
      rw [List.map_map, List.forall₂_map_right_iff, List.forall₂_same]
      intro x hx k
      simp only [Function.comp_apply]
      have hz : (unionLabels ((s :: t).map (·.index))).zip ((unionLabels ((s :: t).map (·.index))).map fun l => (x.at l).getD none) =
          (unionLabels ((s :: t).map (·.index))).map fun l => (l, (x.at l).getD none) := by
        generalize unionLabels ((s :: t).map (·.index)) = u
        induction u with
        | nil => rfl
        | cons a u ih => simp [ih]
      rw [hz, get?_map_same]
      split
      · cases x.at k <;> rfl
      · rename_i hk
        have : k ∉ x.index := fun hm => hk (by rw [unionLabels_mem]; exact ⟨x.index, List.mem_map.2 ⟨x, hx, rfl⟩, hm⟩)
        have : x.at k = none := by
          rw [Series.at, Dict.get?_eq_none, Dict.keys, List.map_fst_zip (Nat.le_of_eq (hlen x hx).symm)]
          exact this
        rw [this]

theorem metaName_inj {a b : Str} (ha : a ∉ ["column".toList, "type".toList, "dict_page".toList, "comp_size".toList, "uncomp_size".toList])
    (hb : b ∉ ["column".toList, "type".toList, "dict_page".toList, "comp_size".toList, "uncomp_size".toList])
    (h : metaName a = metaName b) : a = b := by
  have hval : ∀ x y, Dict.get? metaNames x = some y →
      y ∈ ["column".toList, "type".toList, "dict_page".toList, "comp_size".toList, "uncomp_size".toList] := by
    intro x y h
    have h2 : ∀ p ∈ metaNames, p.2 ∈ ["column".toList, "type".toList, "dict_page".toList, "comp_size".toList, "uncomp_size".toList] := by
      decide
    exact h2 _ (Dict.mem_of_get? h)
  unfold metaName at h
  cases ea : Dict.get? metaNames a with
  | none =>
    cases eb : Dict.get? metaNames b with
    | none => simpa [ea, eb] using h
    | some y => simp only [ea, eb, Option.getD_none, Option.getD_some] at h; exact absurd (h ▸ hval b y eb) ha
  | some x =>
    cases eb : Dict.get? metaNames b with
    | none => simp only [ea, eb, Option.getD_none, Option.getD_some] at h; exact absurd (h ▸ hval a x ea) hb
    | some y =>
      have h2 : ∀ p ∈ metaNames, ∀ q ∈ metaNames, p.2 = q.2 → p.1 = q.1 := by decide
      exact h2 _ (Dict.mem_of_get? ea) _ (Dict.mem_of_get? eb) (by simpa [ea, eb] using h)

theorem get?_renamed {α : Type} (d : Dict Str α) (k : Str)
    (hd : ∀ n ∈ Dict.keys d, n ∉ ["column".toList, "type".toList, "dict_page".toList, "comp_size".toList, "uncomp_size".toList])
    (hk : k ∉ ["column".toList, "type".toList, "dict_page".toList, "comp_size".toList, "uncomp_size".toList]) :
    Dict.get? (d.map fun kv => (metaName kv.1, kv.2)) (metaName k) = Dict.get? d k := by
  induction d with
  | nil => rfl
  | cons a t ih =>
    obtain ⟨a, v⟩ := a
    simp only [List.map_cons, Dict.get?_cons]
    rw [ih fun n hn => hd n (by simp only [Dict.keys_cons, List.mem_cons]; exact .inr hn)]
    have ha := hd a (by simp)
    by_cases h : a = k
    · subst h; simp
    · rw [if_neg h, if_neg fun hc => h (metaName_inj ha hk hc)]

end general

section file
variable {V : Type}

/-- the record of a chunk that has statistics -/
def recOf (num : Nat → V) (chunk : Nat → Nat → Chunk V) (p : Nat × Nat) : Dict Str (Option V) :=
  ((((chunk p.1 p.2).fields.update ((chunk p.1 p.2).statistics.getD [])).set "row_group".toList (some (num p.2))).set
    "col_ix".toList (some (num p.1)))

theorem mapM_ok {α β : Type} (F : α → Except PyErr β) (G : α → β) (l : List α) (h : ∀ a ∈ l, F a = .ok (G a)) :
    l.mapM F = .ok (l.map G) := by
  induction l with
  | nil => rfl
  | cons a t ih =>
    rw [List.mapM_cons, h a (by simp), ih fun a ha => h a (by simp [ha])]
    rfl

theorem mapM_error {α β : Type} (F : α → Except PyErr β) (e : PyErr) (l : List α) (h : ∀ a ∈ l, (∃ b, F a = .ok b) ∨ F a = .error e)
    (hx : ∃ a ∈ l, F a = .error e) : l.mapM F = .error e := by
  induction l with
  | nil => obtain ⟨a, ha, _⟩ := hx; cases ha
  | cons a t ih =>
    rw [List.mapM_cons]
    rcases h a (by simp) with ⟨b, hb⟩ | hb
    · have : ∃ a ∈ t, F a = .error e := by
        obtain ⟨a', ha', he⟩ := hx
        rcases List.mem_cons.1 ha' with rfl | ha'
        · rw [hb] at he; cases he
        · exact ⟨a', ha', he⟩
      rw [hb, ih (fun a ha => h a (by simp [ha])) this]
      rfl
    · rw [hb]; rfl

theorem records_ok {num : Nat → V} {columns groups : Nat} {chunk : Nat → Nat → Chunk V}
    (h : ∀ c < columns, ∀ g < groups, ∃ s, (chunk c g).statistics = some s) :
    metadataRecords num columns groups chunk = .ok ((places columns groups).map (recOf num chunk)) := by
  unfold metadataRecords
  refine mapM_ok _ _ _ fun p hp => ?_
  obtain ⟨h1, h2⟩ := mem_places.1 hp
  obtain ⟨s, hs⟩ := h p.1 h1 p.2 h2
  simp only [metaRecord, recOf, hs, Option.getD_some]

variable {num : Nat → V} {columns groups : Nat} {chunk : Nat → Nat → Chunk V} {path : Nat → V}

theorem recOf_keys (ok : FileOK columns groups chunk path) {p : Nat × Nat} (hp : p ∈ places columns groups) :
    (Dict.keys (recOf num chunk p)).Nodup ∧ ∀ k, k ∈ Dict.keys (recOf num chunk p) ↔
      k = "row_group".toList ∨ k = "col_ix".toList ∨ Tells (chunk p.1 p.2) k := by
  obtain ⟨h1, h2⟩ := mem_places.1 hp
  obtain ⟨s, hs, hn⟩ := ok.stats p.1 h1 p.2 h2
  constructor
  · exact Dict.wf_set (Dict.wf_set (Dict.wf_update (ok.nodup p.1 h1 p.2 h2) _) _ _) _ _
  · intro k
    have hset : ∀ (d : Dict Str (Option V)) (a : Str) (v : Option V), k ∈ Dict.keys (Dict.set d a v) ↔ k = a ∨ k ∈ Dict.keys d := by
      intro d a v
      by_cases h : k = a
      · subst h
        simp only [true_or, iff_true]
        exact Dict.get?_isSome.1 (by rw [Dict.get?_set_self]; rfl)
      · rw [← Dict.get?_isSome, Dict.get?_set_ne _ _ h, Dict.get?_isSome]
        simp [h]
    rw [recOf, hset, hset, Dict.mem_keys_update, hs, Option.getD_some]
    unfold Tells
    rw [hs]
    constructor
    · rintro (h | h | h | h)
      · exact .inr (.inl h)
      · exact .inl h
      · exact .inr (.inr (.inl h))
      · exact .inr (.inr (.inr ⟨s, rfl, h⟩))
    · rintro (h | h | h | ⟨s', e, h⟩)
      · exact .inr (.inl h)
      · exact .inl h
      · exact .inr (.inr (.inl h))
      · cases e; exact .inr (.inr (.inr h))

theorem recOf_get (ok : FileOK columns groups chunk path) {p : Nat × Nat} (hp : p ∈ places columns groups) (k : Str) :
    (Dict.get? (recOf num chunk p) k).join = if k = "col_ix".toList then some (num p.1)
      else if k = "row_group".toList then some (num p.2) else told (chunk p.1 p.2) k := by
  obtain ⟨h1, h2⟩ := mem_places.1 hp
  obtain ⟨s, hs, hn⟩ := ok.stats p.1 h1 p.2 h2
  unfold recOf
  rw [Dict.get?_set]
  by_cases e1 : k = "col_ix".toList
  · simp [e1]
  rw [if_neg (Ne.symm e1), if_neg e1, Dict.get?_set]
  by_cases e2 : k = "row_group".toList
  · simp [e2]
  rw [if_neg (Ne.symm e2), if_neg e2, hs, Option.getD_some, Dict.get?_update _ _ hn, told, hs, Option.bind_some]
  cases Dict.get? s k <;> simp

/-- the names of the columns of the frame -/
def recNames (num : Nat → V) (columns groups : Nat) (chunk : Nat → Nat → Chunk V) : List Str :=
  unionLabels (((places columns groups).map (recOf num chunk)).map Dict.keys)

theorem recNames_nodup (ok : FileOK columns groups chunk path) : (recNames num columns groups chunk).Nodup := by
  refine unionLabels_nodup _ fun i hi => ?_
  obtain ⟨r, hr, rfl⟩ := List.mem_map.1 hi
  obtain ⟨p, hp, rfl⟩ := List.mem_map.1 hr
  exact (recOf_keys ok hp).1

theorem mem_recNames (ok : FileOK columns groups chunk path) (k : Str) : k ∈ recNames num columns groups chunk ↔
    k = "row_group".toList ∨ k = "col_ix".toList ∨ ∃ c < columns, ∃ g < groups, Tells (chunk c g) k := by
  unfold recNames
  rw [unionLabels_mem]
  have h0 : ((0, 0) : Nat × Nat) ∈ places columns groups := mem_places.2 ⟨ok.columns_pos, ok.groups_pos⟩
  constructor
  · rintro ⟨i, hi, hk⟩
    obtain ⟨r, hr, rfl⟩ := List.mem_map.1 hi
    obtain ⟨p, hp, rfl⟩ := List.mem_map.1 hr
    rcases ((recOf_keys ok hp).2 k).1 hk with h | h | h
    · exact .inl h
    · exact .inr (.inl h)
    · exact .inr (.inr ⟨p.1, (mem_places.1 hp).1, p.2, (mem_places.1 hp).2, h⟩)
  · rintro (h | h | ⟨c, hc, g, hg, h⟩)
    · exact ⟨_, List.mem_map.2 ⟨_, List.mem_map.2 ⟨_, h0, rfl⟩, rfl⟩, ((recOf_keys ok h0).2 k).2 (.inl h)⟩
    · exact ⟨_, List.mem_map.2 ⟨_, List.mem_map.2 ⟨_, h0, rfl⟩, rfl⟩, ((recOf_keys ok h0).2 k).2 (.inr (.inl h))⟩
    · have hp : (c, g) ∈ places columns groups := mem_places.2 ⟨hc, hg⟩
      exact ⟨_, List.mem_map.2 ⟨_, List.mem_map.2 ⟨_, hp, rfl⟩, rfl⟩, ((recOf_keys ok hp).2 k).2 (.inr (.inr h))⟩

/-- a cell of the frame -/
def recCell (num : Nat → V) (chunk : Nat → Nat → Chunk V) (k : Str) (p : Nat × Nat) : Option V :=
  (Dict.get? (recOf num chunk p) k).join

theorem told_tells {c : Chunk V} {k : Str} {x : V} (h : told c k = some x) : Tells c k := by
  unfold told at h
  cases e : (c.statistics.bind fun s => Dict.get? s k) with
  | some y =>
    obtain ⟨s, hs, hg⟩ := Option.bind_eq_some_iff.1 e
    exact .inr ⟨s, hs, Dict.get?_isSome.1 (by rw [hg]; rfl)⟩
  | none =>
    rw [e] at h
    obtain ⟨y, hy⟩ : ∃ y, Dict.get? c.fields k = some y := by
      cases e2 : Dict.get? c.fields k with
      | none => simp [e2] at h
      | some y => exact ⟨y, rfl⟩
    exact .inl (Dict.get?_isSome.1 (by rw [hy]; rfl))

theorem frame_eq : recordFrame ((places columns groups).map (recOf num chunk)) =
    ⟨(List.range (places columns groups).length).map natStr,
      (recNames num columns groups chunk).map fun k => (k, (places columns groups).map (recCell num chunk k))⟩ := by
  simp only [recordFrame, List.length_map, recNames, List.map_map]
  rfl

theorem cell_told (ok : FileOK columns groups chunk path) {p : Nat × Nat} (hp : p ∈ places columns groups) {k : Str}
    (h1 : k ≠ "col_ix".toList) (h2 : k ≠ "row_group".toList) : recCell num chunk k p = told (chunk p.1 p.2) k := by
  rw [recCell, recOf_get ok hp, if_neg h1, if_neg h2]

theorem paths_eq (ok : FileOK columns groups chunk path) :
    (places columns groups).map (recCell num chunk "path_in_schema".toList) = (places columns groups).map fun p => some (path p.1) := by
  refine List.map_congr_left fun p hp => ?_
  rw [cell_told ok hp (by decide) (by decide)]
  exact ok.paths _ (mem_places.1 hp).1 _ (mem_places.1 hp).2

theorem distinct_paths [DecidableEq V] (ok : FileOK columns groups chunk path) :
    select ((places columns groups).map fun p => some (path p.1))
      ((duplicated [] ((places columns groups).map fun p => some (path p.1))).map not) = (List.range columns).map fun c => some (path c) := by
  have h : ((places columns groups).map fun p => some (path p.1)) =
      ((List.range columns).map fun c => some (path c)).flatMap fun a => List.replicate groups a := by
    rw [places, List.map_flatMap, List.flatMap_map]
    congr 1
    funext c
    rw [List.map_map]
    exact List.eq_replicate_iff.2 ⟨by simp, by simp⟩
  rw [h]
  refine distinct_runs groups ok.groups_pos _ ?_ [] (by simp)
  refine List.Nodup.map_on ?_ List.nodup_range
  intro a ha b hb e
  exact ok.inj a (by simpa using ha) b (by simpa using hb) (Option.some.inj e)

/-- the frame of the records of one column of the file -/
theorem slice_eq [DecidableEq V] (ok : FileOK columns groups chunk path) {c : Nat} (hc : c < columns) :
    ∃ ix : List Str, ix.length = groups ∧
      (recordFrame ((places columns groups).map (recOf num chunk))).takeRows
        (((places columns groups).map fun p => some (path p.1)).map fun q => metaEq q (some (path c))) =
      ⟨ix, (recNames num columns groups chunk).map fun k => (k, (List.range groups).map fun g => recCell num chunk k (c, g))⟩ := by
  have hmask : (((places columns groups).map fun p => some (path p.1)).map fun q => metaEq q (some (path c))) =
      (places columns groups).map fun p => decide (p.1 = c) := by
    rw [List.map_map]
    refine List.map_congr_left fun p hp => ?_
    simp only [Function.comp_apply, metaEq, Option.isSome_some, Bool.true_and, decide_eq_decide, Option.some.injEq]
    exact ⟨fun e => ok.inj _ (mem_places.1 hp).1 _ hc e, fun e => by rw [e]⟩
  rw [hmask, frame_eq]
  refine ⟨select ((List.range (places columns groups).length).map natStr) ((places columns groups).map fun p => decide (p.1 = c)), ?_, ?_⟩
  · rw [select_length _ _ (by simp)]
    have h1 := select_length (places columns groups) ((places columns groups).map fun p => decide (p.1 = c)) (by simp)
    rw [← h1, select_filter, places_filter hc]
    simp
  · unfold Frame.takeRows
    simp only [List.map_map]
    congr 1
    refine List.map_congr_left fun k _ => ?_
    simp only [Function.comp_apply]
    rw [select_map_map, places_filter hc, List.map_map]
    rfl

theorem extract_eq [DecidableEq V] {N : Type} [DecidableEq N] (f : Frame N (Option V)) (hr : Rectangular f) (hi : f.index ≠ [])
    (hd : (f.columns.map Prod.fst).Nodup) :
    ∃ d, extractConstants Option.isNone metaEq f true false true true = .ok ⟨.inr d, f⟩ ∧ (Dict.keys d).Nodup ∧
      (∀ k ∈ Dict.keys d, ∃ c ∈ f.columns, c.1 = k ∧ Constant c.2) ∧
      ∀ c ∈ f.columns, (Constant c.2 → Dict.get? d c.1 = c.2.head?) ∧ (¬ Constant c.2 → Dict.get? d c.1 = none) := by
  rw [metaEq_eq]
  have hsub : (f.columns.filter fun c => isConstant Option.isNone cellEq true c.2).Sublist f.columns := List.filter_sublist
  obtain ⟨hk, hg⟩ := get?_firstRow (f.columns.filter fun c => isConstant Option.isNone cellEq true c.2)
    (fun c hc he => hi (List.eq_nil_of_length_eq_zero (by rw [← hr c (hsub.subset hc), he]; rfl)))
    (hd.sublist (hsub.map _))
  refine ⟨firstCells (f.columns.filter fun c => isConstant Option.isNone cellEq true c.2), ?_, ?_, ?_, ?_⟩
  · unfold extractConstants
    simp only [if_true, Bool.false_eq_true, if_false]
    rw [select_filter (fun c : N × List (Option V) => isConstant Option.isNone cellEq true c.2)]
    rw [firstRow_ok { f with columns := f.columns.filter fun c => isConstant Option.isNone cellEq true c.2 } hi]
  · rw [hk]; exact hd.sublist (hsub.map _)
  · intro k hkm
    rw [hk] at hkm
    obtain ⟨c, hc, rfl⟩ := List.mem_map.1 hkm
    exact ⟨c, hsub.subset hc, rfl, (isConstant_iff c.2).1 (List.mem_filter.1 hc).2⟩
  · intro c hc
    constructor
    · intro hcon
      exact hg c (List.mem_filter.2 ⟨hc, (isConstant_iff c.2).2 hcon⟩)
    · intro hcon
      rw [Dict.get?_eq_none, hk]
      intro hm
      obtain ⟨c', hc', he⟩ := List.mem_map.1 hm
      have : c' = c := eq_of_fst_eq f.columns hd c' c (hsub.subset hc') hc he
      subst this
      exact hcon ((isConstant_iff c'.2).1 (List.mem_filter.1 hc').2)

/-- the cells of a field in the row groups of a column -/
def fieldCells (num : Nat → V) (groups : Nat) (chunk : Nat → Nat → Chunk V) (c : Nat) (k : Str) : List (Option V) :=
  (List.range groups).map fun g => recCell num chunk k (c, g)

theorem summed_nodup : summedFields.Nodup := by decide

theorem summed_not_brief : ∀ k ∈ summedFields, k ∉ briefMetaFields := by decide

/-- what a row says of a column of the file, under the names the records have -/
def RawRow (num : Nat → V) (sum : List V → V) (groups : Nat) (chunk : Nat → Nat → Chunk V) (extended : Bool) (c : Nat)
    (get : Str → Option V) : Prop :=
  (∀ k ∈ summedFields, get k = some (sum ((fieldCells num groups chunk c k).filterMap id))) ∧
  ∀ k, k ∉ summedFields → (extended = true ∨ k ∈ briefMetaFields) → CommonOf (fieldCells num groups chunk c k) (get k)

theorem fieldCells_unnamed (ok : FileOK columns groups chunk path) {c : Nat} (hc : c < columns) {k : Str}
    (hk : k ∉ recNames num columns groups chunk) : ∀ y ∈ fieldCells num groups chunk c k, y = none := by
  intro y hy
  obtain ⟨g, hg, rfl⟩ := List.mem_map.1 hy
  have hp : (c, g) ∈ places columns groups := mem_places.2 ⟨hc, by simpa using hg⟩
  have : k ∉ Dict.keys (recOf num chunk (c, g)) := by
    intro hm
    refine hk ((mem_recNames ok k).2 ?_)
    rcases ((recOf_keys ok hp).2 k).1 hm with h | h | h
    · exact .inl h
    · exact .inr (.inl h)
    · exact .inr (.inr ⟨c, hc, g, by simpa using hg, h⟩)
  rw [recCell, Dict.get?_eq_none.2 this]
  rfl

theorem summed_named (ok : FileOK columns groups chunk path) {k : Str} (hk : k ∈ summedFields) :
    k ∈ recNames num columns groups chunk := by
  refine (mem_recNames ok k).2 (.inr (.inr ⟨0, ok.columns_pos, 0, ok.groups_pos, ?_⟩))
  have h := ok.sizes 0 ok.columns_pos 0 ok.groups_pos
  have : ∃ n ∈ ["num_values", "total_compressed_size", "total_uncompressed_size"], k = n.toList := by
    revert k; decide
  obtain ⟨n, hn, rfl⟩ := this
  obtain ⟨x, hx⟩ := h n hn
  exact told_tells hx

theorem series_ok [DecidableEq V] (sum : List V → V) (ok : FileOK columns groups chunk path) (extended : Bool)
    {c : Nat} (hc : c < columns) (hx : extended = true → ∀ k ∈ summedFields, ¬ Constant (fieldCells num groups chunk c k)) :
    ∃ s, metaSeries sum (recordFrame ((places columns groups).map (recOf num chunk)))
        ((places columns groups).map fun p => some (path p.1)) extended (some (path c)) = .ok s ∧
      s.index.Nodup ∧ s.cells.length = s.index.length ∧
      (∀ k ∈ s.index, k ∈ recNames num columns groups chunk) ∧
      RawRow num sum groups chunk extended c fun k => (s.at k).join := by
  obtain ⟨ix, hix, hslice⟩ := slice_eq (num := num) ok hc
  have hnd := recNames_nodup (num := num) ok
  have hcols : ∀ k, Dict.get? ((recNames num columns groups chunk).map fun k => (k, fieldCells num groups chunk c k)) k =
      if k ∈ recNames num columns groups chunk then some (fieldCells num groups chunk c k) else none :=
    get?_map_same (fun k => fieldCells num groups chunk c k) _
  have hlen : ∀ k, (fieldCells num groups chunk c k).length = groups := by intro k; simp [fieldCells]
  obtain ⟨d, hd1, hd2, hd3, hd4⟩ := extract_eq
    (⟨ix, (recNames num columns groups chunk).map fun k => (k, fieldCells num groups chunk c k)⟩ : Frame Str (Option V))
    (by intro x hx; obtain ⟨k, _, rfl⟩ := List.mem_map.1 hx; rw [hlen k, hix])
    (by intro he; have := ok.groups_pos; rw [← hix] at this; simp only at he; rw [he] at this; exact absurd this (by simp))
    (by rw [List.map_map]; simpa [Function.comp_def] using hnd)
  have hdk : ∀ k ∈ Dict.keys d, k ∈ recNames num columns groups chunk ∧ Constant (fieldCells num groups chunk c k) := by
    intro k hk
    obtain ⟨x, hx, e, hcon⟩ := hd3 k hk
    obtain ⟨k', hk', rfl⟩ := List.mem_map.1 hx
    cases e
    exact ⟨hk', hcon⟩
  have hsum : sumColumns sum (⟨ix, (recNames num columns groups chunk).map fun k => (k, fieldCells num groups chunk c k)⟩ :
      Frame Str (Option V)) summedFields =
      .ok (summedFields.map fun k => (k, some (sum ((fieldCells num groups chunk c k).filterMap id)))) := by
    unfold sumColumns
    refine mapM_ok _ _ _ fun k hk => ?_
    simp only [hcols, if_pos (summed_named ok hk)]
  -- the constants that are kept
  obtain ⟨e, he1, he2, he3⟩ : ∃ e : Dict Str (Option V),
      (if extended then d else d.filter fun c => decide (c.1 ∈ briefMetaFields)) = e ∧ (Dict.keys e).Sublist (Dict.keys d) ∧
      (∀ k, Dict.get? e k = if extended = true ∨ k ∈ briefMetaFields then Dict.get? d k else none) := by
    refine ⟨_, rfl, ?_, ?_⟩
    · split
      · exact List.Sublist.refl _
      · exact List.filter_sublist.map _
    · intro k
      cases extended
      · simp only [Bool.false_eq_true, if_false, false_or]
        rw [get?_filter_key (fun n => decide (n ∈ briefMetaFields))]
        simp
      · simp
  have hek : ∀ k ∈ Dict.keys e, k ∉ summedFields := by
    intro k hk hs
    have h1 : (Dict.get? e k).isSome := Dict.get?_isSome.2 hk
    rw [he3] at h1
    split at h1
    · rename_i h
      rcases h with h | h
      · exact hx h k hs (hdk k (he2.subset hk)).2
      · exact summed_not_brief k hs h
    · cases h1
  have hkeys : Dict.keys (e ++ summedFields.map fun k => (k, some (sum ((fieldCells num groups chunk c k).filterMap id)))) =
      Dict.keys e ++ summedFields := by
    rw [Dict.keys_append]; simp [Dict.keys, Function.comp_def]
  have hat : ∀ k, (Series.at (⟨[], Dict.keys (e ++ summedFields.map fun k => (k, some (sum ((fieldCells num groups chunk c k).filterMap id)))),
      Dict.values (e ++ summedFields.map fun k => (k, some (sum ((fieldCells num groups chunk c k).filterMap id))))⟩ : Series Str (Option V)) k) =
      (Dict.get? e k).or (if k ∈ summedFields then some (some (sum ((fieldCells num groups chunk c k).filterMap id))) else none) := by
    intro k
    rw [Series.at, get?_zip_keys, get?_append, get?_map_same fun k => some (sum ((fieldCells num groups chunk c k).filterMap id))]
  refine ⟨⟨[], Dict.keys (e ++ summedFields.map fun k => (k, some (sum ((fieldCells num groups chunk c k).filterMap id)))),
    Dict.values (e ++ summedFields.map fun k => (k, some (sum ((fieldCells num groups chunk c k).filterMap id))))⟩, ?_, ?_, ?_, ?_, ?_, ?_⟩
  · unfold metaSeries
    simp only [hslice]
    have hd1' := hd1
    have hsum' := hsum
    simp only [fieldCells] at hd1' hsum'
    simp only [hd1', hsum', he1, fieldCells]
  · rw [hkeys, List.nodup_append]
    refine ⟨hd2.sublist he2, summed_nodup, ?_⟩
    rintro a ha b hb rfl
    exact hek a ha hb
  · simp [Dict.keys, Dict.values]
  · intro k hk
    rw [hkeys] at hk
    rcases List.mem_append.1 hk with hk | hk
    · exact (hdk k (he2.subset hk)).1
    · exact summed_named ok hk
  · intro k hk
    simp only [hat k]
    have : Dict.get? e k = none := Dict.get?_eq_none.2 fun hm => hek k hm hk
    rw [this, if_pos hk]
    rfl
  · intro k hk hext
    simp only [hat k]
    rw [if_neg hk, he3, if_pos hext, Option.or_none]
    by_cases hn : k ∈ recNames num columns groups chunk
    · have h4 := hd4 (k, fieldCells num groups chunk c k) (List.mem_map.2 ⟨k, hn, rfl⟩)
      constructor
      · intro x hne hall
        have hcon : Constant (fieldCells num groups chunk c k) := by
          intro a b ha hb
          have := (hall _ ha).trans (hall _ hb).symm
          exact Option.some.inj this
        rw [h4.1 hcon]
        cases hl : fieldCells num groups chunk c k with
        | nil => exact absurd hl hne
        | cons y t => rw [hl] at hall; simp [hall y (by simp)]
      · intro a b ha hb hab
        rw [h4.2 fun hcon => hab (hcon a b ha hb)]
        rfl
    · have hget : Dict.get? d k = none := Dict.get?_eq_none.2 fun hm => hn (hdk k hm).1
      have hall := fieldCells_unnamed (num := num) ok hc hn
      rw [hget]
      constructor
      · intro x hne hx
        cases hl : fieldCells num groups chunk c k with
        | nil => exact absurd hl hne
        | cons y t =>
          rw [← hx y (by rw [hl]; simp), hall y (by rw [hl]; simp)]
          rfl
      · intro a b ha _ _
        exact absurd (hall _ ha) (by simp)

/-- the rows before columns are renamed -/
theorem rows_ok [DecidableEq V] (sum : List V → V) (hsum1 : ∀ x, sum [x] = x) (ok : FileOK columns groups chunk path) (extended : Bool)
    (hx : groups ≠ 1 → extended = true → ∀ c < columns, ∀ k ∈ summedFields, ¬ Constant (fieldCells num groups chunk c k)) :
    ∃ rows, (if ((places columns groups).map fun p => some (path p.1)).Nodup then
        .ok ((recordFrame ((places columns groups).map (recOf num chunk))).rows.map fun r =>
          ((recordFrame ((places columns groups).map (recOf num chunk))).columns.map Prod.fst).zip r.2)
      else flattenMeta sum (recordFrame ((places columns groups).map (recOf num chunk)))
        ((places columns groups).map fun p => some (path p.1)) extended : Except PyErr (List (Dict Str (Option V)))) = .ok rows ∧
      List.Forall₂ (fun c row => (∀ k ∈ Dict.keys row, k ∈ recNames num columns groups chunk) ∧
        RawRow num sum groups chunk extended c fun k => (Dict.get? row k).join) (List.range columns) rows := by
  split
  · rename_i hnd
    have hg : groups = 1 := by
      have := ok.groups_pos
      have := ok.columns_pos
      rcases Nat.lt_or_ge groups 2 with h | h
      · omega
      · have := List.inj_on_of_nodup_map hnd (mem_places (p := (0, 0)).2 ⟨by omega, by omega⟩)
          (mem_places (p := (0, 1)).2 ⟨by omega, by omega⟩) rfl
        simp at this
    subst hg
    have hpl : places columns 1 = (List.range columns).map fun c => (c, 0) := by
      rw [places]
      induction List.range columns with
      | nil => rfl
      | cons a t ih => rw [List.flatMap_cons, ih]; simp
    refine ⟨_, rfl, ?_⟩
    rw [frame_eq]
    have hrows : ∀ c < columns, (⟨(List.range (places columns 1).length).map natStr,
        (recNames num columns 1 chunk).map fun k => (k, (places columns 1).map (recCell num chunk k))⟩ : Frame Str (Option V)).row c =
        (recNames num columns 1 chunk).map fun k => recCell num chunk k (c, 0) := by
      intro c hc
      unfold Frame.row
      simp only [List.filterMap_map]
      rw [← List.filterMap_eq_map]
      refine List.filterMap_congr fun k _ => ?_
      simp [hpl, hc]
    have hall : ∀ c < columns, ∀ row, row = (recNames num columns 1 chunk).zip
        ((recNames num columns 1 chunk).map fun k => recCell num chunk k (c, 0)) →
        (∀ k ∈ Dict.keys row, k ∈ recNames num columns 1 chunk) ∧ RawRow num sum 1 chunk extended c fun k => (Dict.get? row k).join := by
      intro c hc row hrow
      have hz : row = (recNames num columns 1 chunk).map fun k => (k, recCell num chunk k (c, 0)) := by
        rw [hrow]
        generalize recNames num columns 1 chunk = u
        induction u with
        | nil => rfl
        | cons a u ih => simp [ih]
      have hcell : ∀ k, (Dict.get? row k).join = recCell num chunk k (c, 0) := by
        intro k
        rw [hz, get?_map_same fun k => recCell num chunk k (c, 0)]
        split
        · rfl
        · rename_i hn
          exact (fieldCells_unnamed ok hc hn _ (by simp [fieldCells])).symm
      refine ⟨?_, ?_, ?_⟩
      · intro k hk
        rw [hz] at hk
        simpa [Dict.keys, Function.comp_def] using hk
      · intro k hk
        simp only [hcell]
        have : ∃ x, recCell num chunk k (c, 0) = some x := by
          have : ∃ n ∈ ["num_values", "total_compressed_size", "total_uncompressed_size"], k = n.toList := by
            revert k; decide
          obtain ⟨n, hn, rfl⟩ := this
          obtain ⟨x, hx⟩ := ok.sizes c hc 0 (by omega) n hn
          refine ⟨x, ?_⟩
          rw [cell_told ok (mem_places.2 ⟨hc, by simp⟩)]
          · exact hx
          · simp only [List.mem_cons, List.not_mem_nil, or_false] at hn; rcases hn with rfl | rfl | rfl <;> decide
          · simp only [List.mem_cons, List.not_mem_nil, or_false] at hn; rcases hn with rfl | rfl | rfl <;> decide
        obtain ⟨x, hx⟩ := this
        simp [fieldCells, hx, hsum1]
      · intro k _ _
        simp only [hcell]
        constructor
        · intro x _ h
          exact h _ (by simp [fieldCells])
        · intro a b ha hb hab
          simp only [fieldCells, List.range_one, List.map_cons, List.map_nil, List.mem_singleton] at ha hb
          rw [← hb] at ha
          exact absurd (Option.some.inj ha) hab
    rw [List.forall₂_iff_get]
    refine ⟨by simp [Frame.rows, hpl], ?_⟩
    intro i h1 h2
    have hi : i < columns := by simpa using h1
    simp only [List.get_eq_getElem, List.getElem_range]
    refine hall i hi _ ?_
    simp only [Frame.rows, List.getElem_map, List.getElem_mapIdx, List.map_map]
    rw [hrows i hi]
    congr 1
    simp [Function.comp_def]
  · rename_i hnd
    have hg1 : groups ≠ 1 := by
      rintro rfl
      refine hnd ?_
      have hpl : (places columns 1).map (fun p => some (path p.1)) = (List.range columns).map fun c => some (path c) := by
        rw [places]
        induction List.range columns with
        | nil => rfl
        | cons a t ih => rw [List.flatMap_cons, List.map_append, ih]; simp
      rw [hpl]
      refine List.Nodup.map_on ?_ List.nodup_range
      intro a ha b hb e
      exact ok.inj a (by simpa using ha) b (by simpa using hb) (Option.some.inj e)
    have hser := fun c (hc : c < columns) => series_ok sum ok extended hc fun he => hx hg1 he c hc
    have hall : ∀ l : List Nat, (∀ c ∈ l, c < columns) → ∃ ss, (l.map fun c => some (path c)).mapM (metaSeries sum
        (recordFrame ((places columns groups).map (recOf num chunk))) ((places columns groups).map fun p => some (path p.1)) extended) =
          .ok ss ∧ List.Forall₂ (fun c s => s.index.Nodup ∧ s.cells.length = s.index.length ∧
            (∀ k ∈ s.index, k ∈ recNames num columns groups chunk) ∧
            RawRow num sum groups chunk extended c fun k => (Series.at s k).join) l ss := by
      intro l
      induction l with
      | nil => intro _; exact ⟨[], rfl, .nil⟩
      | cons c t ih =>
        intro hl
        obtain ⟨s, hs, h1⟩ := hser c (hl c (by simp))
        obtain ⟨ss, hss, h2⟩ := ih fun c hc => hl c (by simp [hc])
        refine ⟨s :: ss, ?_, .cons h1 h2⟩
        rw [List.map_cons, List.mapM_cons, hs, hss]
        rfl
    obtain ⟨ss, hss, hfa⟩ := hall (List.range columns) (by simp)
    have hne : ss ≠ [] := by
      rintro rfl
      have := hfa.length_eq
      have := ok.columns_pos
      simp at *
      omega
    obtain ⟨g, hg, hgi, hgr⟩ := concat_rows ss hne
      (fun s hs => by
        obtain ⟨c, _, h⟩ := forall₂_mem_right hfa hs
        exact h.1)
      (fun s hs => by
        obtain ⟨c, _, h⟩ := forall₂_mem_right hfa hs
        exact h.2.1)
    refine ⟨g.columns.map fun c => g.index.zip c.2, ?_, ?_⟩
    · unfold flattenMeta
      rw [distinct_paths ok, hss]
      simp only [hg]
    · rw [List.forall₂_iff_get] at hfa hgr ⊢
      refine ⟨hfa.1.trans hgr.1, ?_⟩
      intro i h1 h2
      have h3 : i < ss.length := by rw [← hfa.1]; exact h1
      obtain ⟨_, _, h6, h7⟩ := hfa.2 i h1 h3
      have h8 := hgr.2 i h3 h2
      refine ⟨?_, ?_⟩
      · intro k hk
        have hm : k ∈ g.index := by
          simp only [List.get_eq_getElem, List.getElem_map, Dict.keys] at hk
          obtain ⟨p, hp, rfl⟩ := List.mem_map.1 hk
          exact (List.of_mem_zip hp).1
        obtain ⟨s, hs, hks⟩ := hgi k hm
        obtain ⟨j, hj, rfl⟩ := List.mem_iff_getElem.1 hs
        exact (hfa.2 j (by rw [hfa.1]; exact hj) hj).2.2.1 k hks
      · simpa only [h8] using h7

end file
end Verif.Lemmas
