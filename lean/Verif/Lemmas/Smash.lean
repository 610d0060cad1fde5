import Verif.Spec.Smash
import Verif.Model.Smash
/-!
# Lemmas for smash, unpack and unpack_column
-/
namespace Verif.Lemmas
open Verif Verif.Model Verif.Spec

variable {C : Type}

theorem underscored_cons_cons (x y : Str) (t : List Str) : underscored (x :: y :: t) = x ++ '_' :: underscored (y :: t) := by
  simp [underscored, List.intercalate]

theorem reduceNames_eq (l : List Str) : reduceNames l = underscored l := by
  have key : ∀ (t : List Str) (x : Str), t.foldl (fun a y => a ++ ['_'] ++ y) x = underscored (x :: t) := by
    intro t
    induction t with
    | nil => intro x; simp [underscored, List.intercalate]
    | cons y t ih =>
      intro x
      rw [List.foldl_cons, ih, underscored_cons_cons]
      cases t with
      | nil => simp [underscored, List.intercalate]
      | cons z t => rw [underscored_cons_cons, underscored_cons_cons]; simp
  cases l with
  | nil => rfl
  | cons x t => exact key t x

/-- up to the first underscore -/
theorem split_first {a b x y : Str} (ha : '_' ∉ a) (hb : '_' ∉ b) (h : a ++ '_' :: x = b ++ '_' :: y) : a = b ∧ x = y := by
  induction a generalizing b with
  | nil =>
    cases b with
    | nil => exact ⟨rfl, by simpa using h⟩
    | cons c b => simp at h; simp [← h.1] at hb
  | cons c a ih =>
    cases b with
    | nil => simp at h; simp [h.1] at ha
    | cons d b =>
      simp only [List.cons_append, List.cons.injEq] at h
      obtain ⟨h1, h2⟩ := ih (fun hc => ha (List.mem_cons_of_mem _ hc)) (fun hc => hb (List.mem_cons_of_mem _ hc)) h.2
      exact ⟨by rw [h.1, h1], h2⟩

theorem underscored_inj (l l' : List Str) (n n' : Str) (hl : l.length = l'.length) (h : ∀ s ∈ l, '_' ∉ s) (h' : ∀ s ∈ l', '_' ∉ s)
    (e : underscored (l ++ [n]) = underscored (l' ++ [n'])) : l = l' ∧ n = n' := by
  induction l generalizing l' with
  | nil =>
    obtain rfl := List.length_eq_zero_iff.1 hl.symm
    simpa [underscored, List.intercalate] using e
  | cons x t ih =>
    cases l' with
    | nil => simp at hl
    | cons y u =>
      have e1 : x ++ '_' :: underscored (t ++ [n]) = y ++ '_' :: underscored (u ++ [n']) := by
        cases t with
        | nil =>
          obtain rfl : u = [] := List.length_eq_zero_iff.1 (by simpa using hl.symm)
          simpa [underscored_cons_cons] using e
        | cons a t =>
          cases u with
          | nil => simp at hl
          | cons b u => simpa [underscored_cons_cons] using e
      obtain ⟨e2, e3⟩ := split_first (h x (by simp)) (h' y (by simp)) e1
      obtain ⟨e4, e5⟩ := ih u (by simpa using hl) (fun s hs => h s (by simp [hs])) (fun s hs => h' s (by simp [hs])) e3
      exact ⟨by rw [e2, e4], e5⟩

theorem mapM_get? {d : Dict Str (List C)} {names : List Str} {ids : List (List C)} (h : names.mapM (Dict.get? d) = some ids) :
    List.Forall₂ (fun n c => (n, c) ∈ d) names ids := by
  induction names generalizing ids with
  | nil => simp at h; subst h; exact .nil
  | cons n t ih =>
    simp only [List.mapM_cons] at h
    cases h1 : Dict.get? d n with
    | none => simp [h1] at h
    | some c =>
      cases h2 : t.mapM (Dict.get? d) with
      | none => simp [h1, h2] at h
      | some r =>
        simp [h1, h2] at h
        subst h
        exact .cons (Dict.mem_of_get? h1) (ih h2)

theorem mapM_get?_none {d : Dict Str (List C)} {names : List Str} :
    names.mapM (Dict.get? d) = none ↔ ∃ n ∈ names, n ∉ d.map Prod.fst := by
  induction names with
  | nil => simp
  | cons n t ih =>
    simp only [List.mapM_cons]
    cases h1 : Dict.get? d n with
    | none =>
      have : n ∉ d.map Prod.fst := Dict.get?_eq_none.1 h1
      simp only [Option.bind_eq_bind, Option.bind_none, true_iff]
      exact ⟨n, by simp, this⟩
    | some c =>
      have hm : n ∈ d.map Prod.fst := List.mem_map.2 ⟨_, Dict.mem_of_get? h1, rfl⟩
      cases h2 : t.mapM (Dict.get? d) with
      | none =>
        obtain ⟨m, hm1, hm2⟩ := ih.1 h2
        simp only [Option.bind_eq_bind, Option.bind_none, Option.bind_some, true_iff]
        exact ⟨m, by simp [hm1], hm2⟩
      | some r =>
        have : ¬ ∃ n ∈ t, n ∉ d.map Prod.fst := fun hc => by rw [ih.2 hc] at h2; cases h2
        simp only [Option.bind_eq_bind, Option.bind_some, Option.pure_def, reduceCtorEq, List.mem_cons, false_iff]
        rintro ⟨m, rfl | hm1, hm2⟩
        · exact hm2 hm
        · exact this ⟨m, hm1, hm2⟩

/-- the cells of a row in these columns -/
def rowCells (ids : List (List C)) (i : Nat) : List C := ids.filterMap fun c => c[i]?

theorem rowCells_spec {f : Frame Str C} {names : List Str} {ids : List (List C)} (hr : Frame.Rect f)
    (h : List.Forall₂ (fun n c => (n, c) ∈ f.columns) names ids) {i : Nat} (hi : i < f.index.length) :
    CellsAt f names i (rowCells ids i) := by
  unfold CellsAt rowCells
  induction h with
  | nil => exact .nil
  | @cons n c names ids h1 h2 ih =>
    have hlen : i < c.length := by rw [hr _ h1]; exact hi
    rw [List.filterMap_cons, List.getElem?_eq_getElem hlen]
    exact .cons ⟨c, h1, List.getElem?_eq_getElem hlen⟩ ih

theorem cellsAt_unique {f : Frame Str C} (hn : (f.columns.map Prod.fst).Nodup) {names : List Str} {i : Nat} {a b : List C}
    (ha : CellsAt f names i a) (hb : CellsAt f names i b) : a = b := by
  unfold CellsAt at ha hb
  induction ha generalizing b with
  | nil => cases hb; rfl
  | @cons n x names a h1 h2 ih =>
    cases hb with
    | cons h3 h4 =>
      obtain ⟨c, hc, ex⟩ := h1
      obtain ⟨d, hd, ey⟩ := h3
      have h5 := Dict.get?_of_mem (d := f.columns) hn hc
      rw [Dict.get?_of_mem (d := f.columns) hn hd] at h5
      cases h5
      rw [ex] at ey
      cases ey
      rw [ih h4]

theorem rowKept_iff {f : Frame Str C} {names : List Str} {ids : List (List C)} (hr : Frame.Rect f)
    (hn : (f.columns.map Prod.fst).Nodup) (h : List.Forall₂ (fun n c => (n, c) ∈ f.columns) names ids) (isin : Option (C → Bool))
    {i : Nat} (hi : i < f.index.length) : rowKept isin ids i = true ↔ AskedFor f names isin i := by
  have hc := rowCells_spec hr h hi
  have hall : ∀ p : C → Bool, (ids.all fun c => (c[i]?).all p) = true ↔ ∀ x ∈ rowCells ids i, p x = true := by
    intro p
    simp only [List.all_eq_true, rowCells, List.mem_filterMap]
    constructor
    · rintro h1 x ⟨c, hc, ex⟩
      have := h1 c hc
      rw [ex] at this
      simpa using this
    · intro h1 c hc
      cases ex : c[i]? with
      | none => rfl
      | some x => simpa using h1 x ⟨c, hc, ex⟩
  unfold rowKept AskedFor
  cases isin with
  | none => simp only [true_iff]; exact ⟨_, hc, by simp⟩
  | some p =>
    rw [hall]
    constructor
    · intro h1; exact ⟨_, hc, fun q hq => by cases hq; exact h1⟩
    · rintro ⟨ids', h1, h2⟩; rw [cellsAt_unique hn hc h1]; exact h2 p rfl

/-- a place in lists put one after another that are equally long -/
theorem getElem?_flatMap {α β : Type} (g : α → List β) (R : Nat) (l : List α) (hg : ∀ a ∈ l, (g a).length = R) (j k : Nat) (a : α)
    (hj : l[j]? = some a) (hk : k < R) : (l.flatMap g)[j * R + k]? = (g a)[k]? := by
  induction l generalizing j with
  | nil => simp at hj
  | cons b t ih =>
    rw [List.flatMap_cons]
    have hb := hg b (by simp)
    cases j with
    | zero =>
      simp at hj; subst hj
      rw [Nat.zero_mul, Nat.zero_add, List.getElem?_append_left (by omega)]
    | succ j =>
      rw [List.getElem?_append_right (by rw [hb, Nat.succ_mul]; omega), hb]
      rw [show (j + 1) * R + k - R = j * R + k by rw [Nat.succ_mul]; omega]
      exact ih (fun a ha => hg a (by simp [ha])) j (by simpa using hj)

theorem length_flatMap_eq {α β : Type} (g : α → List β) (R : Nat) (l : List α) (hg : ∀ a ∈ l, (g a).length = R) :
    (l.flatMap g).length = l.length * R := by
  induction l with
  | nil => simp
  | cons b t ih =>
    rw [List.flatMap_cons, List.length_append, hg b (by simp), ih fun a ha => hg a (by simp [ha])]
    simp [Nat.succ_mul, Nat.add_comm]

theorem filterMap_total {α β : Type} (g : α → Option β) (l : List α) (h : ∀ a ∈ l, (g a).isSome) (k : Nat) :
    (l.filterMap g)[k]? = (l[k]?).bind g ∧ (l.filterMap g).length = l.length := by
  induction l generalizing k with
  | nil => simp
  | cons a t ih =>
    obtain ⟨b, hb⟩ := Option.isSome_iff_exists.1 (h a (by simp))
    have ht : ∀ k, _ := fun k => ih (fun a ha => h a (by simp [ha])) k
    rw [List.filterMap_cons, hb]
    refine ⟨?_, by simp [(ht 0).2]⟩
    cases k with
    | zero => simp [hb]
    | succ k => simpa using (ht k).1

end Verif.Lemmas
