import Verif.Model.Gmap
import Mathlib.Data.List.Forall2
/-!
# C123: `gmap`; C124: `get_from_all`
-/
namespace Verif.Props
open Verif Verif.Model

/-- `row` holds the `i`-th element of every one of the iterables -/
def RowAt {α : Type} (its : List (List α)) (i : Nat) (row : List α) : Prop :=
  List.Forall₂ (fun (it : List α) x => it[i]? = some x) its row

/-- what is left when the first iterable with at most `n` elements ends: all but the first `n` elements of it and of
those after it, all but `n + 1` of those before it -/
def leftAfter {α : Type} (n : Nat) : List (List α) → List (List α)
  | [] => []
  | it :: r => if it.length ≤ n then it.drop n :: r.map (List.drop n) else it.drop (n + 1) :: leftAfter n r

theorem pullAll_row {α : Type} {its : List (List α)} {row : List α} (h : RowAt its 0 row) :
    pullAll its = (some row, its.map (List.drop 1)) := by
  induction h with
  | nil => rfl
  | cons hx _ ih =>
    rename_i it z r' row' _
    cases it with
    | nil => simp at hx
    | cons w ws =>
      simp only [List.getElem?_cons_zero, Option.some.injEq] at hx
      subst hx
      simp [pullAll, ih]

theorem map_drop_zero {α : Type} (l : List (List α)) : l.map (List.drop 0) = l := by
  conv_rhs => rw [← List.map_id l]
  rfl

theorem pullAll_empty {α : Type} {its : List (List α)} (h : [] ∈ its) : pullAll its = (none, leftAfter 0 its) := by
  induction its with
  | nil => cases h
  | cons it r ih =>
    cases it with
    | nil => simp [pullAll, leftAfter, map_drop_zero]
    | cons x xs =>
      have hm : [] ∈ r := by simpa using h
      simp [pullAll, leftAfter, ih hm]

theorem leftAfter_drop {α : Type} (n : Nat) (its : List (List α)) (h : ∀ it ∈ its, 0 < it.length) :
    leftAfter n (its.map (List.drop 1)) = leftAfter (n + 1) its := by
  induction its with
  | nil => rfl
  | cons it r ih =>
    have h0 := h it (by simp)
    have hd : ∀ (k : Nat) (l : List α), (l.drop 1).drop k = l.drop (k + 1) := by
      intro k l; rw [List.drop_drop, Nat.add_comm]
    have e1 : (it.length - 1 ≤ n) = (it.length ≤ n + 1) := propext (by omega)
    have e2 : (List.drop n ∘ List.drop 1 : List α → List α) = List.drop (n + 1) := funext fun l => hd n l
    simp only [List.map_cons, leftAfter, List.length_drop, ih fun s hs => h s (by simp [hs]), hd, List.map_map, e1, e2]

theorem rowAt_drop {α : Type} {its : List (List α)} {i : Nat} {row : List α} (h : RowAt its (i + 1) row) :
    RowAt (its.map (List.drop 1)) i row := by
  induction h with
  | nil => exact .nil
  | cons hx _ ih => exact .cons (by rw [List.getElem?_drop, Nat.add_comm]; exact hx) ih

/-- one round of `gmap`, where the iterables have another element -/
theorem gmap_step {α β : Type} (f : List α → Except PyErr β) {its : List (List α)} (hne : its ≠ []) {row : List α}
    (h : RowAt its 0 row) : gmap f its = match f row with
      | .error .stopIteration => ⟨.ok [], [row], its.map (List.drop 1)⟩
      | .error e => ⟨.error e, [row], its.map (List.drop 1)⟩
      | .ok y => ⟨(gmap f (its.map (List.drop 1))).result.map (y :: ·), row :: (gmap f (its.map (List.drop 1))).calls,
          (gmap f (its.map (List.drop 1))).left⟩ := by
  cases h with
  | nil => exact absurd rfl hne
  | cons hx hr =>
    rename_i first x rest tl
    cases first with
    | nil => simp at hx
    | cons x' xs =>
      simp only [List.getElem?_cons_zero, Option.some.injEq] at hx
      subst hx
      simp only [gmap, List.map_cons, List.drop_one, List.tail_cons, mapLoop, pullAll_row hr]
      cases f (x' :: tl) with
      | ok y => rfl
      | error e => cases e <;> rfl

/-- `gmap` where an iterable is exhausted -/
theorem gmap_end {α β : Type} (f : List α → Except PyErr β) {its : List (List α)} (h : [] ∈ its) :
    gmap f its = ⟨.ok [], [], leftAfter 0 its⟩ := by
  cases its with
  | nil => cases h
  | cons first rest =>
    cases first with
    | nil => simp [gmap, mapLoop, leftAfter, map_drop_zero]
    | cons x xs =>
      have hm : [] ∈ rest := by simpa using h
      simp [gmap, mapLoop, leftAfter, pullAll_empty hm]

/-- **C123**. `gmap(func, *iterables)`, where `n` is the length of the shortest iterable: if `func` returns for each of the
first `n` rows of elements, the result is the tuple of what it returns, in order, `func` having been called once for
each; of an iterator before the first shortest one, one element more than that is gone. -/
theorem C123_gmap {α β : Type} (f : List α → Except PyErr β) (n : Nat) (its : List (List α))
    (hall : ∀ it ∈ its, n ≤ it.length) (hsome : ∃ it ∈ its, it.length = n) (rows : List (List α)) (hlen : rows.length = n)
    (hrows : ∀ (i : Nat) row, rows[i]? = some row → RowAt its i row) (ys : List β)
    (hF : List.Forall₂ (fun row y => f row = .ok y) rows ys) :
    gmap f its = ⟨.ok ys, rows, leftAfter n its⟩ := by
  induction n generalizing its rows ys with
  | zero =>
    have : rows = [] := List.length_eq_zero_iff.1 hlen
    subst this
    cases hF
    obtain ⟨it, hit, hl⟩ := hsome
    rw [List.length_eq_zero_iff] at hl
    subst hl
    exact gmap_end f hit
  | succ n ih =>
    cases rows with
    | nil => simp at hlen
    | cons row rows =>
      cases hF with
      | cons hy hF =>
        rename_i y ys
        have hne : its ≠ [] := by rintro rfl; obtain ⟨_, h, _⟩ := hsome; cases h
        have hsub := ih (its.map (List.drop 1))
          (by
            intro it hit
            obtain ⟨it', hit', rfl⟩ := List.mem_map.1 hit
            have := hall it' hit'
            simp; omega)
          (by
            obtain ⟨it, hit, hl⟩ := hsome
            exact ⟨it.drop 1, List.mem_map.2 ⟨it, hit, rfl⟩, by simp; omega⟩)
          rows (by simpa using hlen) (fun i row' hi => rowAt_drop (hrows (i + 1) row' (by simpa using hi))) ys hF
        rw [gmap_step f hne (hrows 0 row rfl), hy, hsub,
          leftAfter_drop n its fun it hit => by have := hall it hit; omega]
        rfl

/-- **C123** (exceptions). If `func` raises for a row, but not `StopIteration`, having returned for those before, `gmap` raises
that, and `func` is not called again; every iterator is left after that row. -/
theorem C123_raises {α β : Type} (f : List α → Except PyErr β) (its : List (List α)) (hne : its ≠ [])
    (rows : List (List α)) (row : List α) (e : PyErr)
    (hrows : ∀ (i : Nat) r, (rows ++ [row])[i]? = some r → RowAt its i r)
    (hok : ∀ r ∈ rows, ∃ y, f r = .ok y) (he : f row = .error e)
    (hs : e ≠ .stopIteration) :
    gmap f its = ⟨.error e, rows ++ [row], its.map (List.drop (rows.length + 1))⟩ := by
  induction rows generalizing its with
  | nil =>
    rw [gmap_step f hne (hrows 0 row rfl), he]
    cases e with
    | stopIteration => exact absurd rfl hs
    | _ => rfl
  | cons r rows ih =>
    obtain ⟨y, hy⟩ := hok r (by simp)
    have hsub := ih (its.map (List.drop 1)) (by simpa using hne)
      (fun i r' hi => rowAt_drop (hrows (i + 1) r' (by simpa using hi))) fun r' hr' => hok r' (by simp [hr'])
    rw [gmap_step f hne (hrows 0 r rfl), hy, hsub]
    have e2 : (List.drop (rows.length + 1) ∘ List.drop 1 : List α → List α) = List.drop (rows.length + 1 + 1) :=
      funext fun l => by rw [Function.comp, List.drop_drop, Nat.add_comm]
    simp only [Except.map, List.cons_append, List.map_map, e2, List.length_cons]

/-- **C123** (`StopIteration`). If `func` raises `StopIteration` for a row, having returned for those before, nothing is raised:
the result is the tuple of what it returned for the rows before, and `func` is not called again; every iterator is left after
that row. -/
theorem C123_stop_iteration {α β : Type} (f : List α → Except PyErr β) (its : List (List α)) (hne : its ≠ [])
    (rows : List (List α)) (row : List α)
    (hrows : ∀ (i : Nat) r, (rows ++ [row])[i]? = some r → RowAt its i r) (ys : List β)
    (hF : List.Forall₂ (fun r y => f r = .ok y) rows ys) (he : f row = .error .stopIteration) :
    gmap f its = ⟨.ok ys, rows ++ [row], its.map (List.drop (rows.length + 1))⟩ := by
  induction rows generalizing its ys with
  | nil =>
    cases hF
    rw [gmap_step f hne (hrows 0 row rfl), he]
    rfl
  | cons r rows ih =>
    cases hF with
    | cons hy hF =>
      rename_i y ys
      have hsub := ih (its.map (List.drop 1)) (by simpa using hne)
        (fun i r' hi => rowAt_drop (hrows (i + 1) r' (by simpa using hi))) ys hF
      rw [gmap_step f hne (hrows 0 r rfl), hy, hsub]
      have e2 : (List.drop (rows.length + 1) ∘ List.drop 1 : List α → List α) = List.drop (rows.length + 1 + 1) :=
        funext fun l => by rw [Function.comp, List.drop_drop, Nat.add_comm]
      simp only [Except.map, List.cons_append, List.map_map, e2, List.length_cons]

/-- the second call raises `StopIteration`: the third element is never looked at -/
example : gmap (β := Nat) (fun r => if r.sum = 2 then .error .stopIteration else .ok r.sum) [[1, 2, 3]] =
    ⟨.ok [1], [[1], [2]], [[3]]⟩ := by rfl

/-- **C123**: `gmap(func)` without iterables raises `TypeError` -/
theorem C123_no_iterables {α β : Type} (f : List α → Except PyErr β) : (gmap f []).result = .error .typeError := rfl

/-- three, two and three elements: the first iterator has lost its third -/
example : gmap (β := Nat) (fun r => .ok r.sum) [[1, 2, 3], [10, 20], [100, 200, 300]] =
    ⟨.ok [111, 222], [[1, 10, 100], [2, 20, 200]], [[], [], [300]]⟩ := by rfl

/-- the hypotheses of `C123_gmap` are met there -/
example : gmap (β := Nat) (fun r => .ok r.sum) [[1, 2, 3], [10, 20], [100, 200, 300]] =
    ⟨.ok [111, 222], [[1, 10, 100], [2, 20, 200]], leftAfter 2 [[1, 2, 3], [10, 20], [100, 200, 300]]⟩ := by
  refine C123_gmap _ 2 _ (by decide) (by decide) _ rfl ?_ _ (.cons rfl (.cons rfl .nil))
  intro i row hi
  match i with
  | 0 => cases hi; exact .cons rfl (.cons rfl (.cons rfl .nil))
  | 1 => cases hi; exact .cons rfl (.cons rfl (.cons rfl .nil))
  | i + 2 => simp at hi

/-- the second call raises -/
example : gmap (β := Nat) (fun r => if r.sum = 222 then .error .valueError else .ok r.sum) [[1, 2, 3], [10, 20], [100, 200, 300]] =
    ⟨.error .valueError, [[1, 10, 100], [2, 20, 200]], [[3], [], [300]]⟩ := by rfl

/-- **C123**: `triggerize(g)(state)` hands on the state it is given whenever `g()` returns, and raises what `g()` raises -/
theorem C123_triggerize {σ α : Type} (g : Except PyErr α) (s : σ) :
    (∀ x, g = .ok x → triggerize g s = .ok s) ∧ ∀ e, g = .error e → triggerize g s = .error e := by
  refine ⟨?_, ?_⟩ <;> (intro x h; subst h; rfl)

section
variable {A : Type} [DecidableEq A]

/-- **C124**. `get_from_all(key, mappings, default)` gives for each mapping, in order, its value under the key, or the
default where the key is missing; from a mapping of mappings it takes the values. -/
theorem C124_get_from_all (key : A) (default : Val A) (ms : List (Tag × List (A × Val A))) :
    let out := ms.map fun m => match Dict.get? m.2 key with
      | some v => v
      | none => default
    getFromAll key (.seq (ms.map fun m => .map m.1 m.2)) default = .ok out ∧
    ∀ ks : List A, ks.length = ms.length →
      getFromAll key (.mapping (ks.zip (ms.map fun m => .map m.1 m.2))) default = .ok out := by
  have h : (ms.map fun m => Val.map m.1 m.2).mapM (getOr key default) = .ok (ms.map fun m => match Dict.get? m.2 key with
      | some v => v
      | none => default) := by
    induction ms with
    | nil => rfl
    | cons m ms ih =>
      simp only [List.map_cons, List.mapM_cons, getOr, ih, bind, Except.bind, pure, Except.pure]
      cases Dict.get? m.2 key <;> rfl
  refine ⟨h, fun ks hk => ?_⟩
  simp only [getFromAll]
  rw [List.map_snd_zip (by simp [hk])]
  exact h

/-- **C124**: something without `get` among the mappings raises `AttributeError`, whatever the others hold -/
theorem C124_raises (key : A) (default : Val A) (l : List (Val A)) (a : A) (h : .atom a ∈ l) :
    getFromAll key (.seq l) default = .error .attributeError := by
  simp only [getFromAll]
  induction l with
  | nil => cases h
  | cons v l ih =>
    cases v with
    | atom b => rfl
    | map t m =>
      have hm : Val.atom a ∈ l := by simpa using h
      simp only [List.mapM_cons, getOr, ih hm, bind, Except.bind]

example : getFromAll 1 (.seq [.map .dict [(1, .atom 5)], .map .other [(2, .atom 6)]]) (.atom 0) = .ok [.atom 5, .atom 0] := by rfl
end

end Verif.Props
