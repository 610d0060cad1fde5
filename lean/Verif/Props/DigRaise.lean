import Verif.Model.DigRaise
import Verif.Spec.DigRaise
import Verif.Lemmas.Edit
/-!
# C154: `dig_for_*` with predicates that raise
-/
set_option linter.unusedSectionVars false
namespace Verif.Props
open Verif Verif.Model Verif.Spec
variable {A : Type} [DecidableEq A]

theorem levelItems_hits (p : DigPred A) (l : List (A × Val A)) (h : ∀ x ∈ l, Returns p x) : levelItems p l = .ok (hits p l) := by
  induction l with
  | nil => rfl
  | cons x l ih =>
    obtain ⟨k, v⟩ := x
    obtain ⟨b, hb⟩ := h (k, v) (by simp)
    have hi := ih fun y hy => h y (by simp [hy])
    simp only at hb
    simp only [levelItems, hb, hi, bind, Except.bind, pure, Except.pure, hits, List.filter_cons]

theorem levelItems_raise (p : DigPred A) (l : List (A × Val A)) (x : A × Val A) (r : List (A × Val A))
    (h : ∀ y ∈ l, Returns p y) {e : PyErr} (hx : p x.1 x.2 = .error e) : levelItems p (l ++ x :: r) = .error e := by
  induction l with
  | nil => simp only [List.nil_append, levelItems, hx, bind, Except.bind]
  | cons y l ih =>
    obtain ⟨k, v⟩ := y
    obtain ⟨b, hb⟩ := h (k, v) (by simp)
    have hi := ih fun y hy => h y (by simp [hy])
    simp only at hb
    simp only [List.cons_append, levelItems, hb, hi, bind, Except.bind]

theorem hits_append (p : DigPred A) (a b : List (A × Val A)) : hits p (a ++ b) = hits p a ++ hits p b := by
  simp [hits]

theorem levelItems_append (p : DigPred A) (a b : List (A × Val A)) :
    levelItems p (a ++ b) = (do let x ← levelItems p a; let y ← levelItems p b; pure (x ++ y)) := by
  induction a with
  | nil =>
    simp only [List.nil_append, levelItems, bind, Except.bind, pure, Except.pure]
    cases levelItems p b <;> rfl
  | cons x a ih =>
    obtain ⟨k, v⟩ := x
    simp only [List.cons_append, levelItems, ih, bind, Except.bind, pure, Except.pure]
    cases p k v with
    | error e => rfl
    | ok c =>
      cases levelItems p a with
      | error e => rfl
      | ok x =>
        cases levelItems p b with
        | error e => rfl
        | ok y => cases c <;> rfl

/-- `dig_for_all` asks the predicate about the pairs of the levels, in order -/
theorem digForAll_eq (p : DigPred A) (mt : Tag → Bool) (v : Val A) (hv : v.isMapping = true) :
    digForAll p mt v = levelItems p (levels mt v).flatten := by
  revert hv
  induction v using Val.induct with
  | hatom a => intro h; cases h
  | hmap t l ih =>
    intro _
    have nests : ∀ l' : List (A × Val A), (∀ x ∈ l', x ∈ l) → digNests p mt l' = levelItems p (levelsBelow mt l').flatten := by
      intro l' hsub
      induction l' with
      | nil => rfl
      | cons x rest ihl =>
        obtain ⟨k, v⟩ := x
        have hr := ihl fun y hy => hsub y (List.mem_cons_of_mem _ hy)
        by_cases hva : v.isA mt = true
        · have hm : v.isMapping = true := by cases v <;> simp_all
          have hs := ih k v (hsub _ (by simp)) hm
          simp only [digNests, levelsBelow, hva, if_true, List.flatten_append, levelItems_append, hs, hr]
        · simp only [digNests, levelsBelow, hva, hr, List.nil_append]
          simp only [Bool.false_eq_true, if_false, List.nil_append, bind, Except.bind, pure, Except.pure]
          cases levelItems p (levelsBelow mt rest).flatten <;> rfl
    simp only [digForAll, levels, List.flatten_cons, levelItems_append, nests l fun _ h => h]

/-- **C154** (`dig_for_values`, `dig_for_keys`, `dig_for_items`). The pairs are looked at level by level, a level before
its sublevels. If the predicate returns for all of them, the result is those for which it is true, in that order. -/
theorem C154_all_returns (p : DigPred A) (mt : Tag → Bool) (t : Tag) (l : List (A × Val A))
    (h : ∀ x ∈ (levels mt (.map t l)).flatten, Returns p x) :
    digForAll p mt (.map t l) = .ok (hits p (levels mt (.map t l)).flatten) := by
  rw [digForAll_eq p mt _ rfl, levelItems_hits p _ h]

/-- **C154** (`dig_for_values`, `dig_for_keys`, `dig_for_items`). The first exception of the predicate, of whatever class, is
raised. -/
theorem C154_all_raises (p : DigPred A) (mt : Tag → Bool) (t : Tag) (l xs ys : List (A × Val A)) (x : A × Val A) (e : PyErr)
    (hv : (levels mt (.map t l)).flatten = xs ++ x :: ys) (h : ∀ y ∈ xs, Returns p y) (hx : p x.1 x.2 = .error e) :
    digForAll p mt (.map t l) = .error e := by
  rw [digForAll_eq p mt _ rfl, hv, levelItems_raise p xs x ys h hx]

/-- level by level, until one has hits -/
def searchLevels (p : DigPred A) : List (List (A × Val A)) → Except PyErr (Option (List (A × Val A)))
  | [] => .ok none
  | l :: r => match levelItems p l with
    | .error e => .error e
    | .ok [] => searchLevels p r
    | .ok (x :: t) => .ok (some (x :: t))

theorem searchLevels_append (p : DigPred A) (a b : List (List (A × Val A))) :
    searchLevels p (a ++ b) = match searchLevels p a with
      | .error e => .error e
      | .ok (some r) => .ok (some r)
      | .ok none => searchLevels p b := by
  induction a with
  | nil => rfl
  | cons l a ih =>
    simp only [List.cons_append, searchLevels]
    cases levelItems p l with
    | error e => rfl
    | ok hs => cases hs with
      | nil => exact ih
      | cons x t => rfl

theorem levelItems_error_mem (p : DigPred A) (l : List (A × Val A)) {e : PyErr} (h : levelItems p l = .error e) :
    ∃ x ∈ l, p x.1 x.2 = .error e := by
  induction l with
  | nil => cases h
  | cons x l ih =>
    obtain ⟨k, v⟩ := x
    simp only [levelItems, bind, Except.bind] at h
    cases hp : p k v with
    | error e' => rw [hp] at h; cases h; exact ⟨(k, v), by simp, hp⟩
    | ok b =>
      rw [hp] at h
      cases hl : levelItems p l with
      | error e' => rw [hl] at h; cases h; obtain ⟨x, hx, hxe⟩ := ih hl; exact ⟨x, by simp [hx], hxe⟩
      | ok r => rw [hl] at h; cases h

theorem searchLevels_error_mem (p : DigPred A) (ls : List (List (A × Val A))) {e : PyErr} (h : searchLevels p ls = .error e) :
    ∃ x ∈ ls.flatten, p x.1 x.2 = .error e := by
  induction ls with
  | nil => cases h
  | cons l ls ih =>
    simp only [searchLevels] at h
    cases hl : levelItems p l with
    | error e' =>
      rw [hl] at h; cases h
      obtain ⟨x, hx, hxe⟩ := levelItems_error_mem p l hl
      exact ⟨x, by simp [hx], hxe⟩
    | ok hs =>
      rw [hl] at h
      cases hs with
      | nil =>
        obtain ⟨x, hx, hxe⟩ := ih h
        exact ⟨x, by rw [List.flatten_cons]; exact List.mem_append_right _ hx, hxe⟩
      | cons x t => cases h

/-- `dig_for` with a predicate that never raises `StopIteration` -/
theorem digFor_eq (p : DigPred A) (mt : Tag → Bool) (v : Val A) (hv : v.isMapping = true)
    (hs : ∀ x ∈ (levels mt v).flatten, p x.1 x.2 ≠ .error .stopIteration) : digFor p mt v = searchLevels p (levels mt v) := by
  revert hv hs
  induction v using Val.induct with
  | hatom a => intro h; cases h
  | hmap t l ih =>
    intro _ hs
    have nests : ∀ l' : List (A × Val A), (∀ x ∈ l', x ∈ l) →
        (∀ x ∈ (levelsBelow mt l').flatten, p x.1 x.2 ≠ .error .stopIteration) →
        digForNests p mt l' = searchLevels p (levelsBelow mt l') := by
      intro l' hsub hs
      induction l' with
      | nil => rfl
      | cons x rest ihl =>
        obtain ⟨k, v⟩ := x
        have hr := ihl (fun y hy => hsub y (List.mem_cons_of_mem _ hy)) fun x hx => hs x (by
          rw [levelsBelow, List.flatten_append]; exact List.mem_append_right _ hx)
        by_cases hva : v.isA mt = true
        · have hm : v.isMapping = true := by cases v <;> simp_all
          have hs1 : ∀ x ∈ (levels mt v).flatten, p x.1 x.2 ≠ .error .stopIteration := fun x hx => hs x (by
            rw [levelsBelow, List.flatten_append, if_pos hva]; exact List.mem_append_left _ hx)
          have h1 := ih k v (hsub _ (by simp)) hm hs1
          simp only [digForNests, levelsBelow, hva, if_true, searchLevels_append, h1, hr]
          cases hl : searchLevels p (levels mt v) with
          | error e =>
            obtain ⟨x, hx, hxe⟩ := searchLevels_error_mem p _ hl
            cases e with
            | stopIteration => exact absurd hxe (hs1 x hx)
            | _ => rfl
          | ok o => cases o <;> rfl
        · simp only [digForNests, levelsBelow, hva, hr]
          simp
    have hb := nests l (fun _ h => h) fun x hx => hs x (by
      rw [levels, List.flatten_cons]; exact List.mem_append_right _ hx)
    simp only [digFor, levels, searchLevels, hb, bind, Except.bind, pure, Except.pure]
    cases levelItems p l with
    | error e => rfl
    | ok hs => cases hs <;> rfl

theorem hits_misses (p : DigPred A) (l : List (A × Val A)) (h : ∀ x ∈ l, Misses p x) : hits p l = [] := by
  simp only [hits, List.filter_eq_nil_iff]
  intro x hx
  have := h x hx
  simp only [Misses] at this
  simp [this]

theorem searchLevels_misses (p : DigPred A) (ls : List (List (A × Val A))) (h : ∀ x ∈ ls.flatten, Misses p x) :
    searchLevels p ls = .ok none := by
  induction ls with
  | nil => rfl
  | cons l ls ih =>
    have h1 : ∀ x ∈ l, Misses p x := fun x hx => h x (by rw [List.flatten_cons]; exact List.mem_append_left _ hx)
    rw [searchLevels, levelItems_hits p l fun x hx => ⟨false, h1 x hx⟩, hits_misses p l h1]
    exact ih fun x hx => h x (by rw [List.flatten_cons]; exact List.mem_append_right _ hx)

/-- **C154** (`dig_for_value`, `dig_for_key`, `dig_for_item`; partial). If the predicate raises no `StopIteration`: the pairs
are looked at level by level, a level before its sublevels. The first level that has hits gives the result, if the predicate
returns for all pairs of this level; a pair for which it raises is looked at before that level or in it, and the exception is
raised; where there are no hits, `None` is returned. -/
theorem C154_first_partial (p : DigPred A) (mt : Tag → Bool) (t : Tag) (l : List (A × Val A))
    (hs : ∀ x ∈ (levels mt (.map t l)).flatten, p x.1 x.2 ≠ .error .stopIteration) :
    ((∀ x ∈ (levels mt (.map t l)).flatten, Misses p x) → digFor p mt (.map t l) = .ok none) ∧
    (∀ pre lvl post, levels mt (.map t l) = pre ++ lvl :: post → (∀ x ∈ pre.flatten, Misses p x) →
      (∀ x ∈ lvl, Returns p x) → hits p lvl ≠ [] → digFor p mt (.map t l) = .ok (some (hits p lvl))) ∧
    ∀ pre xs x ys post e, levels mt (.map t l) = pre ++ (xs ++ x :: ys) :: post → (∀ x ∈ pre.flatten, Misses p x) →
      (∀ y ∈ xs, Returns p y) → p x.1 x.2 = .error e → digFor p mt (.map t l) = .error e := by
  rw [digFor_eq p mt _ rfl hs]
  refine ⟨searchLevels_misses p _, fun pre lvl post hl hpre hlvl hne => ?_, fun pre xs x ys post e hl hpre hxs hx => ?_⟩
  · rw [hl, searchLevels_append, searchLevels_misses p pre hpre]
    simp only [searchLevels, levelItems_hits p lvl hlvl]
    cases hh : hits p lvl with
    | nil => exact absurd hh hne
    | cons a b => rfl
  · rw [hl, searchLevels_append, searchLevels_misses p pre hpre]
    simp only [searchLevels, levelItems_raise p xs x ys hxs hx]

/-- **C154** (`StopIteration`): it is raised only for a pair of the mapping itself. -/
theorem C154_stop_only_at_top (p : DigPred A) (mt : Tag → Bool) (t : Tag) (l : List (A × Val A))
    (h : digFor p mt (.map t l) = .error .stopIteration) : ∃ x ∈ l, p x.1 x.2 = .error .stopIteration := by
  have nests : ∀ l' : List (A × Val A), digForNests p mt l' ≠ .error .stopIteration := by
    intro l'
    induction l' with
    | nil => intro h; cases h
    | cons x l' ih =>
      obtain ⟨k, v⟩ := x
      intro h
      rw [digForNests] at h
      revert h
      generalize (if v.isA mt = true then digFor p mt v else .ok none) = o
      intro h
      match o with
      | .error e => cases e <;> cases h
      | .ok (some r) => cases h
      | .ok none => exact ih h
  simp only [digFor, bind, Except.bind] at h
  cases hl : levelItems p l with
  | error e =>
    rw [hl] at h
    cases h
    exact levelItems_error_mem p l hl
  | ok hs =>
    rw [hl] at h
    cases hs with
    | nil => exact absurd h (nests l)
    | cons a b => cases h

/-- **C154** (`StopIteration`): raised for a pair inside the value of an item, it ends the search among the values of that
mapping, with nothing found: neither the values after it nor what is in them are looked at. -/
theorem C154_stop_ends_the_search (p : DigPred A) (mt : Tag → Bool) (t t' : Tag) (pre sub post : List (A × Val A)) (k : A)
    (h0 : ∀ x ∈ pre ++ (k, .map t' sub) :: post, Misses p x) (hpre : ∀ x ∈ (levelsBelow mt pre).flatten, Misses p x)
    (ht : mt t' = true) (xs ys : List (A × Val A)) (x : A × Val A) (hsub : sub = xs ++ x :: ys) (hxs : ∀ y ∈ xs, Returns p y)
    (hx : p x.1 x.2 = .error .stopIteration) :
    digFor p mt (.map t (pre ++ (k, .map t' sub) :: post)) = .ok none := by
  have hin : digFor p mt (.map t' sub) = .error .stopIteration := by
    simp only [digFor, hsub, levelItems_raise p xs x ys hxs hx, bind, Except.bind]
  have hn : ∀ pre : List (A × Val A), (∀ x ∈ (levelsBelow mt pre).flatten, Misses p x) →
      digForNests p mt (pre ++ (k, .map t' sub) :: post) = .ok none := by
    intro pre hpre
    induction pre with
    | nil => simp [digForNests, ht, hin]
    | cons y pre ih =>
      obtain ⟨k', v⟩ := y
      rw [levelsBelow, List.flatten_append] at hpre
      have hi := ih fun x hx => hpre x (List.mem_append_right _ hx)
      by_cases hva : v.isA mt = true
      · rw [if_pos hva] at hpre
        have hm : v.isMapping = true := by cases v <;> simp_all
        have h1 : digFor p mt v = .ok none := by
          rw [digFor_eq p mt v hm fun x hx h => by
            have h2 := hpre x (List.mem_append_left _ hx)
            rw [Misses, h] at h2; cases h2]
          exact searchLevels_misses p _ fun x hx => hpre x (List.mem_append_left _ hx)
        simp only [List.cons_append, digForNests, hva, if_true, h1, hi]
      · simp only [List.cons_append, digForNests, hva, hi]
        simp
  have h1 : levelItems p (pre ++ (k, .map t' sub) :: post) = .ok [] := by
    rw [levelItems_hits p _ fun x hx => ⟨false, h0 x hx⟩, hits_misses p _ h0]
  simp only [digFor, h1, bind, Except.bind, List.isEmpty_nil, if_true, hn pre hpre]

/-- `next(iter(v))` for an empty `v`, in a predicate that looks for the key 9 -/
def stopPred : DigPred Nat := fun k _ => if k = 2 then .error .stopIteration else .ok (k == 9)

/-- **C154** (the full claim is false): in `{1: {2: 0}, 3: {9: 0}}` the key 9 is not found by a predicate that raises
`StopIteration` for the key 2, and no exception is raised, though `dig_for_keys` raises it; with another exception both
raise it, and `dig_for_all` without any finds the key. -/
theorem C154_swallowed :
    let v : Val Nat := .map .dict [(1, .map .dict [(2, .atom 0)]), (3, .map .dict [(9, .atom 0)])]
    digForKey v (.callable stopPred) .key Tag.isDict = .ok none ∧
    digForKeys v (.callable stopPred) .key Tag.isDict = .error .stopIteration ∧
    digForKey v (.callable fun k _ => .ok (k == 9)) .key Tag.isDict = .ok (some 9) ∧
    digForKey v (.callable fun k _ => if k = 2 then .error .valueError else .ok (k == 9)) .key Tag.isDict = .error .valueError :=
  ⟨by rfl, by rfl, by rfl, by rfl⟩

/-- the search goes on in the mapping above: `{0: {1: {2: 0}, 3: {9: 0}}, 4: {9: 0}}` -/
example : digForItem (.map .dict [(0, .map .dict [(1, .map .dict [(2, .atom 0)]), (3, .map .dict [(9, .atom 5)])]),
    (4, .map .dict [(9, .atom 6)])]) (.callable stopPred) .key Tag.isDict = .ok (some (9, .atom 6)) := by rfl

/-- the hypotheses of `C154_stop_ends_the_search` are met by `C154_swallowed`'s mapping -/
example : digFor stopPred Tag.isDict (.map .dict ([] ++ (1, .map .dict [(2, .atom 0)]) :: [(3, .map .dict [(9, .atom 0)])])) =
    .ok none :=
  C154_stop_ends_the_search stopPred Tag.isDict .dict .dict [] [(2, .atom 0)] [(3, .map .dict [(9, .atom 0)])] 1
    (by intro x hx; simp at hx; rcases hx with rfl | rfl <;> rfl) (by simp [levelsBelow]) rfl [] [] (2, .atom 0) rfl (by simp) rfl

/-- those of `C154_first_partial`'s second and third parts by a predicate that raises `ValueError` for the key 7 -/
example : ∃ (p : DigPred Nat) (l : List (Nat × Val Nat)),
    (∀ x ∈ (levels Tag.isDict (.map .dict l)).flatten, p x.1 x.2 ≠ .error .stopIteration) ∧
    levels Tag.isDict (.map .dict l) = [l] ++ [(9, .atom 0), (8, .atom 0)] :: [[(7, .atom 0)]] ∧
    (∀ x ∈ [l].flatten, Misses p x) ∧ hits p [(9, .atom 0), (8, .atom 0)] ≠ [] ∧ p 7 (.atom 0) = .error .valueError ∧
    digFor p Tag.isDict (.map .dict l) = .ok (some [(9, .atom 0)]) := by
  refine ⟨fun k _ => if k = 7 then .error .valueError else .ok (k == 9),
    [(1, .map .dict [(9, .atom 0), (8, .atom 0)]), (2, .map .dict [(7, .atom 0)])], ?_, rfl, ?_, ?_, rfl, rfl⟩
  · intro x _ h
    simp only at h
    split at h <;> cases h
  · intro x hx; simp at hx; rcases hx with rfl | rfl <;> rfl
  · simp [hits]

end Verif.Props
