import Verif.Model.FuncIter
import Verif.Props.Func
/-!
# C178: `are_in` with iterators
-/
namespace Verif.Props
open Verif Verif.Model
variable {α : Type} [DecidableEq α]

/-- Python's `==`, for values where it is equality -/
def eqPy : α → α → Bool := fun a b => decide (a = b)

/-- C178, in full: for an iterator as container, `are_in` decides what it decides for a collection of the same elements -/
def C178_full : Prop :=
  ∀ (items c : List Nat), (areInIter eqPy items (· && ·) c).1 = areIn items (· && ·) (fun x => decide (x ∈ c)) ∧
    (areInIter eqPy items (· || ·) c).1 = areIn items (· || ·) (fun x => decide (x ∈ c))

theorem searchIter_true (x : α) (c : List α) : (searchIter eqPy x c).1 = true ↔ x ∈ c := by
  induction c with
  | nil => simp [searchIter]
  | cons y t ih =>
    unfold searchIter
    by_cases h : y = x
    · simp [eqPy, h]
    · have h' : ¬ x = y := fun e => h e.symm
      simp [eqPy, h, h']; exact ih

theorem searchIter_false {x : α} {c : List α} (h : x ∉ c) : searchIter eqPy x c = (false, []) := by
  induction c with
  | nil => rfl
  | cons y t ih =>
    unfold searchIter
    have h1 : y ≠ x := fun e => h (by simp [e])
    rw [if_neg (by simp [eqPy, h1])]
    exact ih fun e => h (by simp [e])

theorem searchIter_found {x : α} {a b : List α} (h : x ∉ a) : searchIter eqPy x (a ++ x :: b) = (true, b) := by
  induction a with
  | nil => simp [searchIter, eqPy]
  | cons y t ih =>
    have h1 : y ≠ x := fun e => h (by simp [e])
    rw [List.cons_append, searchIter, if_neg (by simp [eqPy, h1])]
    exact ih fun e => h (by simp [e])

theorem searchAll_nil (items : List α) : searchAll eqPy items [] = (items.map fun _ => false, []) := by
  induction items with
  | nil => rfl
  | cons x t ih => simp [searchAll, searchIter, ih]

theorem first_place {x : α} {c : List α} (h : x ∈ c) : ∃ a b, c = a ++ x :: b ∧ x ∉ a := by
  induction c with
  | nil => cases h
  | cons y t ih =>
    by_cases e : y = x
    · exact ⟨[], t, by rw [e]; rfl, by simp⟩
    · have e' : ¬ x = y := fun h => e h.symm
      obtain ⟨a, b, rfl, ha⟩ := ih (by simpa [e'] using h)
      exact ⟨y :: a, b, rfl, by simp [e', ha]⟩

theorem searchAll_all (items c : List α) : (searchAll eqPy items c).1.all id = true ↔ items.Sublist c := by
  induction items generalizing c with
  | nil => simp [searchAll]
  | cons x t ih =>
    by_cases h : x ∈ c
    · obtain ⟨a, b, rfl, ha⟩ := first_place h
      simp only [searchAll, searchIter_found ha, List.all_cons, id, Bool.true_and]
      rw [ih]
      constructor
      · exact fun hs => (hs.cons_cons x).trans (List.sublist_append_right a _)
      · intro hs
        clear ih h
        induction a with
        | nil => exact List.cons_sublist_cons.1 hs
        | cons y a iha =>
          rw [List.cons_append] at hs
          rcases hs with _ | hs | hs
          · exact iha (fun e => ha (by simp [e])) ‹_›
          · exact absurd (by simp) ha
    · simp only [searchAll, searchIter_false h, List.all_cons, id, Bool.false_and]
      refine ⟨fun e => (by cases e), fun hs => absurd (hs.subset (.head _)) h⟩

/-- **C178**: what `are_in(items)` decides of an iterator: whether the items come in it in this order -/
theorem C178_in_order (x : α) (items c : List α) :
    ∃ b, (areInIter eqPy (x :: items) (· && ·) c).1 = .ok b ∧ (b = true ↔ (x :: items).Sublist c) := by
  refine ⟨_, rfl, ?_⟩
  rw [foldl_and, ← searchAll_all]
  simp [searchAll]

/-- **C178**: what `are_in(items, or_)` decides of an iterator: whether the first item is in it -/
theorem C178_first_only (x : α) (items c : List α) :
    ∃ b, (areInIter eqPy (x :: items) (· || ·) c).1 = .ok b ∧ (b = true ↔ x ∈ c) := by
  refine ⟨_, rfl, ?_⟩
  rw [foldl_or, ← searchIter_true]
  by_cases h : x ∈ c
  · simp [(searchIter_true x c).2 h]
  · simp [searchIter_false h, searchAll_nil]

/-- **C178**: what is left of the iterator. If the items come in it in order, what follows the first place where they have all
been met; otherwise nothing. -/
theorem C178_left (oper : Bool → Bool → Bool) (items c : List α) :
    (items.Sublist c → ∃ a, c = a ++ (areInIter eqPy items oper c).2 ∧ items.Sublist a ∧
      ∀ a', a' <+: a → items.Sublist a' → a' = a) ∧
    (¬ items.Sublist c → (areInIter eqPy items oper c).2 = []) := by
  simp only [areInIter]
  induction items generalizing c with
  | nil => exact ⟨fun _ => ⟨[], rfl, List.Sublist.refl _, fun a' h _ => List.prefix_nil.1 h⟩, fun h => absurd (List.nil_sublist _) h⟩
  | cons x t ih =>
    by_cases h : x ∈ c
    · obtain ⟨a, b, rfl, ha⟩ := first_place h
      simp only [searchAll, searchIter_found ha]
      have hiff : ∀ b', (x :: t).Sublist (a ++ x :: b') ↔ t.Sublist b' := by
        intro b'
        rw [← searchAll_all, ← searchAll_all]
        simp [searchAll, searchIter_found ha]
      obtain ⟨h1, h2⟩ := ih b
      refine ⟨fun hs => ?_, fun hs => h2 fun hc => hs ((hiff b).2 hc)⟩
      obtain ⟨p, e, hp, hmin⟩ := h1 ((hiff b).1 hs)
      refine ⟨a ++ x :: p, ?_, (hiff p).2 hp, fun a' hpre hsub => ?_⟩
      · rw [List.append_assoc, List.cons_append, ← e]
      · obtain ⟨r, hr⟩ := hpre
        have hx : x ∈ a' := hsub.subset (.head _)
        rcases List.append_eq_append_iff.1 hr with ⟨u, hu, _⟩ | ⟨u, hu, hv⟩
        · exact absurd (by rw [hu]; simp [hx]) ha
        · cases u with
          | nil => rw [List.append_nil] at hu; exact absurd (hu ▸ hx) ha
          | cons y u =>
            rw [List.cons_append] at hv
            injection hv with h3 h4
            subst h3
            rw [hu, hmin u ⟨r, h4.symm⟩ ((hiff u).1 (hu ▸ hsub))]
    · simp only [searchAll, searchIter_false h, searchAll_nil]
      exact ⟨fun hs => absurd (hs.subset (.head _)) h, fun _ => trivial⟩

/-- **C178** (partial): with one item, and with a collection (C22), it is containment that is decided. Missing: iterators
and several items (`C178_full_false`). -/
theorem C178_one_item_partial (x : α) (oper : Bool → Bool → Bool) (c : List α) :
    (areInIter eqPy [x] oper c).1 = areIn [x] oper (fun x => decide (x ∈ c)) := by
  have : (searchIter eqPy x c).1 = decide (x ∈ c) := by
    rw [Bool.eq_iff_iff, searchIter_true]; simp
  simp [areInIter, areIn, searchAll, reduce, this]

/-- … and for all items `True` is never wrong -/
theorem C178_true_sound (x : α) (items c : List α) :
    ((areInIter eqPy (x :: items) (· && ·) c).1 = .ok true → areIn (x :: items) (· && ·) (fun x => decide (x ∈ c)) = .ok true) ∧
    ((areInIter eqPy (x :: items) (· || ·) c).1 = .ok true → areIn (x :: items) (· || ·) (fun x => decide (x ∈ c)) = .ok true) := by
  obtain ⟨h1, h2, _⟩ := C22_are_in (x :: items) (fun x => decide (x ∈ c))
  obtain ⟨b1, e1, i1⟩ := h1 (by simp)
  obtain ⟨b2, e2, i2⟩ := h2 (by simp)
  obtain ⟨d1, f1, j1⟩ := C178_in_order x items c
  obtain ⟨d2, f2, j2⟩ := C178_first_only x items c
  rw [e1, e2, f1, f2]
  refine ⟨fun h => ?_, fun h => ?_⟩
  · injection h with h
    rw [i1.2 fun y hy => by simpa using (j1.1 h).subset hy]
  · injection h with h
    rw [i2.2 ⟨x, .head _, by simpa using j2.1 h⟩]

/-- C178 is false of the code: `are_in([2, 1])(iter([1, 2]))` -/
theorem C178_full_false : ¬ C178_full := fun h => by
  have h1 : (.ok false : Except PyErr Bool) = .ok true := (h [2, 1] [1, 2]).1
  cases h1

omit [DecidableEq α] in
/-- **C178**: an iterator of items serves one call; from the second on, `TypeError` -/
theorem C178_items_once (oper : Bool → Bool → Bool) (items : List α) (inn : α → Bool) (rest : List (α → Bool)) :
    areInCalls oper items (inn :: rest) = areIn items oper inn :: rest.map fun _ => .error .typeError := by
  have : ∀ rest : List (α → Bool), areInCalls oper [] rest = rest.map fun _ => .error .typeError := by
    intro rest
    induction rest with
    | nil => rfl
    | cons f t ih => simp only [areInCalls, ih, List.map_cons]; rfl
  rw [areInCalls, this]

/-- `iter("abcab")`: "b", "a" are in it in this order, "b", "c", "c" are not; the iterator is left where the last was found -/
example : areInIter eqPy "ba".toList (· && ·) "abcab".toList = (.ok true, "b".toList) ∧
    areInIter eqPy "bcc".toList (· && ·) "abcab".toList = (.ok false, []) ∧
    areInIter eqPy "xa".toList (· || ·) "abcab".toList = (.ok false, []) := ⟨rfl, rfl, rfl⟩

example : "ba".toList.Sublist "abcab".toList ∧ ¬ "bcc".toList.Sublist "abcab".toList := by decide +kernel

example : areInCalls (· && ·) [1, 2] [fun n => decide (n < 5), fun n => decide (n < 5)] = [.ok true, .error .typeError] := rfl

end Verif.Props
