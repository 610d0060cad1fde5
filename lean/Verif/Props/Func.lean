import Verif.Model.Func
/-!
# C22–C25, C77: `func.py`
-/
namespace Verif.Props
open Verif Verif.Model

section func
variable {α : Type}

theorem foldl_and (l : List Bool) (b : Bool) : l.foldl (· && ·) b = (b && l.all id) := by
  induction l generalizing b with
  | nil => simp
  | cons x t ih => simp [ih, Bool.and_assoc]

theorem foldl_or (l : List Bool) (b : Bool) : l.foldl (· || ·) b = (b || l.any id) := by
  induction l generalizing b with
  | nil => simp
  | cons x t ih => simp [ih, Bool.or_assoc]

/-- **C22**. `are_in(items)(container)`: for at least one item, `True` iff every item is in the container, and with
`oper=or_` iff some item is; `TypeError` exactly when there is no item. -/
theorem C22_are_in (items : List α) (inn : α → Bool) :
    (items ≠ [] → ∃ b, areIn items (· && ·) inn = .ok b ∧ (b = true ↔ ∀ x ∈ items, inn x = true)) ∧
    (items ≠ [] → ∃ b, areIn items (· || ·) inn = .ok b ∧ (b = true ↔ ∃ x ∈ items, inn x = true)) ∧
    (∀ oper, areIn items oper inn = .error .typeError ↔ items = []) := by
  refine ⟨?_, ?_, ?_⟩
  · intro h
    cases items with
    | nil => exact absurd rfl h
    | cons x t => exact ⟨_, rfl, by rw [foldl_and]; simp⟩
  · intro h
    cases items with
    | nil => exact absurd rfl h
    | cons x t => exact ⟨_, rfl, by rw [foldl_or]; simp⟩
  · intro oper
    cases items <;> simp [areIn, reduce]

example : areIn [1, 2] (· && ·) (fun n => decide (n ∈ [2, 1, 5])) = .ok true := rfl
example : areIn [1, 9] (· || ·) (fun n => decide (n ∈ [2, 1, 5])) = .ok true := rfl

variable [DecidableEq α]

theorem mem_foldl_inter (l : List (List α)) (s : List α) (x : α) :
    x ∈ l.foldl (fun a b => a.filter (· ∈ b)) s ↔ x ∈ s ∧ ∀ m ∈ l, x ∈ m := by
  induction l generalizing s with
  | nil => simp
  | cons m t ih => simp [ih, and_assoc]

theorem nodup_foldl_inter (l : List (List α)) (s : List α) (h : s.Nodup) :
    (l.foldl (fun a b => a.filter (· ∈ b)) s).Nodup := by
  induction l generalizing s with
  | nil => exact h
  | cons m t ih => exact ih _ (h.filter _)

theorem nodup_eraseDups_aux (n : Nat) : ∀ l : List α, l.length ≤ n → l.eraseDups.Nodup := by
  induction n with
  | zero =>
    intro l h
    have : l = [] := by simpa using h
    subst this; simp
  | succ n ih =>
    intro l h
    cases l with
    | nil => simp
    | cons x t =>
      rw [List.eraseDups_cons, List.nodup_cons]
      refine ⟨by simp, ih _ ?_⟩
      have := List.length_filter_le (fun b => !b == x) t
      simp only [List.length_cons] at h
      omega

/-- **C23** (`intersection`): the elements of all iterables, each once; `TypeError` exactly without arguments. -/
theorem C23_intersection (its : List (List α)) :
    (its ≠ [] → ∃ s, intersection its = .ok s ∧ s.Nodup ∧ ∀ x, x ∈ s ↔ ∀ l ∈ its, x ∈ l) ∧
    (intersection its = .error .typeError ↔ its = []) := by
  constructor
  · intro h
    cases its with
    | nil => exact absurd rfl h
    | cons l t =>
      refine ⟨_, rfl, nodup_foldl_inter _ _ (nodup_eraseDups_aux _ l (Nat.le_refl _)), ?_⟩
      intro x
      rw [mem_foldl_inter]
      simp
  · cases its <;> simp [intersection, reduce]

/-- **C23** (`disjoint`): one list per iterable, holding its elements that are not in all iterables, in order and with
multiplicity; `TypeError` exactly without arguments. -/
theorem C23_disjoint (its : List (List α)) :
    (its ≠ [] → ∃ out, disjoint its = .ok out ∧ out.length = its.length ∧
      ∀ i (h : i < its.length) (h' : i < out.length), out[i].Sublist its[i] ∧
        (∀ x, (∀ l ∈ its, x ∈ l) → x ∉ out[i]) ∧
        (∀ x, ¬ (∀ l ∈ its, x ∈ l) → out[i].count x = its[i].count x)) ∧
    (disjoint its = .error .typeError ↔ its = []) := by
  constructor
  · intro h
    obtain ⟨s, hs, -, hm⟩ := (C23_intersection its).1 h
    refine ⟨its.map fun l => l.filter fun x => x ∉ s, by simp [disjoint, hs, bind, Except.bind], by simp, ?_⟩
    intro i hi hi'
    rw [List.getElem_map]
    refine ⟨List.filter_sublist, ?_, ?_⟩
    · intro x hx hx'
      rw [List.mem_filter] at hx'
      simp [hm] at hx'
      obtain ⟨_, l, hl, hl'⟩ := hx'
      exact hl' (hx l hl)
    · intro x hx
      rw [List.count_filter]
      rw [← hm] at hx
      simp [hx]
  · cases its with
    | nil => simp [disjoint, intersection, reduce, bind, Except.bind]
    | cons l t => simp [disjoint, intersection, reduce, bind, Except.bind]

example : intersection [[1, 2, 2, 3], [3, 2], [2, 7, 3]] = .ok [2, 3] := rfl
example : disjoint [[1, 2, 2, 3, 1], [3, 2], [2, 7]] = .ok [[1, 3, 1], [3], [7]] := rfl

omit [DecidableEq α]

/-- **C24**. A result is returned and the callback not called; an `Exception` is handed to the callback exactly once and
`None` returned (or the callback's own exception raised); `KeyboardInterrupt` and every other non-`Exception` propagate
without a callback. -/
theorem C24_optionalize (f : Except PyErr α) (cb : PyErr → Except PyErr Unit) :
    (∀ v, f = .ok v → optionalize f cb = (.ok (some v), [])) ∧
    (∀ e, f = .error e → e.isException = true → cb e = .ok () → optionalize f cb = (.ok none, [e])) ∧
    (∀ e e', f = .error e → e.isException = true → cb e = .error e' → optionalize f cb = (.error e', [e])) ∧
    (∀ e, f = .error e → e.isException = false → optionalize f cb = (.error e, [])) := by
  refine ⟨?_, ?_, ?_, ?_⟩
  · rintro v rfl; rfl
  · rintro e rfl he hcb; cases e <;> simp_all [optionalize, PyErr.isException]
  · rintro e e' rfl he hcb; cases e <;> simp_all [optionalize, PyErr.isException]
  · rintro e rfl he; cases e <;> simp_all [optionalize, PyErr.isException]

example : optionalize (α := Nat) (.error .valueError) (fun _ => .ok ()) = (.ok none, [.valueError]) := rfl
example : optionalize (α := Nat) (.error .keyboardInterrupt) (fun _ => .ok ()) = (.error .keyboardInterrupt, []) := rfl

/-- **C25**. For `n ≥ 0`, `argstop(f, n)` passes on the first `n` positional arguments: of the call's arguments, or of
the single argument's elements when `unpack` is on and there is exactly one. If that single argument cannot be sliced,
`TypeError` is raised. -/
theorem C25_argstop {V : Type} (asSeq : V → Option (List V)) (n : Nat) (unpack : Bool) (args : List V) :
    ((unpack = false ∨ args.length ≠ 1) → argstop asSeq n unpack args = .ok (args.take n)) ∧
    (∀ x l, args = [x] → asSeq x = some l → argstop asSeq n true args = .ok (l.take n)) ∧
    (∀ x, args = [x] → asSeq x = none → argstop asSeq n true args = .error .typeError) := by
  refine ⟨?_, ?_, ?_⟩
  · intro h
    have hs : sliceTo args n = args.take n := by simp [sliceTo]
    rcases h with rfl | h
    · cases args with
      | nil => simp [argstop, sliceTo]
      | cons x t => cases t <;> simp [argstop, sliceTo]
    · cases args with
      | nil => simp [argstop, sliceTo]
      | cons x t =>
        cases t with
        | nil => simp at h
        | cons y u => simp only [argstop, hs]
  · rintro x l rfl h; simp [argstop, h, sliceTo]
  · rintro x rfl h; simp [argstop, h]

/-- **C25** (negative counts drop from the end) -/
theorem C25_argstop_negative {V : Type} (asSeq : V → Option (List V)) (n : Nat) (args : List V) :
    argstop asSeq (-(n + 1 : Nat)) false args = .ok (args.take (args.length - (n + 1))) := by
  have : ¬ (0 : Int) ≤ -(n + 1 : Nat) := by omega
  have h2 : (-(-(n + 1 : Nat) : Int)).toNat = n + 1 := by omega
  cases args with
  | nil => simp only [argstop, sliceTo, if_neg this]; simp
  | cons x t => cases t <;> simp only [argstop, sliceTo, if_neg this, h2]

example : argstop (V := Nat) (fun _ => none) 2 true [1, 2, 3] = .ok [1, 2] := rfl
example : argstop (V := Nat) (fun n => some [n, n]) 1 true [5] = .ok [5] := rfl

/-- **C77**. `filtern(f, xs)` is the first element satisfying `f`, and raises `StopIteration` exactly when there is
none; `naturals()` counts 1, 2, 3, …; `catch_interaction` returns the default exactly when `noninteractive` is truthy
and otherwise whatever the call does. -/
theorem C77_filtern (p : α → Bool) (l : List α) :
    (∀ pre x post, l = pre ++ x :: post → (∀ y ∈ pre, p y = false) → p x = true → filtern p l = .ok x) ∧
    (filtern p l = .error .stopIteration ↔ ∀ x ∈ l, p x = false) := by
  constructor
  · rintro pre x post rfl hpre hx
    have : pre.filter p = [] := by simpa using hpre
    simp [filtern, List.filter_append, this, hx]
  · unfold filtern
    split
    · rename_i h; simp at h; simpa using h
    · rename_i x t h
      simp only [reduceCtorEq, false_iff]
      intro hall
      have : x ∈ l.filter p := by rw [h]; simp
      have h2 := List.mem_filter.1 this
      rw [hall x h2.1] at h2
      exact absurd h2.2 (by simp)

theorem C77_naturals (i : Nat) : naturals i = i + 1 := by
  induction i with
  | zero => rfl
  | succ i ih => simp [naturals, ih]

theorem C77_catch_interaction {V : Type} (b : Bool) (d : V) (c : Except PyErr V) :
    (b = true → catchInteraction b d c = .ok d) ∧ (b = false → catchInteraction b d c = c) := by
  constructor <;> rintro rfl <;> rfl

example : filtern (fun n => n % 2 == 0) [3, 5, 8, 10] = .ok 8 := rfl
end func
end Verif.Props
