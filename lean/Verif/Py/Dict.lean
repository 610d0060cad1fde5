/-!
# Python dictionaries

A Python `dict` is an insertion-ordered association list. Key equality (Python's `__eq__`/`__hash__` classes) is an
abstract decidable equality on the key type. Nothing forces keys to be distinct; `Dict.WF` says they are, and every
dictionary operation preserves it.
-/
namespace Verif

abbrev Dict (κ α : Type) := List (κ × α)

namespace Dict
variable {κ α β : Type} [DecidableEq κ]

/-- `d.get(k)` (as an option) / `d[k]`. -/
def get? : Dict κ α → κ → Option α
  | [], _ => none
  | (k', v) :: t, k => if k' = k then some v else get? t k

/-- `d[k] = v`: replaces the value in place when the key is present, appends otherwise. -/
def set : Dict κ α → κ → α → Dict κ α
  | [], k, v => [(k, v)]
  | (k', v') :: t, k, v => if k' = k then (k', v) :: t else (k', v') :: set t k v

/-- `del d[k]` (no effect when absent; callers check presence first). -/
def erase : Dict κ α → κ → Dict κ α
  | [], _ => []
  | (k', v) :: t, k => if k' = k then t else (k', v) :: erase t k

/-- `d.keys()` -/
def keys (d : Dict κ α) : List κ := d.map Prod.fst

/-- `d.values()` -/
def values (d : Dict κ α) : List α := d.map Prod.snd

/-- `d | e`, `d.update(e)`, `d |= e`. -/
def update (d e : Dict κ α) : Dict κ α := e.foldl (fun acc kv => acc.set kv.1 kv.2) d

/-- keys are distinct, as in every real `dict` -/
def WF (d : Dict κ α) : Prop := (keys d).Nodup

omit [DecidableEq κ] in
@[simp] theorem keys_nil : keys ([] : Dict κ α) = [] := rfl
omit [DecidableEq κ] in
@[simp] theorem keys_cons (k : κ) (v : α) (t) : keys ((k, v) :: t) = k :: keys t := rfl
omit [DecidableEq κ] in
@[simp] theorem keys_append (d e : Dict κ α) : keys (d ++ e) = keys d ++ keys e := by simp [keys]

@[simp] theorem get?_nil (k : κ) : get? ([] : Dict κ α) k = none := rfl

theorem get?_cons (k' k : κ) (v : α) (t) :
    get? ((k', v) :: t) k = if k' = k then some v else get? t k := rfl

theorem get?_eq_none {d : Dict κ α} {k : κ} : get? d k = none ↔ k ∉ keys d := by
  induction d with
  | nil => simp
  | cons h t ih =>
    obtain ⟨k', v⟩ := h
    simp only [get?_cons, keys_cons, List.mem_cons, not_or]
    split
    · rename_i h; simp [h]
    · rename_i h; rw [ih]; simp [Ne.symm h]

theorem get?_isSome {d : Dict κ α} {k : κ} : (get? d k).isSome ↔ k ∈ keys d := by
  cases h : get? d k with
  | none => simp [get?_eq_none.1 h]
  | some v =>
    simp only [Option.isSome_some, true_iff]
    exact Classical.byContradiction fun hc => by rw [get?_eq_none.2 hc] at h; cases h

theorem mem_of_get? {d : Dict κ α} {k : κ} {v : α} (h : get? d k = some v) : (k, v) ∈ d := by
  induction d with
  | nil => simp at h
  | cons x t ih =>
    obtain ⟨k', v'⟩ := x
    simp only [get?_cons] at h
    split at h
    · rename_i e; cases h; subst e; simp
    · exact List.mem_cons_of_mem _ (ih h)

theorem get?_of_mem {d : Dict κ α} (wf : WF d) {k : κ} {v : α} (h : (k, v) ∈ d) : get? d k = some v := by
  induction d with
  | nil => simp at h
  | cons x t ih =>
    obtain ⟨k', v'⟩ := x
    simp only [WF, keys_cons, List.nodup_cons] at wf
    simp only [get?_cons]
    rcases List.mem_cons.1 h with h | h
    · cases h; simp
    · have : k ∈ keys t := List.mem_map.2 ⟨_, h, rfl⟩
      have hne : k' ≠ k := by rintro rfl; exact wf.1 this
      simp [hne, ih wf.2 h]

theorem get?_set (d : Dict κ α) (k k' : κ) (v : α) :
    get? (set d k v) k' = if k = k' then some v else get? d k' := by
  induction d with
  | nil => simp [set, get?_cons]
  | cons x t ih =>
    obtain ⟨k₀, v₀⟩ := x
    simp only [set]
    split
    · rename_i h; subst h; simp only [get?_cons]; split <;> simp_all
    · rename_i h
      simp only [get?_cons, ih]
      by_cases h1 : k₀ = k'
      · subst h1; simp [Ne.symm h]
      · simp [h1]

theorem get?_set_self (d : Dict κ α) (k : κ) (v : α) : get? (set d k v) k = some v := by simp [get?_set]

theorem get?_set_ne (d : Dict κ α) {k k' : κ} (v : α) (h : k' ≠ k) : get? (set d k v) k' = get? d k' := by
  rw [get?_set, if_neg fun e => h e.symm]

theorem keys_set (d : Dict κ α) (k : κ) (v : α) :
    keys (set d k v) = if k ∈ keys d then keys d else keys d ++ [k] := by
  induction d with
  | nil => simp [set]
  | cons x t ih =>
    obtain ⟨k₀, v₀⟩ := x
    simp only [set]
    split
    · rename_i h; simp [h]
    · rename_i h
      simp only [keys_cons, ih, List.mem_cons, Ne.symm h, false_or]
      split <;> simp

theorem set_of_mem {d : Dict κ α} (k : κ) (v : α) (h : k ∈ keys d) : keys (set d k v) = keys d := by
  simp [keys_set, h]

theorem set_of_not_mem {d : Dict κ α} (k : κ) (v : α) (h : k ∉ keys d) : set d k v = d ++ [(k, v)] := by
  induction d with
  | nil => rfl
  | cons x t ih =>
    obtain ⟨k₀, v₀⟩ := x
    simp only [keys_cons, List.mem_cons, not_or] at h
    simp [set, Ne.symm h.1, ih h.2]

theorem wf_set {d : Dict κ α} (wf : WF d) (k : κ) (v : α) : WF (set d k v) := by
  unfold WF at *
  rw [keys_set]
  split
  · exact wf
  · rename_i h
    rw [List.nodup_append]
    refine ⟨wf, by simp, ?_⟩
    intro a ha b hb
    simp at hb; subst hb
    rintro rfl; exact h ha

omit [DecidableEq κ] in
theorem wf_nil : WF ([] : Dict κ α) := by simp [WF]

theorem update_nil (d : Dict κ α) : update d [] = d := rfl

theorem update_cons (d : Dict κ α) (k : κ) (v : α) (e) :
    update d ((k, v) :: e) = update (set d k v) e := rfl

theorem wf_update {d : Dict κ α} (wf : WF d) (e : Dict κ α) : WF (update d e) := by
  induction e generalizing d with
  | nil => exact wf
  | cons x t ih => exact ih (wf_set wf _ _)

/-- `(d | e)[k]`: right operand wins (for a well-formed right operand). -/
theorem get?_update (d e : Dict κ α) (wf : WF e) (k : κ) :
    get? (update d e) k = (get? e k).or (get? d k) := by
  induction e generalizing d with
  | nil => simp [update_nil]
  | cons x t ih =>
    obtain ⟨k', v⟩ := x
    simp only [WF, keys_cons, List.nodup_cons] at wf
    rw [update_cons, ih _ wf.2, get?_set, get?_cons]
    by_cases h : k' = k
    · subst h
      simp [get?_eq_none.2 wf.1]
    · simp [h]

theorem mem_keys_update (d e : Dict κ α) (k : κ) : k ∈ keys (update d e) ↔ k ∈ keys d ∨ k ∈ keys e := by
  induction e generalizing d with
  | nil => simp [update_nil]
  | cons x t ih =>
    obtain ⟨k', v⟩ := x
    rw [update_cons, ih, keys_set]
    split
    · rename_i h; simp only [keys_cons, List.mem_cons]
      constructor
      · rintro (h | h) <;> simp [h]
      · rintro (h' | rfl | h') <;> simp_all
    · simp only [List.mem_append, List.mem_singleton, keys_cons, List.mem_cons, or_assoc, List.not_mem_nil, false_or]

/-- two well-formed dicts are equal as soon as they list the same keys in the same order with the same values -/
theorem ext_of_keys {d e : Dict κ α} (wf : WF d) (hk : keys d = keys e)
    (hg : ∀ k, get? d k = get? e k) : d = e := by
  induction d generalizing e with
  | nil => cases e with
    | nil => rfl
    | cons x t => simp [keys] at hk
  | cons x t ih =>
    obtain ⟨k, v⟩ := x
    cases e with
    | nil => simp at hk
    | cons y s =>
      obtain ⟨k', v'⟩ := y
      simp only [keys_cons, List.cons.injEq] at hk
      obtain ⟨rfl, hk⟩ := hk
      simp only [WF, keys_cons, List.nodup_cons] at wf
      have h0 := hg k
      simp only [get?_cons, if_true, Option.some.injEq] at h0
      subst h0
      congr 1
      refine ih wf.2 hk fun j => ?_
      have hj := hg j
      simp only [get?_cons] at hj
      by_cases h : k = j
      · subst h
        rw [get?_eq_none.2 wf.1, get?_eq_none.2 (hk ▸ wf.1)]
      · simpa [h] using hj

end Dict
end Verif
