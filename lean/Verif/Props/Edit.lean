import Verif.Lemmas.Edit
/-!
# C09: `dig_and_edit`; C04 and C73: `NestingDict.todict`
-/
set_option linter.unusedSectionVars false
namespace Verif.Props
open Verif Verif.Model Verif.Spec Verif.Lemmas
variable {A : Type} [DecidableEq A]

/-- **C09** (result). Whenever `dig_and_edit` returns, its result is the edited mapping described by `Edited`, which
is unique; the keys of the mapping and their order are unchanged. -/
theorem C09_result (filter : A → Val A → Bool) (setter : A → Val A → Val A) (mt : Tag → Bool) (fuel : Nat)
    (v r : Val A) (h : digAndEdit filter setter mt fuel v = some r) :
    Edited filter setter mt v r ∧ (∀ r', Edited filter setter mt v r' → r' = r) ∧
    r.items.map Prod.fst = v.items.map Prod.fst := by
  have he := digAndEdit_edited filter setter mt fuel v r h
  refine ⟨he, fun r' h' => edited_functional h' he, ?_⟩
  cases he with
  | atom => rfl
  | map hi => exact editedItems_keys hi

/-- **C09** (termination). If no setter result is deeper than the value it replaces, `dig_and_edit` returns: from a
recursion depth of `v.depth + 1` on the result exists and does not depend on the bound. -/
theorem C09_terminates (filter : A → Val A → Bool) (setter : A → Val A → Val A) (mt : Tag → Bool)
    (hd : ∀ k v, filter k v = true → (setter k v).depth ≤ v.depth) (v : Val A) :
    ∃ r, Edited filter setter mt v r ∧ ∀ fuel, v.depth < fuel → digAndEdit filter setter mt fuel v = some r := by
  obtain ⟨r, hr⟩ := digAndEdit_terminates filter setter mt hd (v.depth + 1) v (by omega)
  have he := digAndEdit_edited filter setter mt _ v r hr
  refine ⟨r, he, fun fuel hf => ?_⟩
  obtain ⟨r', hr'⟩ := digAndEdit_terminates filter setter mt hd fuel v hf
  rw [hr', edited_functional (digAndEdit_edited filter setter mt _ v r' hr') he]

/-- the depth condition cannot be dropped: wrapping every value in a new dict recurses without end -/
theorem C09_diverges_without_depth_bound (k : A) (t : Tag) (x : A × Val A) (l : List (A × Val A)) (fuel : Nat) :
    digAndEdit (fun _ _ => true) (fun _ v => .map .dict [(k, v)]) Tag.isDict fuel (.map t (x :: l)) = none := by
  induction fuel generalizing t x l with
  | zero => rfl
  | succ fuel ih =>
    obtain ⟨k', v⟩ := x
    rw [digAndEdit_map]
    have : editStep (fun _ _ => true) (fun _ v => Val.map .dict [(k, v)]) Tag.isDict fuel (k', v) = none := by
      simp [editStep, editItem, Tag.isDict, ih]
    simp [List.mapM_cons, this, bind]

/-- witness: incrementing every number below 10 in {1: 5, 2: {3: 7, 4: 20}} -/
example : digAndEdit (A := Nat) (fun _ v => match v with | .atom n => decide (n < 10) | _ => false)
    (fun _ v => match v with | .atom n => .atom (n + 1) | w => w) Tag.isDict 5
    (.map .dict [(1, .atom 5), (2, .map .dict [(3, .atom 7), (4, .atom 20)])]) =
    some (.map .dict [(1, .atom 6), (2, .map .dict [(3, .atom 8), (4, .atom 20)])]) := rfl

theorem depth_toPlain (v : Val A) : (toPlain v).depth = v.depth := by cases v <;> rfl

theorem plainTree_items (v : Val A) (hv : v.isA Tag.isDict = true) (t : Tag) (l) (h : v = .map t l) :
    plainTree v = .map (if t = .nesting then .dict else t) (plainItems l) := by
  subst h
  simp only [Val.isA_map] at hv
  simp [plainTree, hv]

/-- the edit performed by `todict` -/
theorem edited_plain (v : Val A) : ∀ t, Edited (fun _ v => isNesting v) (fun _ v => toPlain v) Tag.isDict
    (.map t v.items) (.map t (plainItems v.items)) := by
  induction v using Val.induct with
  | hatom a => intro t; exact .map .nil
  | hmap t0 l ih =>
    intro t
    refine .map ?_
    simp only [Val.items_map]
    induction l with
    | nil => exact .nil
    | cons x r ihl =>
      obtain ⟨k, v⟩ := x
      have hrest := ihl fun k' v' h => ih k' v' (List.mem_cons_of_mem _ h)
      have hv := ih k v (by simp)
      cases v with
      | atom a => exact .keep rfl rfl rfl hrest
      | map t' l' =>
        cases t' with
        | nesting => exact .setIn rfl rfl (hv .dict) hrest
        | other => exact .keep rfl rfl rfl hrest
        | dict => exact .keepIn rfl rfl (hv .dict) hrest
        | ordered => exact .keepIn rfl rfl (hv .ordered) hrest

theorem todict_eq (t : Tag) (l : List (A × Val A)) (fuel : Nat) (hf : (Val.map t l).depth < fuel) :
    todict fuel (.map t l) = some (.map .dict (plainItems l), .map t (plainItems l)) := by
  obtain ⟨r, he, hr⟩ := C09_terminates (fun (_ : A) v => isNesting v) (fun _ v => toPlain v) Tag.isDict
    (fun k v _ => Nat.le_of_eq (depth_toPlain v)) (.map t l)
  have : r = .map t (plainItems l) := edited_functional he (edited_plain (.map t l) t)
  simp only [todict, hr fuel hf, this, bind, Option.bind]
  rfl

theorem plainItems_getElem? (l : List (A × Val A)) (i : Nat) :
    (plainItems l)[i]? = (l[i]?).map fun kv => (kv.1, plainTree kv.2) := by
  induction l generalizing i with
  | nil => simp [plainItems]
  | cons x r ih =>
    obtain ⟨k, v⟩ := x
    cases i <;> simp [plainItems, ih]

theorem itemAt_plain (pos : List Nat) : ∀ (t t' : Tag) (l : List (A × Val A)),
    itemAt Tag.isDict pos (.map t' (plainItems l)) =
      (itemAt Tag.isDict pos (.map t l)).map fun kv => (kv.1, plainTree kv.2) := by
  induction pos with
  | nil => intros; rfl
  | cons i is ih =>
    intro t t' l
    cases is with
    | nil => simp only [itemAt, plainItems_getElem?]
    | cons j js =>
      simp only [itemAt, plainItems_getElem?]
      cases l[i]? with
      | none => rfl
      | some kv =>
        obtain ⟨k, v⟩ := kv
        cases v with
        | atom a => rfl
        | map tv lv =>
          cases tv with
          | other => rfl
          | dict => exact ih .dict .dict lv
          | ordered => exact ih .ordered .ordered lv
          | nesting => exact ih .nesting .dict lv

/-- **C04**. `todict` returns (for every `NestingDict`, at every sufficient recursion depth) a plain dict in which no
item reachable through dicts is a `NestingDict`, with the same key at every position and the same non-dict values. -/
theorem C04_todict (l : List (A × Val A)) (fuel : Nat) (hf : (Val.map .nesting l).depth < fuel) :
    ∃ items self', todict fuel (.map .nesting l) = some (.map .dict items, self') ∧
      (∀ pos k w, itemAt Tag.isDict pos (.map .dict items) = some (k, w) → isNesting w = false) ∧
      (∀ pos, (itemAt Tag.isDict pos (.map .dict items)).map Prod.fst =
        (itemAt Tag.isDict pos (.map .nesting l)).map Prod.fst) ∧
      (∀ pos k w, w.isA Tag.isDict = false →
        (itemAt Tag.isDict pos (.map .dict items) = some (k, w) ↔
          itemAt Tag.isDict pos (.map .nesting l) = some (k, w))) := by
  refine ⟨plainItems l, .map .nesting (plainItems l), todict_eq _ _ _ hf, ?_, ?_, ?_⟩
  · intro pos k w h
    rw [itemAt_plain pos .nesting .dict] at h
    cases hi : itemAt Tag.isDict pos (.map .nesting l) with
    | none => simp [hi] at h
    | some kv =>
      simp only [hi, Option.map_some, Option.some.injEq, Prod.mk.injEq] at h
      rw [← h.2]
      cases kv.2 with
      | atom a => rfl
      | map t l => cases t <;> rfl
  · intro pos
    rw [itemAt_plain pos .nesting .dict, Option.map_map]
    rfl
  · intro pos k w hw
    rw [itemAt_plain pos .nesting .dict]
    cases hi : itemAt Tag.isDict pos (.map .nesting l) with
    | none => simp
    | some kv =>
      obtain ⟨k', v⟩ := kv
      simp only [Option.map_some, Option.some.injEq, Prod.mk.injEq]
      refine and_congr_right fun _ => ?_
      cases v with
      | atom a => simp [plainTree]
      | map t l' =>
        cases t with
        | other => simp [plainTree, Tag.isDict]
        | dict => constructor <;> (intro h; subst h; simp [plainTree, Tag.isDict] at hw)
        | ordered => constructor <;> (intro h; subst h; simp [plainTree, Tag.isDict] at hw)
        | nesting => constructor <;> (intro h; subst h; simp [plainTree, Tag.isDict] at hw)

example : todict (A := Nat) 4 (.map .nesting [(1, .map .nesting [(2, .atom 7), (3, .map .nesting [])])]) =
    some (.map .dict [(1, .map .dict [(2, .atom 7), (3, .map .dict [])])],
      .map .nesting [(1, .map .dict [(2, .atom 7), (3, .map .dict [])])]) := rfl

/-- **C73** (the documented modification, shown on an example): `todict` converts the levels below the top of the
`NestingDict` itself, so that afterwards an assignment or read below a level that existed raises `KeyError` where it
used to create the path. -/
theorem C73_todict_changes_self :
    ∃ (nd r self' : Val Nat), todict 4 nd = some (r, self') ∧ self' ≠ nd ∧
      (∃ v nd', getPathND [1, 5, 6] nd = .ok (v, nd')) ∧ getPathND [1, 5, 6] self' = .error .keyError ∧
      setPathND [1, 5, 6] (.atom 0) self' = .error .keyError := by
  refine ⟨.map .nesting [(1, .map .nesting [(2, .atom 7)])], .map .dict [(1, .map .dict [(2, .atom 7)])],
    .map .nesting [(1, .map .dict [(2, .atom 7)])], rfl, ?_, ⟨_, _, rfl⟩, rfl, rfl⟩
  intro h
  simp at h

/-- **C73**: scalar contents and keys of the `NestingDict` survive `todict` at every position, and the top level stays a
`NestingDict`: nothing changes but the class of the levels below. -/
theorem C73_todict_keeps_contents (l : List (A × Val A)) (fuel : Nat)
    (hf : (Val.map .nesting l).depth < fuel) :
    ∃ r items, todict fuel (.map .nesting l) = some (r, .map .nesting items) ∧
      (∀ pos, (itemAt Tag.isDict pos (.map .nesting items)).map Prod.fst =
        (itemAt Tag.isDict pos (.map .nesting l)).map Prod.fst) ∧
      (∀ pos k a, itemAt Tag.isDict pos (.map .nesting l) = some (k, .atom a) →
        itemAt Tag.isDict pos (.map .nesting items) = some (k, .atom a)) := by
  refine ⟨_, plainItems l, todict_eq _ _ _ hf, ?_, ?_⟩
  · intro pos
    rw [itemAt_plain pos .nesting .nesting, Option.map_map]
    rfl
  · intro pos k a h
    rw [itemAt_plain pos .nesting .nesting, h]
    rfl

end Verif.Props
