import Verif.Lemmas.Dig
/-!
# C05–C08: the dig family
-/
namespace Verif.Props
open Verif Verif.Model Verif.Spec Verif.Lemmas
variable {A : Type}

theorem before_irrefl : ∀ p : List Nat, ¬ Before p p
  | [] => by simp [Before]
  | [i] => by simp [Before]
  | i :: j :: is => by
    simp only [Before, Nat.lt_irrefl, true_and, false_or]
    exact before_irrefl (j :: is)

/-- **C05**. With a predicate `p` that never raises, `dig_for_items` returns the pairs at exactly the matching
positions `ps` of the nested mapping, each position once, in the order "a level before its sublevels, sublevels in
order"; it returns `None` exactly when no position matches. -/
theorem C05_dig_for_items (mt : Tag → Bool) (p : A → Val A → Bool) (m : Match) (v : Val A)
    (hv : v.isMapping = true) :
    ∃ (ps : List (List Nat)) (r : List (A × Val A)),
      ps.Pairwise Before ∧ ps.Nodup ∧ (∀ pos, pos ∈ ps ↔ MatchAt mt p v pos) ∧
      ps.map (itemAt mt · v) = r.map some ∧
      digForItems v (.callable fun k w => .ok (p k w)) m mt = .ok (if r = [] then none else some r) ∧
      (digForItems v (.callable fun k w => .ok (p k w)) m mt = .ok none ↔ ∀ pos, ¬ MatchAt mt p v pos) := by
  obtain ⟨ps, h1, h2, r, h3, h4⟩ := digForAll_ok mt p v hv
  have hd : digForItems v (.callable fun k w => .ok (p k w)) m mt = .ok (if r = [] then none else some r) := by
    have h3' : digForAll (constantToDigPredicate (.callable fun k w => .ok (p k w)) m) mt v = .ok r := h3
    simp only [digForItems, h3', bind, Except.bind, pure, Except.pure]
    cases r <;> simp
  refine ⟨ps, r, h1, ?_, h2, h4, hd, ?_⟩
  · refine h1.imp ?_
    intro a b hab heq
    subst heq
    exact before_irrefl _ hab
  · rw [hd]
    have hlen : ps.length = r.length := by
      have := congrArg List.length h4
      simpa using this
    constructor
    · intro h pos hpos
      have : r = [] := by
        by_contra hne
        simp [hne] at h
      subst this
      have : ps = [] := List.eq_nil_of_length_eq_zero (by simpa using hlen)
      subst this
      exact absurd ((h2 pos).2 hpos) (by simp)
    · intro h
      have : ps = [] := List.eq_nil_iff_forall_not_mem.2 fun pos hpos => h pos ((h2 pos).1 hpos)
      subst this
      have : r = [] := List.eq_nil_of_length_eq_zero (by simpa using hlen.symm)
      simp [this]

/-- **C05**. `dig_for_keys` and `dig_for_values` are the projections of `dig_for_items`, for every `ref` (also one that
raises) and every argument. -/
theorem C05_projections (mt : Tag → Bool) (ref : Ref A) (m : Match) (v : Val A) :
    digForKeys v ref m mt = (digForItems v ref m mt).map (Option.map (List.map Prod.fst)) ∧
    digForValues v ref m mt = (digForItems v ref m mt).map (Option.map (List.map Prod.snd)) := by
  simp only [digForKeys, digForValues, digForItems, bind, Except.bind, pure, Except.pure]
  cases digForAll (constantToDigPredicate ref m) mt v with
  | error e => simp [Except.map]
  | ok r => cases r <;> simp [Except.map]

/-- witness: {1: {5: 10}, 2: 3, 5: 7} searched for key 5 -/
example :
    digForItems (A := Nat) (.map .dict [(1, .map .dict [(5, .atom 10)]), (2, .atom 3), (5, .atom 7)])
      (.callable fun k _ => .ok (k == 5)) .key Tag.isDict = .ok (some [(5, .atom 7), (5, .atom 10)]) := rfl

/-- the same search with a predicate matching nothing -/
example : digForItems (A := Nat) (.map .dict [(1, .map .dict [(5, .atom 10)])])
      (.callable fun k _ => .ok (k == 6)) .key Tag.isDict = .ok none := rfl

/-- **C06**. `dig_for_item` is the first pair of `dig_for_items`, and `None` exactly when that is `None`; likewise for
keys and values. -/
theorem C06_first_of_all (mt : Tag → Bool) (p : A → Val A → Bool) (m : Match) (v : Val A)
    (hv : v.isMapping = true) :
    let ref : Ref A := .callable fun k w => .ok (p k w)
    digForItem v ref m mt = (digForItems v ref m mt).map (fun o => o.bind List.head?) ∧
    digForKey v ref m mt = (digForKeys v ref m mt).map (fun o => o.bind List.head?) ∧
    digForValue v ref m mt = (digForValues v ref m mt).map (fun o => o.bind List.head?) ∧
    (digForItem v ref m mt = .ok none ↔ digForItems v ref m mt = .ok none) := by
  intro ref
  obtain ⟨r, h1, h2⟩ := digFor_prefix mt p v hv
  have h1' : digForAll (constantToDigPredicate ref m) mt v = .ok r := h1
  rcases h2 with ⟨rfl, h2⟩ | ⟨h, t, u, rfl, h2⟩
  · have h2' : digFor (constantToDigPredicate ref m) mt v = .ok none := h2
    simp [digForItem, digForKey, digForValue, digForItems, digForKeys, digForValues, h1', h2', bind, Except.bind,
      pure, Except.pure, Except.map]
  · have h2' : digFor (constantToDigPredicate ref m) mt v = .ok (some (h :: t)) := h2
    simp [digForItem, digForKey, digForValue, digForItems, digForKeys, digForValues, h1', h2', bind, Except.bind,
      pure, Except.pure, Except.map]

example : digForValue (A := Nat) (.map .dict [(1, .map .dict [(5, .atom 10)]), (2, .atom 3), (5, .atom 7)])
      (.callable fun k _ => .ok (k == 5)) .key Tag.isDict = .ok (some (.atom 7)) := rfl

/-- the item returned by `dig_for_item` is found at a position of least depth among all matches -/
def ReturnsShallowest (mt : Tag → Bool) (p : A → Val A → Bool) (v : Val A) : Prop :=
  ∀ kv, digForItem v (.callable fun k w => .ok (p k w)) .key mt = .ok (some kv) →
    ∃ pos, itemAt mt pos v = some kv ∧ ∀ pos', MatchAt mt p v pos' → pos.length ≤ pos'.length

/-- **C07 is false of the code**: on `{0: {1: {5: 10}}, 2: {5: 20}}` the search for key 5 returns the deeper item. -/
theorem C07_not_breadth_first :
    ¬ ∀ (mt : Tag → Bool) (p : Nat → Val Nat → Bool) (v : Val Nat), v.isMapping = true → ReturnsShallowest mt p v := by
  intro h
  have h := h Tag.isDict (fun k _ => k == 5)
    (.map .dict [(0, .map .dict [(1, .map .dict [(5, .atom 10)])]), (2, .map .dict [(5, .atom 20)])]) rfl
    (5, .atom 10) rfl
  obtain ⟨pos, h1, h2⟩ := h
  have h3 := h2 [1, 0] ⟨(5, .atom 20), rfl, rfl⟩
  match pos, h1, h3 with
  | [0], h1, _ => simp [itemAt] at h1
  | [1], h1, _ => simp [itemAt] at h1
  | [i + 2], h1, _ => simp [itemAt] at h1
  | [0, 0], h1, _ => simp [itemAt, Tag.isDict] at h1
  | [0, i + 1], h1, _ => simp [itemAt, Tag.isDict] at h1
  | [1, 0], h1, _ => simp [itemAt, Tag.isDict] at h1
  | [1, i + 1], h1, _ => simp [itemAt, Tag.isDict] at h1
  | [i + 2, j], h1, _ => simp [itemAt] at h1

/-- **C07 (partial)**. What holds instead: the returned item is at the position that comes first in the order "a level
before its sublevels, sublevels in order". Hence no mapping enclosing the returned item has a match of its own: a match
that is strictly shallower than the returned one lies in a mapping which does not enclose it. In particular a match at
the top level is always preferred. Missing: matches in later, shallower siblings are not preferred. -/
theorem C07_shallowest_partial (mt : Tag → Bool) (p : A → Val A → Bool) (m : Match) (v : Val A)
    (hv : v.isMapping = true) (kv : A × Val A)
    (h : digForItem v (.callable fun k w => .ok (p k w)) m mt = .ok (some kv)) :
    ∃ pos, itemAt mt pos v = some kv ∧ p kv.1 kv.2 = true ∧
      (∀ pos', MatchAt mt p v pos' → pos' = pos ∨ Before pos pos') ∧
      (∀ pos', MatchAt mt p v pos' → pos'.length < pos.length → ¬ pos'.dropLast <+: pos) ∧
      ((∃ i, MatchAt mt p v [i]) → pos.length = 1) := by
  obtain ⟨ps, r, h1, _, h3, h4, h5, _⟩ := C05_dig_for_items mt p m v hv
  have h6 := (C06_first_of_all mt p m v hv).1
  rw [h, h5] at h6
  match r, ps, h4, h5, h6, h1, h3 with
  | [], _, _, _, h6, _, _ => simp [Except.map] at h6
  | x :: r, [], h4, _, _, _, _ => simp at h4
  | x :: r, pos :: ps, h4, _, h6, h1, h3 =>
    simp [Except.map] at h6
    subst h6
    simp only [List.map_cons, List.cons.injEq] at h4
    have hm := (h3 pos).1 (by simp)
    have hb : ∀ pos', MatchAt mt p v pos' → pos' = pos ∨ Before pos pos' := by
      intro pos' h'
      rcases List.mem_cons.1 ((h3 pos').2 h') with h | h
      · exact Or.inl h
      · exact Or.inr ((List.pairwise_cons.1 h1).1 _ h)
    have key : ∀ a b : List Nat, Before a b → b.length < a.length → ¬ b.dropLast <+: a := by
      intro a
      induction a with
      | nil => intro b hab; simp [Before] at hab
      | cons i is ih =>
        intro b hab hlt
        match is, b, hab, hlt, ih with
        | [], [j], _, hlt, _ => simp at hlt
        | [], _ :: _ :: _, _, hlt, _ => simp at hlt
        | i' :: is, [], hab, _, _ => simp [Before] at hab
        | i' :: is, [j], hab, _, _ => simp [Before] at hab
        | i' :: is, j :: j' :: js, hab, hlt, ih =>
          simp only [Before] at hab
          simp only [List.dropLast_cons_cons, List.cons_prefix_cons]
          rintro ⟨rfl, hpre⟩
          rcases hab with hab | ⟨_, hab⟩
          · exact absurd hab (Nat.lt_irrefl _)
          · exact ih (j' :: js) hab (by simpa using hlt) hpre
    refine ⟨pos, h4.1, ?_, hb, ?_, ?_⟩
    · obtain ⟨kv', ha, hb⟩ := hm
      rw [h4.1] at ha
      cases ha
      exact hb
    · intro pos' h' hlt
      rcases hb pos' h' with rfl | hbe
      · exact absurd hlt (Nat.lt_irrefl _)
      · exact key _ _ hbe hlt
    · rintro ⟨i, hi⟩
      rcases hb _ hi with rfl | hbe
      · rfl
      · match pos, hbe with
        | [j], _ => rfl
        | _ :: _ :: _, hbe => simp [Before] at hbe

example : digForItem (A := Nat) (.map .dict [(0, .map .dict [(1, .map .dict [(5, .atom 10)])]),
    (2, .map .dict [(5, .atom 20)])]) (.callable fun k _ => .ok (k == 5)) .key Tag.isDict
    = .ok (some (5, .atom 10)) := rfl

/-- **C08 (partial)**. A constant with `match="key"` searches by key, with `match="value"` by value, and a callable is
used as the predicate whatever `match` is. Missing: `match="item"`, see `C08_item_raises`. -/
theorem C08_constants_partial (mt : Tag → Bool) (onKey : A → Bool) (onVal : Val A → Bool) (v : Val A) :
    digForItems v (.const onKey onVal) .key mt = digForItems v (.callable fun k _ => .ok (onKey k)) .key mt ∧
    digForItems v (.const onKey onVal) .value mt = digForItems v (.callable fun _ w => .ok (onVal w)) .key mt ∧
    digForItem v (.const onKey onVal) .key mt = digForItem v (.callable fun k _ => .ok (onKey k)) .key mt ∧
    digForItem v (.const onKey onVal) .value mt = digForItem v (.callable fun _ w => .ok (onVal w)) .key mt ∧
    (∀ (p : DigPred A) (m m' : Match), digForItems v (.callable p) m mt = digForItems v (.callable p) m' mt ∧
      digForItem v (.callable p) m mt = digForItem v (.callable p) m' mt) :=
  ⟨rfl, rfl, rfl, rfl, fun _ _ _ => ⟨rfl, rfl⟩⟩

/-- **C08 is false of the code for `match="item"`** (and for an unrecognised `match`): on every non-empty mapping all
six functions raise `TypeError`. -/
theorem C08_item_raises (mt : Tag → Bool) (onKey : A → Bool) (onVal : Val A → Bool) (t : Tag) (x : A × Val A)
    (l : List (A × Val A)) (m : Match) (hm : m = .item ∨ m = .unknown) :
    let v := Val.map t (x :: l)
    let ref := Ref.const onKey onVal
    digForItems v ref m mt = .error .typeError ∧ digForKeys v ref m mt = .error .typeError ∧
    digForValues v ref m mt = .error .typeError ∧ digForItem v ref m mt = .error .typeError ∧
    digForKey v ref m mt = .error .typeError ∧ digForValue v ref m mt = .error .typeError := by
  obtain ⟨k, w⟩ := x
  rcases hm with rfl | rfl <;> exact ⟨rfl, rfl, rfl, rfl, rfl, rfl⟩

/-- `dig_for_item({1: 2}, (1, 2), match="item")` raises, although the item `(1, 2)` is there -/
example : digForItem (A := Nat) (.map .dict [(1, .atom 2)])
    (.const (fun _ => false) (fun _ => false)) .item Tag.isDict = .error .typeError := rfl

end Verif.Props
