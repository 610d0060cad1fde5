import Verif.Lemmas.MapTodict
import Verif.Props.MapEdit
/-! # C141: `NestingDict.todict` on mappings that are shared or hold themselves -/
set_option linter.unusedSectionVars false
namespace Verif.Props
open Verif Verif.Model Verif.Spec Verif.Lemmas
variable {A : Type} [DecidableEq A]

mutual
theorem unf_append {h : MHeap A} (x : HMap A) {r : HVal A} {v : Val A} : Unf h r v → Unf (h ++ [x]) r v
  | .atom a => .atom a
  | .obj hn hi => by
    have hl := (List.getElem?_eq_some_iff.1 hn).1
    exact .obj (by rw [List.getElem?_append_left hl]; exact hn) (unfItems_append x hi)
theorem unfItems_append {h : MHeap A} (x : HMap A) {i : List (A × HVal A)} {l : List (A × Val A)} :
    UnfItems h i l → UnfItems (h ++ [x]) i l
  | .nil => .nil
  | .cons hv hl => .cons (unf_append x hv) (unfItems_append x hl)
end

theorem holds_unf {h : MHeap A} {mt : Tag → Bool} {a b : Nat} (hab : Holds h mt a b) {v : Val A} (hv : Unf h (.obj a) v) :
    ∃ w, Unf h (.obj b) w ∧ w.depth < v.depth := by
  obtain ⟨m, k, _, ha, hk, _, _⟩ := hab
  cases hv with
  | obj hn hi =>
    rw [ha] at hn; cases hn
    obtain ⟨w, h1, h2⟩ := unfItems_mem hi hk
    exact ⟨w, h1, by simp only [Val.depth]; omega⟩

/-- a mapping that holds itself shows no finite tree, nor does one that holds such a mapping -/
theorem no_unf_of_cycle {h : MHeap A} {mt : Tag → Bool} {n c : Nat} (hn : Relation.ReflTransGen (Holds h mt) n c)
    (hc : Relation.TransGen (Holds h mt) c c) (v : Val A) : ¬ Unf h (.obj n) v := by
  intro hv
  have reach : ∀ {a b}, Relation.ReflTransGen (Holds h mt) a b → ∀ {v}, Unf h (.obj a) v →
      ∃ w, Unf h (.obj b) w ∧ w.depth ≤ v.depth := by
    intro a b hab v hv
    induction hab with
    | refl => exact ⟨v, hv, Nat.le_refl _⟩
    | tail _ hbc ih =>
      obtain ⟨w, h1, h2⟩ := ih
      obtain ⟨u, g1, g2⟩ := holds_unf hbc h1
      exact ⟨u, g1, by omega⟩
  obtain ⟨w, hw, _⟩ := reach hn hv
  obtain ⟨d, hcd, hdc⟩ := Relation.TransGen.head'_iff.1 hc
  obtain ⟨u, g1, g2⟩ := holds_unf hcd hw
  obtain ⟨x, k1, k2⟩ := reach hdc g1
  have := unf_fun hw k1
  subst this
  omega

/-- the call of `dig_and_edit` and the `dict` around it -/
theorem todictH_parts {fuel : Nat} {h h' : MHeap A} {a r : Nat} (hd : DictsOnly h) (hok : MapsOK h) (hl : a < h.length)
    (hr : todictH fuel h a = some (r, h')) :
    ∃ g m, TDResult h g a ∧ DictsOnly g ∧ h.length ≤ g.length ∧ g[a]? = some m ∧ r = g.length ∧ h' = g ++ [⟨.dict, m.items⟩] := by
  simp only [todictH, bind] at hr
  cases hg : digEditH isNestingH toPlainH Tag.isDict fuel h a with
  | none => rw [hg] at hr; cases hr
  | some g =>
    rw [hg] at hr
    have ht := (td_main fuel).1 h a g hd hok hl hg
    have ht' := ht
    obtain ⟨⟨p, t⟩, _⟩ := ht'
    have hm := List.getElem?_eq_getElem (Nat.lt_of_lt_of_le hl t.len)
    simp only [Option.bind, dictOf, hm] at hr
    cases hr
    exact ⟨g, _, ht, t.dicts hd, t.len, hm, rfl, rfl⟩

/-- **C141** (result): whatever is shared below it, a `NestingDict` that shows a tree has `todict` return a new dict, and the
dict and `self` show then what `todict` makes of that tree -/
theorem C141_result (h : MHeap A) (a : Nat) (hd : DictsOnly h) (hok : MapsOK h) (v : Val A) (hv : Unf h (.obj a) v)
    (fuel : Nat) (hf : v.depth < fuel) :
    ∃ r h' w s, todictH fuel h a = some (r, h') ∧ todict fuel v = some (w, s) ∧ h.length ≤ r ∧
      Unf h' (.obj r) w ∧ Unf h' (.obj a) s := by
  have hl : a < h.length := by
    cases hv with
    | obj hn _ => exact (List.getElem?_eq_some_iff.1 hn).1
  obtain ⟨g, hg⟩ := (td_main fuel).2 h a v hd hok hv hf
  obtain ⟨⟨p, t⟩, hcl, _⟩ := (td_main fuel).1 h a g hd hok hl hg
  have hr : todictH fuel h a = some (dictOf g a) := by
    simp only [todictH, bind]
    rw [show digEditH isNestingH toPlainH Tag.isDict fuel h a = some g from hg]
    rfl
  cases e : dictOf g a with
  | mk r h' =>
  rw [e] at hr
  obtain ⟨g', m, _, _, hlen, hm, rfl, rfl⟩ := todictH_parts hd hok hl hr
  have : g' = g := by
    simp only [dictOf, List.getElem?_eq_getElem (Nat.lt_of_lt_of_le hl t.len)] at e
    have e2 := (Prod.mk.inj e).2
    have := congrArg List.dropLast e2
    simpa using this.symm
  subst this
  have hd' := t.dicts hd
  obtain ⟨v1, hv1, _, _, hpi⟩ := t.morph.unf hd (.obj a) (by simp only [HVal.proj]; rw [t.ids a hl]) hv
  cases hv with
  | @obj _ m0 l hn hi =>
    cases hv1 with
    | @obj _ m1 l1 hn1 hi1 =>
      rw [hm] at hn1
      cases hn1
      have htag := t.tags a m0 m hn hm
      have hpl : plainItems l1 = l1 := unfItems_plain hi1 (fun k c hk => by
        have hh := holds_of_mem hd' hm hk
        exact ⟨hcl c (.single hh), fun b hb => hcl b (.head hh hb)⟩) hd'
      simp only [Val.items_map] at hpi
      rw [hpl] at hpi
      subst hpi
      refine ⟨_, _, _, _, hr, todict_eq m0.tag l fuel hf, hlen, ?_, ?_⟩
      · exact .obj (m := ⟨.dict, m.items⟩) (by simp) (unfItems_append _ hi1)
      · have := Unf.obj (n := a) (m := m) (h := g' ++ [⟨.dict, m.items⟩])
          (by rw [List.getElem?_append_left (List.getElem?_eq_some_iff.1 hm).1]; exact hm) (unfItems_append _ hi1)
        rw [htag] at this
        exact this

/-- **C141** (effects): when `todict` returns, the mappings there were are as they were, except `self` and the mappings below
it that are not `NestingDict`s. They all keep their class and their keys in order. Every mapping that was made is a plain
dict. -/
theorem C141_effects (h h' : MHeap A) (a r : Nat) (hd : DictsOnly h) (hok : MapsOK h) (hl : a < h.length) (fuel : Nat)
    (hr : todictH fuel h a = some (r, h')) :
    (∀ b, b < h.length → b ≠ a → (IsNesting h b ∨ ¬ Below h a b) → h'[b]? = h[b]?) ∧
    (∀ (b : Nat) m, h[b]? = some m → ∃ m', h'[b]? = some m' ∧ m'.tag = m.tag ∧ Dict.keys m'.items = Dict.keys m.items) ∧
    (∀ (b : Nat) m, h.length ≤ b → h'[b]? = some m → m.tag = .dict) := by
  obtain ⟨g, m, ⟨⟨p, t⟩, _⟩, _, hlen, hm, rfl, rfl⟩ := todictH_parts hd hok hl hr
  have hold : ∀ b, b < h.length → (g ++ [⟨.dict, m.items⟩])[b]? = g[b]? := fun b hb =>
    List.getElem?_append_left (Nat.lt_of_lt_of_le hb hlen)
  refine ⟨fun b hb hba hc => ?_, fun b mb hb => ?_, fun b mb hb hmb => ?_⟩
  · rw [hold b hb]
    refine t.frame b hb fun hmc => ?_
    rcases hmc with e | ⟨h1, h2⟩
    · exact hba e
    · rcases hc with h3 | h3
      · exact h2 h3
      · exact h3 h1
  · have hbl := (List.getElem?_eq_some_iff.1 hb).1
    rw [hold b hbl]
    rcases t.morph b with ⟨e, _⟩ | ⟨m1, m2, e1, e2, _, hib⟩
    · rw [t.ids b hbl, hb] at e; cases e
    · rw [t.ids b hbl, hb] at e1
      cases e1
      exact ⟨m2, e2, t.tags b _ m2 hb e2, hib.keys.symm⟩
  · by_cases hbg : b < g.length
    · rw [List.getElem?_append_left hbg] at hmb
      exact t.fresh b mb hb hmb
    · rw [List.getElem?_append_right (by omega)] at hmb
      cases hi : b - g.length with
      | zero => rw [hi] at hmb; cases hmb; rfl
      | succ n => rw [hi] at hmb; cases hmb

/-- **C141** (cycles): when `self`, or a mapping below it, holds itself, there is no recursion limit under which `todict`
returns -/
theorem C141_cycle (h : MHeap A) (a c : Nat) (hd : DictsOnly h) (hok : MapsOK h) (hl : a < h.length)
    (hn : Relation.ReflTransGen (Holds h Tag.isDict) a c) (hc : Below h c c) (fuel : Nat) : todictH fuel h a = none := by
  cases hr : todictH fuel h a with
  | none => rfl
  | some x =>
    obtain ⟨r, h'⟩ := x
    obtain ⟨_, _, ⟨_, _, v, hv⟩, _⟩ := todictH_parts hd hok hl hr
    exact absurd hv (no_unf_of_cycle hn hc v)

/-! ## witnesses -/

/-- `x` a `NestingDict` in two places of the `NestingDict` `d`, and a plain dict that holds it too:
`d = {'a': x, 'b': x, 'c': {'e': x}}; x = {'n': 1}` -/
def nestShared : MHeap Nat :=
  [⟨.nesting, [(0, .obj 1), (1, .obj 1), (2, .obj 2)]⟩, ⟨.nesting, [(5, .atom 1)]⟩, ⟨.dict, [(4, .obj 1)]⟩]

theorem nestShared_dicts : DictsOnly nestShared := by
  intro m hm
  simp only [nestShared, List.mem_cons, List.not_mem_nil, or_false] at hm
  rcases hm with rfl | rfl | rfl <;> refine ⟨rfl, fun k b hb => ?_⟩ <;> simp at hb <;> simp [nestShared] <;> omega

theorem nestShared_ok : MapsOK nestShared := by
  intro m hm
  simp only [nestShared, List.mem_cons, List.not_mem_nil, or_false] at hm
  rcases hm with rfl | rfl | rfl <;> simp [Dict.WF, Dict.keys]

/-- three copies of `x` are made, `x` itself stays as it is and is no longer in `d`; the plain dict is changed in place -/
example : todictH 4 nestShared 0 = some (6,
    [⟨.nesting, [(0, .obj 3), (1, .obj 4), (2, .obj 2)]⟩, ⟨.nesting, [(5, .atom 1)]⟩, ⟨.dict, [(4, .obj 5)]⟩,
     ⟨.dict, [(5, .atom 1)]⟩, ⟨.dict, [(5, .atom 1)]⟩, ⟨.dict, [(5, .atom 1)]⟩,
     ⟨.dict, [(0, .obj 3), (1, .obj 4), (2, .obj 2)]⟩]) := rfl

example : ∃ r h' w s, todictH 4 nestShared 0 = some (r, h') ∧
    todict 4 (.map .nesting [(0, .map .nesting [(5, .atom 1)]), (1, .map .nesting [(5, .atom 1)]),
      (2, .map .dict [(4, .map .nesting [(5, .atom 1)])])]) = some (w, s) ∧ nestShared.length ≤ r ∧
      Unf h' (.obj r) w ∧ Unf h' (.obj 0) s :=
  C141_result nestShared 0 nestShared_dicts nestShared_ok _
    (.obj rfl (.cons (.obj rfl (.cons (.atom 1) .nil)) (.cons (.obj rfl (.cons (.atom 1) .nil))
      (.cons (.obj rfl (.cons (.obj rfl (.cons (.atom 1) .nil)) .nil)) .nil)))) 4 (by decide)

/-- `d = NestingDict(); d['a']['b'] = d` -/
def nestLoop : MHeap Nat := [⟨.nesting, [(0, .obj 1)]⟩, ⟨.nesting, [(1, .obj 0)]⟩]

example (fuel : Nat) : todictH fuel nestLoop 0 = none :=
  C141_cycle nestLoop 0 0
    (by
      intro m hm
      simp only [nestLoop, List.mem_cons, List.not_mem_nil, or_false] at hm
      rcases hm with rfl | rfl <;> refine ⟨rfl, fun k b hb => ?_⟩ <;> simp at hb <;> simp [nestLoop] <;> omega)
    (by
      intro m hm
      simp only [nestLoop, List.mem_cons, List.not_mem_nil, or_false] at hm
      rcases hm with rfl | rfl <;> simp [Dict.WF, Dict.keys])
    (by decide) .refl
    (.tail (b := 1) (.single ⟨_, 0, _, rfl, by simp, rfl, rfl⟩) ⟨_, 1, _, rfl, by simp, rfl, rfl⟩) fuel

end Verif.Props
