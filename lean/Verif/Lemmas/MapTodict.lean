import Mathlib.Data.List.Forall2
import Verif.Lemmas.MapEdit
/-! Helper lemmas for `NestingDict.todict` on mappings as objects. -/
set_option linter.unusedSectionVars false
namespace Verif.Lemmas
open Verif Verif.Model Verif.Spec
variable {A : Type} [DecidableEq A]

/-- the value with its address changed -/
def HVal.proj (p : Nat → Nat) : HVal A → HVal A
  | .atom a => .atom a
  | .obj n => .obj (p n)

theorem HVal.proj_id (v : HVal A) : HVal.proj (fun n => n) v = v := by cases v <;> rfl

theorem HVal.proj_comp (p q : Nat → Nat) (v : HVal A) : HVal.proj p (HVal.proj q v) = HVal.proj (fun n => p (q n)) v := by
  cases v <;> rfl

/-- the same class, or a dict in place of a `NestingDict` -/
def TagTo (t t' : Tag) : Prop := t' = t ∨ (t = .nesting ∧ t' = .dict)

/-- entries of the later heap are those of the earlier one, addresses taken back by `p` -/
def ItemsBack (p : Nat → Nat) (l l' : List (A × HVal A)) : Prop :=
  List.Forall₂ (fun x y => x.1 = y.1 ∧ x.2 = HVal.proj p y.2) l l'

/-- every mapping of the later heap is a mapping of the earlier one, or a copy -/
def Morph (p : Nat → Nat) (h h' : MHeap A) : Prop :=
  ∀ n : Nat, (h[p n]? = none ∧ h'[n]? = none) ∨ ∃ m m', h[p n]? = some m ∧ h'[n]? = some m' ∧ TagTo m.tag m'.tag ∧
    ItemsBack p m.items m'.items

theorem ItemsBack.refl (l : List (A × HVal A)) : ItemsBack (fun n => n) l l :=
  List.forall₂_same.2 fun x _ => ⟨rfl, (HVal.proj_id x.2).symm⟩

theorem Morph.refl (h : MHeap A) : Morph (fun n => n) h h := by
  intro n
  cases hn : h[n]? with
  | none => exact .inl ⟨rfl, rfl⟩
  | some m => exact .inr ⟨m, m, rfl, rfl, .inl rfl, ItemsBack.refl _⟩

theorem TagTo.trans {t t' t'' : Tag} (h1 : TagTo t t') (h2 : TagTo t' t'') : TagTo t t'' := by
  rcases h1 with rfl | ⟨rfl, rfl⟩
  · exact h2
  · rcases h2 with rfl | ⟨h, _⟩
    · exact .inr ⟨rfl, rfl⟩
    · cases h

theorem ItemsBack.trans {p q : Nat → Nat} : ∀ {l l' l'' : List (A × HVal A)}, ItemsBack p l l' → ItemsBack q l' l'' →
    ItemsBack (fun n => p (q n)) l l''
  | _, _, _, .nil, .nil => .nil
  | _, _, _, .cons h1 t1, .cons h2 t2 =>
    .cons ⟨h1.1.trans h2.1, by rw [h1.2, h2.2, HVal.proj_comp]⟩ (ItemsBack.trans t1 t2)

theorem Morph.trans {p q : Nat → Nat} {h h' h'' : MHeap A} (h1 : Morph p h h') (h2 : Morph q h' h'') :
    Morph (fun n => p (q n)) h h'' := by
  intro n
  rcases h2 n with ⟨a, b⟩ | ⟨m, m', a, b, c, d⟩
  · rcases h1 (q n) with ⟨a', _⟩ | ⟨_, _, _, b', _⟩
    · exact .inl ⟨a', b⟩
    · rw [a] at b'; cases b'
  · rcases h1 (q n) with ⟨_, b'⟩ | ⟨m1, m2, a', b', c', d'⟩
    · rw [a] at b'; cases b'
    · rw [a] at b'; cases b'
      exact .inr ⟨m1, m', a', b, c'.trans c, d'.trans d⟩

theorem ItemsBack.mem {p : Nat → Nat} : ∀ {l l' : List (A × HVal A)}, ItemsBack p l l' → ∀ {k : A} {v : HVal A}, (k, v) ∈ l' →
    (k, HVal.proj p v) ∈ l
  | _, _, .nil, _, _, hm => by cases hm
  | _, _, .cons (a := x) (b := y) h1 t, k, v, hm => by
    rcases List.mem_cons.1 hm with e | hm
    · subst e
      obtain ⟨k', v'⟩ := x
      simp only at h1
      rw [← h1.1, ← h1.2]
      simp
    · exact List.mem_cons_of_mem _ (ItemsBack.mem t hm)

theorem ItemsBack.keys {p : Nat → Nat} {l l' : List (A × HVal A)} (h : ItemsBack p l l') : Dict.keys l = Dict.keys l' := by
  unfold Dict.keys
  induction h with
  | nil => rfl
  | cons h1 _ ih => simp [h1.1, ih]

theorem TagTo.isDict {t t' : Tag} (h : TagTo t t') : t.isDict = t'.isDict := by
  rcases h with rfl | ⟨rfl, rfl⟩ <;> rfl

theorem Morph.holds {p : Nat → Nat} {h h' : MHeap A} (hm : Morph p h h') {a b : Nat} (hb : Holds h' Tag.isDict a b) :
    Holds h Tag.isDict (p a) (p b) := by
  obtain ⟨m, k, m', ha, hk, hb, ht⟩ := hb
  rcases hm a with ⟨_, e⟩ | ⟨m1, m2, e1, e2, _, hi⟩
  · rw [ha] at e; cases e
  · rw [ha] at e2; cases e2
    rcases hm b with ⟨_, e⟩ | ⟨m3, m4, e3, e4, t4, _⟩
    · rw [hb] at e; cases e
    · rw [hb] at e4; cases e4
      exact ⟨m1, k, m3, e1, hi.mem hk, e3, by rw [t4.isDict]; exact ht⟩

theorem Morph.below {p : Nat → Nat} {h h' : MHeap A} (hm : Morph p h h') {a b : Nat} (hb : Below h' a b) :
    Below h (p a) (p b) := by
  induction hb with
  | single h1 => exact .single (hm.holds h1)
  | tail _ h2 ih => exact .tail ih (hm.holds h2)

mutual
/-- what a value shows later -/
theorem Morph.unf {p : Nat → Nat} {h h' : MHeap A} (hm : Morph p h h') (hd : DictsOnly h) {r : HVal A} {v : Val A}
    (r' : HVal A) (hr : r = HVal.proj p r') : Unf h r v →
    ∃ v', Unf h' r' v' ∧ v'.depth = v.depth ∧ plainTree v' = plainTree v ∧ plainItems v'.items = plainItems v.items
  | .atom a => by
    cases r' with
    | atom b => cases hr; exact ⟨.atom a, .atom a, rfl, rfl, rfl⟩
    | obj n => cases hr
  | .obj (n := n) (m := m) (l := l) hn hi => by
    cases r' with
    | atom b => cases hr
    | obj n' =>
      simp only [HVal.proj, HVal.obj.injEq] at hr
      subst hr
      rcases hm n' with ⟨e, _⟩ | ⟨m1, m2, e1, e2, ht, hib⟩
      · rw [hn] at e; cases e
      · rw [hn] at e1; cases e1
        obtain ⟨l', g1, g2, g3⟩ := hm.unfItems hd hib hi
        have hdt := (hd m (List.mem_of_getElem? hn)).1
        refine ⟨.map m2.tag l', .obj e2 g1, ?_, ?_, g3⟩
        · simp [Val.depth, g2]
        · have h2 : m2.tag.isDict = true := by rw [← ht.isDict]; exact hdt
          simp only [plainTree, hdt, h2, if_true, g3]
          congr 1
          rcases ht with e | ⟨e, e'⟩
          · rw [e]
          · simp [e, e']
theorem Morph.unfItems {p : Nat → Nat} {h h' : MHeap A} (hm : Morph p h h') (hd : DictsOnly h) {i i' : List (A × HVal A)}
    {l : List (A × Val A)} (hii : ItemsBack p i i') : UnfItems h i l →
    ∃ l', UnfItems h' i' l' ∧ Val.depthItems l' = Val.depthItems l ∧ plainItems l' = plainItems l
  | .nil => by cases hii; exact ⟨[], .nil, rfl, rfl⟩
  | .cons (k := k) hv hl => by
    cases hii with
    | @cons _ y _ _ hx ht =>
      obtain ⟨k', v'⟩ := y
      obtain ⟨w', a1, a2, a3, _⟩ := hm.unf hd v' hx.2 hv
      obtain ⟨l', b1, b2, b3⟩ := hm.unfItems hd ht hl
      have hk : k = k' := hx.1
      subst hk
      exact ⟨(k, w') :: l', .cons a1 b1, by simp [Val.depthItems, a2, b2], by simp [plainItems, a3, b3]⟩
end

mutual
/-- what a value showed before -/
theorem Morph.unfBack {p : Nat → Nat} {h h' : MHeap A} (hm : Morph p h h') {r' : HVal A} {v' : Val A} :
    Unf h' r' v' → ∃ v, Unf h (HVal.proj p r') v
  | .atom a => ⟨.atom a, .atom a⟩
  | .obj (n := n) (m := m) (l := l) hn hi => by
    rcases hm n with ⟨_, e⟩ | ⟨m1, m2, e1, e2, _, hib⟩
    · rw [hn] at e; cases e
    · rw [hn] at e2; cases e2
      obtain ⟨l', g1⟩ := hm.unfItemsBack hib hi
      exact ⟨_, .obj e1 g1⟩
theorem Morph.unfItemsBack {p : Nat → Nat} {h h' : MHeap A} (hm : Morph p h h') {i i' : List (A × HVal A)}
    {l : List (A × Val A)} (hii : ItemsBack p i i') : UnfItems h' i' l → ∃ l', UnfItems h i l'
  | .nil => by cases hii; exact ⟨[], .nil⟩
  | .cons (k := k) hv hl => by
    cases hii with
    | @cons x _ _ _ hx ht =>
      obtain ⟨k', v'⟩ := x
      obtain ⟨w', a1⟩ := hm.unfBack hv
      obtain ⟨l', b1⟩ := hm.unfItemsBack ht hl
      simp only at hx
      rw [hx.2]
      exact ⟨(k', w') :: l', .cons a1 b1⟩
end

/-- an edit by `todict`: what has become of the mappings. `S` says which of the old ones may have changed. -/
structure TD (p : Nat → Nat) (S : Nat → Prop) (h h' : MHeap A) : Prop where
  morph : Morph p h h'
  ids : ∀ b < h.length, p b = b
  len : h.length ≤ h'.length
  frame : ∀ b < h.length, ¬ S b → h'[b]? = h[b]?
  tags : ∀ (b : Nat) m m', h[b]? = some m → h'[b]? = some m' → m'.tag = m.tag
  plain : ∀ (b : Nat) m, h[b]? = some m → (∀ k c, (k, HVal.obj c) ∈ m.items → ¬ IsNesting h c) → h'[b]? = some m
  fresh : ∀ (b : Nat) m', h.length ≤ b → h'[b]? = some m' → m'.tag = .dict
  ok : MapsOK h → MapsOK h'
  dicts : DictsOnly h → DictsOnly h'

theorem isNesting_lt {h : MHeap A} {n : Nat} (hn : IsNesting h n) : n < h.length := by
  obtain ⟨m, hm, _⟩ := hn
  exact (List.getElem?_eq_some_iff.1 hm).1

theorem TD.refl (S : Nat → Prop) (h : MHeap A) : TD (fun n => n) S h h where
  morph := Morph.refl h
  ids := fun _ _ => rfl
  len := Nat.le_refl _
  frame := fun _ _ _ => rfl
  tags := fun b m m' h1 h2 => by rw [h1] at h2; cases h2; rfl
  plain := fun b m hb _ => hb
  fresh := fun b m' hb hm => by
    have := (List.getElem?_eq_some_iff.1 hm).1
    omega
  ok := id
  dicts := id

theorem TD.nesting {p : Nat → Nat} {S : Nat → Prop} {h h' : MHeap A} (t : TD p S h h') {n : Nat} :
    IsNesting h' n ↔ IsNesting h n := by
  constructor
  · rintro ⟨m', h1, h2⟩
    by_cases hn : n < h.length
    · have h3 := List.getElem?_eq_getElem hn
      exact ⟨_, h3, by rw [← t.tags n _ m' h3 h1]; exact h2⟩
    · have := t.fresh n m' (by omega) h1
      rw [h2] at this; cases this
  · rintro ⟨m, h1, h2⟩
    have hl := (List.getElem?_eq_some_iff.1 h1).1
    have h3 := List.getElem?_eq_getElem (Nat.lt_of_lt_of_le hl t.len)
    exact ⟨_, h3, by rw [t.tags n m _ h1 h3]; exact h2⟩

theorem TD.trans {p q : Nat → Nat} {S S' : Nat → Prop} {h h' h'' : MHeap A} (t : TD p S h h') (t' : TD q S' h' h'')
    (hS : ∀ b < h.length, S' b → S b) : TD (fun n => p (q n)) S h h'' where
  morph := t.morph.trans t'.morph
  ids := fun b hb => by rw [t'.ids b (Nat.lt_of_lt_of_le hb t.len), t.ids b hb]
  len := Nat.le_trans t.len t'.len
  frame := fun b hb hs => by
    rw [t'.frame b (Nat.lt_of_lt_of_le hb t.len) (fun hc => hs (hS b hb hc)), t.frame b hb hs]
  tags := fun b m m' h1 h2 => by
    have hl := (List.getElem?_eq_some_iff.1 h1).1
    have h3 := List.getElem?_eq_getElem (Nat.lt_of_lt_of_le hl t.len)
    rw [t'.tags b _ m' h3 h2, t.tags b m _ h1 h3]
  plain := fun b m hb hc => t'.plain b m (t.plain b m hb hc) fun k c hk hn => hc k c hk (t.nesting.1 hn)
  fresh := fun b m' hb hm => by
    by_cases hl : b < h'.length
    · have h3 := List.getElem?_eq_getElem hl
      rw [t'.tags b _ m' h3 hm]
      exact t.fresh b _ hb h3
    · exact t'.fresh b m' (by omega) hm
  ok := fun hk => t'.ok (t.ok hk)
  dicts := fun hd => t'.dicts (t.dicts hd)

theorem TD.weaken {p : Nat → Nat} {S S' : Nat → Prop} {h h' : MHeap A} (t : TD p S h h') (hS : ∀ b < h.length, S b → S' b) :
    TD p S' h h' :=
  { t with frame := fun b hb hs => t.frame b hb fun hc => hs (hS b hb hc) }

theorem dict_set_forall2 {β : Type} (d : List (A × β)) (k : A) (v w : β) (hk : Dict.get? d k = some v) :
    List.Forall₂ (fun x y => x.1 = y.1 ∧ (x.2 = y.2 ∨ (x.2 = v ∧ y.2 = w))) d (Dict.set d k w) := by
  induction d with
  | nil => cases hk
  | cons x t ih =>
    obtain ⟨k', v'⟩ := x
    simp only [Dict.get?_cons] at hk
    simp only [Dict.set]
    split
    · rename_i e
      rw [if_pos e] at hk
      cases hk
      exact .cons ⟨rfl, .inr ⟨rfl, rfl⟩⟩ (List.forall₂_same.2 fun _ _ => ⟨rfl, .inl rfl⟩)
    · rename_i e
      rw [if_neg e] at hk
      exact .cons ⟨rfl, .inl rfl⟩ (ih hk)

/-- one match of `todict`: `self[k] = dict(v)` for a `NestingDict` `v` -/
theorem copy_step {h : MHeap A} (hd : DictsOnly h) {a : Nat} {ma : HMap A} (ha : h[a]? = some ma) {k : A} {c : Nat} {mc : HMap A}
    (hc : h[c]? = some mc) (hn : mc.tag = .nesting) (hk : Dict.get? ma.items k = some (.obj c)) :
    let h1 := setH (h ++ [⟨.dict, mc.items⟩]) a k (.obj h.length)
    (∃ p, TD p (fun b => b = a) h h1) ∧ h1[a]? = some { ma with items := Dict.set ma.items k (.obj h.length) } := by
  intro h1
  have hla := (List.getElem?_eq_some_iff.1 ha).1
  have hlc := (List.getElem?_eq_some_iff.1 hc).1
  have g : ∀ b : Nat, h1[b]? = if b = a then some { ma with items := Dict.set ma.items k (.obj h.length) }
      else if b = h.length then some ⟨.dict, mc.items⟩ else h[b]? := by
    intro b
    simp only [h1, setH, List.getElem?_modify]
    by_cases e : a = b
    · subst e
      simp [List.getElem?_append_left hla, ha]
    · rw [if_neg (Ne.symm e)]
      by_cases e2 : b = h.length
      · subst e2; simp [e]
      · rw [if_neg e2]
        by_cases e3 : b < h.length
        · simp [List.getElem?_append_left e3, e]
        · have : h.length < b := by omega
          simp [List.getElem?_eq_none (show (h ++ [(⟨.dict, mc.items⟩ : HMap A)]).length ≤ b by simp; omega), e,
            List.getElem?_eq_none (show h.length ≤ b by omega)]
  have ga : h1[a]? = some { ma with items := Dict.set ma.items k (.obj h.length) } := by rw [g]; simp
  have glen : h1.length = h.length + 1 := by simp [h1, setH]
  have hset := dict_set_forall2 ma.items k (.obj c) (.obj h.length) hk
  let p : Nat → Nat := fun n => if n = h.length then c else n
  have hp : ∀ b < h.length, p b = b := fun b hb => by simp only [p]; rw [if_neg (by omega)]
  refine ⟨⟨p, ?_⟩, ga⟩
  have hsame : ∀ m ∈ h, ItemsBack p m.items m.items := by
    intro m hm
    refine List.forall₂_same.2 fun x hx => ⟨rfl, ?_⟩
    obtain ⟨k', v⟩ := x
    cases v with
    | atom _ => rfl
    | obj b => simp only [HVal.proj]; rw [hp b ((hd m hm).2 k' b hx)]
  have hseta : ItemsBack p ma.items (Dict.set ma.items k (.obj h.length)) := by
    have h2 := hsame ma (List.mem_of_getElem? ha)
    have hz : ∀ x ∈ ma.items, x.2 = HVal.proj p x.2 := by
      intro x hx
      obtain ⟨k', v⟩ := x
      cases v with
      | atom _ => rfl
      | obj b => simp only [HVal.proj]; rw [hp b ((hd ma (List.mem_of_getElem? ha)).2 k' b hx)]
    have : ∀ {l l' : List (A × HVal A)}, (∀ x ∈ l, x.2 = HVal.proj p x.2) →
        List.Forall₂ (fun x y => x.1 = y.1 ∧ (x.2 = y.2 ∨ (x.2 = .obj c ∧ y.2 = .obj h.length))) l l' → ItemsBack p l l' := by
      intro l l' hl hf
      induction hf with
      | nil => exact .nil
      | cons hx _ ih =>
        refine .cons ⟨hx.1, ?_⟩ (ih fun x hx => hl x (List.mem_cons_of_mem _ hx))
        rcases hx.2 with e | ⟨e1, e2⟩
        · rw [← e]; exact hl _ (by simp)
        · rw [e1, e2]; simp [HVal.proj, p]
    exact this hz hset
  constructor
  · intro n
    by_cases e : n = h.length
    · right
      subst e
      exact ⟨mc, ⟨.dict, mc.items⟩, by simp [p, hc], by rw [g, if_neg (by omega), if_pos rfl], .inr ⟨hn, rfl⟩,
        hsame mc (List.mem_of_getElem? hc)⟩
    · have hpn : p n = n := by simp only [p]; rw [if_neg e]
      rw [hpn]
      by_cases e2 : n = a
      · subst e2
        exact .inr ⟨ma, _, ha, ga, .inl rfl, hseta⟩
      · have : h1[n]? = h[n]? := by rw [g, if_neg e2, if_neg e]
        rw [this]
        cases hm : h[n]? with
        | none => exact .inl ⟨rfl, rfl⟩
        | some m => exact .inr ⟨m, m, rfl, rfl, .inl rfl, hsame m (List.mem_of_getElem? hm)⟩
  · exact hp
  · omega
  · intro b hb hs
    rw [g, if_neg hs, if_neg (by omega)]
  · intro b m m' hm hm'
    have hl := (List.getElem?_eq_some_iff.1 hm).1
    rw [g] at hm'
    split at hm'
    · rename_i e; subst e; rw [ha] at hm; cases hm; cases hm'; rfl
    · rw [if_neg (by omega), hm] at hm'; cases hm'; rfl
  · intro b m hm hno
    have hl := (List.getElem?_eq_some_iff.1 hm).1
    rw [g]
    split
    · rename_i e
      subst e
      rw [ha] at hm
      cases hm
      exact absurd ⟨mc, hc, hn⟩ (hno k c (Dict.mem_of_get? hk))
    · rw [if_neg (by omega), hm]
  · intro b m' hb hm
    rw [g, if_neg (by omega)] at hm
    split at hm
    · cases hm; rfl
    · have := (List.getElem?_eq_some_iff.1 hm).1
      omega
  · intro hk' m hm
    obtain ⟨b, hb⟩ := List.getElem?_of_mem hm
    rw [g] at hb
    split at hb
    · cases hb
      exact Dict.wf_set (hk' ma (List.mem_of_getElem? ha)) _ _
    · split at hb
      · cases hb
        exact hk' mc (List.mem_of_getElem? hc)
      · exact hk' m (List.mem_of_getElem? hb)
  · intro _ m hm
    obtain ⟨b, hb⟩ := List.getElem?_of_mem hm
    rw [glen]
    rw [g] at hb
    split at hb
    · cases hb
      refine ⟨(hd ma (List.mem_of_getElem? ha)).1, fun k' b' hkb => ?_⟩
      have := hseta.mem hkb
      simp only [HVal.proj] at this
      have h3 := (hd ma (List.mem_of_getElem? ha)).2 k' _ this
      by_cases e : b' = h.length
      · omega
      · have : p b' = b' := by simp only [p]; rw [if_neg e]
        omega
    · split at hb
      · cases hb
        exact ⟨rfl, fun k' b' hkb => Nat.lt_succ_of_lt ((hd mc (List.mem_of_getElem? hc)).2 k' b' hkb)⟩
      · exact ⟨(hd m (List.mem_of_getElem? hb)).1,
          fun k' b' hkb => Nat.lt_succ_of_lt ((hd m (List.mem_of_getElem? hb)).2 k' b' hkb)⟩

/-- the loop over the matches of `todict` -/
theorem copies {a : Nat} : ∀ (ms : List (A × HVal A)) (h : MHeap A) (ma : HMap A), DictsOnly h → MapsOK h → h[a]? = some ma →
    (Dict.keys ms).Nodup →
    (∀ kv ∈ ms, ∃ c, kv.2 = .obj c ∧ IsNesting h c ∧ Dict.get? ma.items kv.1 = some kv.2) →
    (∀ k c, (k, HVal.obj c) ∈ ma.items → IsNesting h c → (k, HVal.obj c) ∈ ms) →
    ∃ p ma', TD p (fun b => b = a) h (setMatches toPlainH a h ms) ∧ (setMatches toPlainH a h ms)[a]? = some ma' ∧
      ∀ k c, (k, HVal.obj c) ∈ ma'.items → ¬ IsNesting (setMatches toPlainH a h ms) c
  | [], h, ma, _, _, ha, _, _, hall => ⟨_, ma, TD.refl _ h, ha, fun k c hk hn => by cases hall k c hk hn⟩
  | (k, v) :: ms, h, ma, hd, hok, ha, hnd, hms, hall => by
    obtain ⟨c, rfl, ⟨mc, hc, hn⟩, hk⟩ := hms (k, v) (by simp)
    simp only at hk
    obtain ⟨⟨p, t⟩, ga⟩ := copy_step hd ha hc hn hk
    have e : setMatches toPlainH a h ((k, .obj c) :: ms) =
        setMatches toPlainH a (setH (h ++ [⟨.dict, mc.items⟩]) a k (.obj h.length)) ms := by
      simp [setMatches, toPlainH, dictOf, hc]
    rw [e]
    simp only [Dict.keys_cons, List.nodup_cons] at hnd
    have hwf := hok ma (List.mem_of_getElem? ha)
    obtain ⟨q, ma', t', ga', hfin⟩ := copies ms _ _ (t.dicts hd) (t.ok hok) ga hnd.2
      (by
        intro kv hkv
        obtain ⟨c', e1, hn', hk'⟩ := hms kv (List.mem_cons_of_mem _ hkv)
        refine ⟨c', e1, t.nesting.2 hn', ?_⟩
        have hne : kv.1 ≠ k := by
          intro hc
          exact hnd.1 (hc ▸ List.mem_map_of_mem (f := Prod.fst) hkv)
        simp only
        rw [Dict.get?_set_ne _ _ hne]
        exact hk')
      (by
        intro k' c' hk' hn'
        have h0 := t.nesting.1 hn'
        simp only at hk'
        have hg := Dict.get?_of_mem (Dict.wf_set hwf k _) hk'
        by_cases e : k' = k
        · subst e
          rw [Dict.get?_set_self] at hg
          cases hg
          have := isNesting_lt h0
          omega
        · rw [Dict.get?_set_ne _ _ e] at hg
          have := hall k' c' (Dict.mem_of_get? hg) h0
          rcases List.mem_cons.1 this with e2 | h2
          · cases e2; exact absurd rfl e
          · exact h2)
    exact ⟨_, ma', t.trans t' (fun _ _ h => h), ga', hfin⟩

/-- which mappings `todict` may change -/
def MayChange (h : MHeap A) (a b : Nat) : Prop := b = a ∨ (Below h a b ∧ ¬ IsNesting h b)

/-- no `NestingDict` at the mapping or below it -/
def AllPlain (h : MHeap A) (n : Nat) : Prop := ¬ IsNesting h n ∧ ∀ b, Below h n b → ¬ IsNesting h b

theorem holds_of_mem {h : MHeap A} (hd : DictsOnly h) {b c : Nat} {k : A} {m : HMap A} (hb : h[b]? = some m)
    (hk : (k, HVal.obj c) ∈ m.items) : Holds h Tag.isDict b c := by
  have hl := (hd m (List.mem_of_getElem? hb)).2 k c hk
  exact ⟨m, k, h[c], hb, hk, List.getElem?_eq_getElem hl, (hd _ (List.getElem_mem hl)).1⟩

theorem TD.allPlain {p : Nat → Nat} {S : Nat → Prop} {h h' : MHeap A} (t : TD p S h h') (hd : DictsOnly h) {n : Nat}
    (hn : n < h.length) (hp : AllPlain h n) : AllPlain h' n := by
  have key : ∀ b, Relation.ReflTransGen (Holds h' Tag.isDict) n b → Relation.ReflTransGen (Holds h Tag.isDict) n b ∧ b < h.length := by
    intro b hb
    induction hb with
    | refl => exact ⟨.refl, hn⟩
    | @tail b c _ hbc ih =>
      obtain ⟨h1, h2⟩ := ih
      have hbm := List.getElem?_eq_getElem h2
      have hsame : h'[b]? = some h[b] := by
        refine t.plain b _ hbm fun k c hk => ?_
        exact hp.2 c (Relation.TransGen.tail' h1 (holds_of_mem hd hbm hk))
      obtain ⟨m, k, m', g1, g2, _, _⟩ := hbc
      rw [hsame] at g1
      cases g1
      exact ⟨h1.tail (holds_of_mem hd hbm g2), (hd _ (List.getElem_mem h2)).2 k c g2⟩
  refine ⟨fun hc => hp.1 (t.nesting.1 hc), fun b hb hc => ?_⟩
  have h1 := (key b hb.to_reflTransGen).1
  rcases Relation.reflTransGen_iff_eq_or_transGen.1 h1 with e | h2
  · subst e; exact hp.1 (t.nesting.1 hc)
  · exact hp.2 b h2 (t.nesting.1 hc)

abbrev tdEdit : Nat → MHeap A → Nat → Option (MHeap A) := digEditH isNestingH toPlainH Tag.isDict

/-- what a call of `dig_and_edit` by `todict` does -/
def TDResult (h h' : MHeap A) (a : Nat) : Prop :=
  (∃ p, TD p (MayChange h a) h h') ∧ (∀ b, Below h' a b → ¬ IsNesting h' b) ∧ ∃ v, Unf h (.obj a) v

theorem td_nests {rec : MHeap A → Nat → Option (MHeap A)}
    (ih : ∀ h a h', DictsOnly h → MapsOK h → a < h.length → rec h a = some h' → TDResult h h' a) :
    ∀ (ns : List Nat) (g g' : MHeap A), DictsOnly g → MapsOK g → (∀ n ∈ ns, n < g.length ∧ ¬ IsNesting g n) →
    editNests rec g ns = some g' →
    (∃ p, TD p (fun b => ∃ n ∈ ns, MayChange g n b) g g') ∧ (∀ n ∈ ns, AllPlain g' n) ∧ ∀ n ∈ ns, ∃ v, Unf g (.obj n) v
  | [], g, g', _, _, _, hr => by
    cases hr
    exact ⟨⟨_, TD.refl _ g⟩, fun _ h => (nomatch h), fun _ h => (nomatch h)⟩
  | n :: ns, g, g', hd, hok, hns, hr => by
    simp only [editNests, bind] at hr
    cases h1 : rec g n with
    | none => rw [h1] at hr; cases hr
    | some g1 =>
      rw [h1] at hr
      obtain ⟨hnl, hnn⟩ := hns n (by simp)
      obtain ⟨⟨p, t⟩, hcl, v, hv⟩ := ih g n g1 hd hok hnl h1
      have hap : AllPlain g1 n := ⟨fun hc => hnn (t.nesting.1 hc), hcl⟩
      obtain ⟨⟨q, t'⟩, hap', hun⟩ := td_nests ih ns g1 g' (t.dicts hd) (t.ok hok)
        (fun n' hn' => ⟨Nat.lt_of_lt_of_le (hns n' (List.mem_cons_of_mem _ hn')).1 t.len,
          fun hc => (hns n' (List.mem_cons_of_mem _ hn')).2 (t.nesting.1 hc)⟩) hr
      refine ⟨⟨_, (t.weaken (S' := fun b => ∃ n' ∈ n :: ns, MayChange g n' b) fun b _ hb => ⟨n, by simp, hb⟩).trans t' ?_⟩, ?_, ?_⟩
      · rintro b hb ⟨n', hn', hc⟩
        refine ⟨n', List.mem_cons_of_mem _ hn', ?_⟩
        rcases hc with e | ⟨hc, hc'⟩
        · exact .inl e
        · have := t.morph.below hc
          rw [t.ids b hb, t.ids n' (hns n' (List.mem_cons_of_mem _ hn')).1] at this
          exact .inr ⟨this, fun hx => hc' (t.nesting.2 hx)⟩
      · intro n' hn'
        rcases List.mem_cons.1 hn' with e | hn'
        · subst e; exact t'.allPlain (t.dicts hd) (Nat.lt_of_lt_of_le hnl t.len) hap
        · exact hap' n' hn'
      · intro n' hn'
        rcases List.mem_cons.1 hn' with e | hn'
        · subst e; exact ⟨v, hv⟩
        · obtain ⟨w, hw⟩ := hun n' hn'
          obtain ⟨w', hw'⟩ := t.morph.unfBack hw
          simp only [HVal.proj] at hw'
          rw [t.ids n' (hns n' (List.mem_cons_of_mem _ hn')).1] at hw'
          exact ⟨w', hw'⟩

theorem td_nests_returns {rec : MHeap A → Nat → Option (MHeap A)} {fuel : Nat}
    (ih : ∀ h a h', DictsOnly h → MapsOK h → a < h.length → rec h a = some h' → TDResult h h' a)
    (ih2 : ∀ h a v, DictsOnly h → MapsOK h → Unf h (.obj a) v → v.depth < fuel → ∃ h', rec h a = some h') :
    ∀ (ns : List Nat) (g : MHeap A), DictsOnly g → MapsOK g → (∀ n ∈ ns, n < g.length) →
    (∀ n ∈ ns, ∃ v, Unf g (.obj n) v ∧ v.depth < fuel) → ∃ g', editNests rec g ns = some g'
  | [], g, _, _, _, _ => ⟨g, rfl⟩
  | n :: ns, g, hd, hok, hl, hns => by
    obtain ⟨v, hv, hf⟩ := hns n (by simp)
    obtain ⟨g1, h1⟩ := ih2 g n v hd hok hv hf
    obtain ⟨⟨p, t⟩, _, _⟩ := ih g n g1 hd hok (hl n (by simp)) h1
    obtain ⟨g', h2⟩ := td_nests_returns ih ih2 ns g1 (t.dicts hd) (t.ok hok)
      (fun n' hn' => Nat.lt_of_lt_of_le (hl n' (List.mem_cons_of_mem _ hn')) t.len)
      (fun n' hn' => by
        obtain ⟨w, hw, hwf⟩ := hns n' (List.mem_cons_of_mem _ hn')
        obtain ⟨w', a1, a2, _⟩ := t.morph.unf hd (.obj n')
          (by simp only [HVal.proj]; rw [t.ids n' (hl n' (List.mem_cons_of_mem _ hn'))]) hw
        exact ⟨w', a1, by omega⟩)
    exact ⟨g', by simp [editNests, h1, h2]⟩

theorem mem_nestsOf {h : MHeap A} {mt : Tag → Bool} {l : List (A × HVal A)} {n : Nat} :
    n ∈ nestsOf h mt l ↔ ∃ k, (k, HVal.obj n) ∈ l ∧ (HVal.obj n : HVal A).isA h mt = true := by
  simp only [nestsOf, List.mem_filterMap]
  constructor
  · rintro ⟨⟨k, v⟩, hm, h2⟩
    cases v with
    | atom _ => cases h2
    | obj b =>
      simp only at h2
      split at h2
      · cases h2; exact ⟨k, hm, by assumption⟩
      · cases h2
  · rintro ⟨k, hm, h2⟩
    exact ⟨(k, .obj n), hm, by simp [h2]⟩

theorem isA_obj {h : MHeap A} {mt : Tag → Bool} {n : Nat} :
    (HVal.obj n : HVal A).isA h mt = true ↔ ∃ m, h[n]? = some m ∧ mt m.tag = true := by
  simp only [HVal.isA]
  cases h[n]? with
  | none => simp
  | some m => simp

theorem unfItems_of {h : MHeap A} : ∀ (l : List (A × HVal A)), (∀ k n, (k, HVal.obj n) ∈ l → ∃ v, Unf h (.obj n) v) →
    ∃ l', UnfItems h l l'
  | [], _ => ⟨[], .nil⟩
  | (k, v) :: l, hl => by
    obtain ⟨l', h1⟩ := unfItems_of l fun k n hm => hl k n (List.mem_cons_of_mem _ hm)
    cases v with
    | atom a => exact ⟨_, .cons (.atom a) h1⟩
    | obj n =>
      obtain ⟨w, hw⟩ := hl k n (by simp)
      exact ⟨_, .cons hw h1⟩

theorem unfItems_mem {h : MHeap A} : ∀ {l : List (A × HVal A)} {l' : List (A × Val A)}, UnfItems h l l' → ∀ {k : A} {v : HVal A},
    (k, v) ∈ l → ∃ w, Unf h v w ∧ w.depth ≤ Val.depthItems l'
  | [], _, _, _, _, hm => by cases hm
  | (k', v') :: l, _, .cons (w := w) (l := l2) h1 h2, k, v, hm => by
    rcases List.mem_cons.1 hm with e | hm
    · cases e; exact ⟨w, h1, by simp only [Val.depthItems]; omega⟩
    · obtain ⟨w', g1, g2⟩ := unfItems_mem h2 hm
      exact ⟨w', g1, by simp only [Val.depthItems]; omega⟩

theorem td_main : ∀ (fuel : Nat),
    (∀ (h : MHeap A) a h', DictsOnly h → MapsOK h → a < h.length → tdEdit fuel h a = some h' → TDResult h h' a) ∧
    (∀ (h : MHeap A) a v, DictsOnly h → MapsOK h → Unf h (.obj a) v → v.depth < fuel → ∃ h', tdEdit fuel h a = some h')
  | 0 => ⟨fun h a h' _ _ _ hr => (nomatch hr), fun h a v _ _ _ hf => absurd hf (Nat.not_lt_zero _)⟩
  | fuel + 1 => by
    obtain ⟨ih, ih2⟩ := td_main fuel
    have start : ∀ (h : MHeap A) a, DictsOnly h → MapsOK h → a < h.length →
        ∃ p ma' h1, TD p (fun b => b = a) h h1 ∧ h1[a]? = some ma' ∧ (∀ k c, (k, HVal.obj c) ∈ ma'.items → ¬ IsNesting h1 c) ∧
          tdEdit (fuel + 1) h a = editNests (tdEdit fuel) h1 (nestsOf h1 Tag.isDict ma'.items) := by
      intro h a hd hok hl
      have ha := List.getElem?_eq_getElem hl
      have hwf := hok _ (List.mem_of_getElem? ha)
      obtain ⟨p, ma', t, g1, g2⟩ := copies (a := a) (h[a].items.filter fun kv => isNestingH h kv.1 kv.2) h h[a] hd hok ha
        (by
          refine List.Nodup.sublist ?_ hwf
          exact List.filter_sublist.map _)
        (by
          intro kv hkv
          obtain ⟨hm, hf⟩ := List.mem_filter.1 hkv
          obtain ⟨k, v⟩ := kv
          cases v with
          | atom _ => cases hf
          | obj c =>
            obtain ⟨m, e1, e2⟩ := isA_obj.1 hf
            exact ⟨c, rfl, ⟨m, e1, by simpa using e2⟩, Dict.get?_of_mem hwf hm⟩)
        (by
          rintro k c hm ⟨m, e1, e2⟩
          exact List.mem_filter.2 ⟨hm, isA_obj.2 ⟨m, e1, by simp [e2]⟩⟩)
      refine ⟨p, ma', _, t, g1, g2, ?_⟩
      simp only [tdEdit, digEditH, ha, g1]
    constructor
    · intro h a h' hd hok hl hr
      obtain ⟨p, ma, h1, t, ha, hno, e⟩ := start h a hd hok hl
      rw [e] at hr
      have hd1 := t.dicts hd
      have hpa := t.ids a hl
      have hnst : ∀ n, n ∈ nestsOf h1 Tag.isDict ma.items → Holds h1 Tag.isDict a n ∧ n < h1.length ∧ ¬ IsNesting h1 n := by
        intro n hn
        obtain ⟨k, hm, _⟩ := mem_nestsOf.1 hn
        exact ⟨holds_of_mem hd1 ha hm, (hd1 ma (List.mem_of_getElem? ha)).2 k n hm, hno k n hm⟩
      obtain ⟨⟨q, t'⟩, hap, hun⟩ := td_nests ih _ h1 h' hd1 (t.ok hok) (fun n hn => (hnst n hn).2) hr
      refine ⟨⟨_, (t.weaken (S' := MayChange h a) fun b _ hb => .inl hb).trans t' ?_⟩, ?_, ?_⟩
      · rintro b hb ⟨n, hn, hc⟩
        obtain ⟨k1, k2, k3⟩ := hnst n hn
        have hh := t.morph.holds k1
        rw [hpa] at hh
        rcases hc with e | ⟨hc, hc'⟩
        · subst e
          rw [t.ids b hb] at hh
          exact .inr ⟨.single hh, fun hx => k3 (t.nesting.2 hx)⟩
        · have := t.morph.below hc
          rw [t.ids b hb] at this
          exact .inr ⟨.head hh this, fun hx => hc' (t.nesting.2 hx)⟩
      · have ha' : h'[a]? = some ma := t'.plain a ma ha hno
        intro b hb
        obtain ⟨n, hn, hnb⟩ := Relation.TransGen.head'_iff.1 hb
        obtain ⟨m, k, m', e1, e2, _, _⟩ := hn
        rw [ha'] at e1
        cases e1
        have hnl := (hd1 ma (List.mem_of_getElem? ha)).2 k n e2
        have hmem : n ∈ nestsOf h1 Tag.isDict ma.items :=
          mem_nestsOf.2 ⟨k, e2, isA_obj.2 ⟨_, List.getElem?_eq_getElem hnl, (hd1 _ (List.getElem_mem hnl)).1⟩⟩
        have := hap n hmem
        rcases Relation.reflTransGen_iff_eq_or_transGen.1 hnb with e | h2
        · subst e; exact this.1
        · exact this.2 b h2
      · obtain ⟨l', hl'⟩ := unfItems_of (h := h1) ma.items fun k n hm => by
          have hnl := (hd1 ma (List.mem_of_getElem? ha)).2 k n hm
          exact hun n (mem_nestsOf.2 ⟨k, hm, isA_obj.2 ⟨_, List.getElem?_eq_getElem hnl, (hd1 _ (List.getElem_mem hnl)).1⟩⟩)
        obtain ⟨v, hv⟩ := t.morph.unfBack (.obj ha hl')
        simp only [HVal.proj, hpa] at hv
        exact ⟨v, hv⟩
    · intro h a v hd hok hv hf
      have hl : a < h.length := by
        cases hv with
        | obj hn _ => exact (List.getElem?_eq_some_iff.1 hn).1
      obtain ⟨p, ma, h1, t, ha, hno, e⟩ := start h a hd hok hl
      rw [e]
      have hd1 := t.dicts hd
      obtain ⟨v1, hv1, hdep, _⟩ := t.morph.unf hd (.obj a) (by simp only [HVal.proj]; rw [t.ids a hl]) hv
      cases hv1 with
      | @obj _ m l hn hi =>
        rw [ha] at hn
        cases hn
        simp only [Val.depth] at hdep
        refine td_nests_returns ih ih2 _ h1 hd1 (t.ok hok) (fun n hn => ?_) (fun n hn => ?_)
        · obtain ⟨k, hm, _⟩ := mem_nestsOf.1 hn
          exact (hd1 ma (List.mem_of_getElem? ha)).2 k n hm
        · obtain ⟨k, hm, _⟩ := mem_nestsOf.1 hn
          obtain ⟨w, g1, g2⟩ := unfItems_mem hi hm
          exact ⟨w, g1, by omega⟩

mutual
/-- a tree with no `NestingDict` in it -/
theorem unf_plain {h : MHeap A} {r : HVal A} {v : Val A} : Unf h r v → (∀ n, r = .obj n → AllPlain h n) → DictsOnly h →
    plainTree v = v
  | .atom a, _, _ => rfl
  | .obj (n := n) (m := m) hn hi, hp, hd => by
    have h1 := hp n rfl
    have ht : m.tag ≠ .nesting := fun e => h1.1 ⟨m, hn, e⟩
    have := unfItems_plain hi (fun k c hk => by
      have hh := holds_of_mem hd hn hk
      exact ⟨h1.2 c (.single hh), fun b hb => h1.2 b (.head hh hb)⟩) hd
    simp only [plainTree, (hd m (List.mem_of_getElem? hn)).1, if_true, this, if_neg ht]
theorem unfItems_plain {h : MHeap A} {i : List (A × HVal A)} {l : List (A × Val A)} : UnfItems h i l →
    (∀ k c, (k, HVal.obj c) ∈ i → AllPlain h c) → DictsOnly h → plainItems l = l
  | .nil, _, _ => rfl
  | .cons (k := k) hv hl, hp, hd => by
    have h1 := unf_plain hv (fun n e => hp k n (by subst e; simp)) hd
    have h2 := unfItems_plain hl (fun k c hk => hp k c (List.mem_cons_of_mem _ hk)) hd
    simp [plainItems, h1, h2]
end

mutual
theorem unf_fun {h : MHeap A} {r : HVal A} {v w : Val A} : Unf h r v → Unf h r w → v = w
  | .atom _, h2 => by cases h2; rfl
  | .obj hn hi, h2 => by
    cases h2 with
    | obj hn' hi' => rw [hn] at hn'; cases hn'; rw [unfItems_fun hi hi']
theorem unfItems_fun {h : MHeap A} {i : List (A × HVal A)} {l l' : List (A × Val A)} : UnfItems h i l → UnfItems h i l' → l = l'
  | .nil, h2 => by cases h2; rfl
  | .cons hv hl, h2 => by
    cases h2 with
    | cons hv' hl' => rw [unf_fun hv hv', unfItems_fun hl hl']
end

end Verif.Lemmas
