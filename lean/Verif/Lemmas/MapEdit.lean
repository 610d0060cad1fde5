import Mathlib.Data.List.Forall2
import Verif.Spec.MapHeap
import Verif.Lemmas.Edit
/-! Helper lemmas for `dig_and_edit` on mappings as objects. -/
namespace Verif.Lemmas
open Verif Verif.Model Verif.Spec
variable {A : Type} [DecidableEq A]

/-- one mapping with its entries edited -/
def editAt (f : A → A → Bool) (s : A → A → A) (h : MHeap A) (n : Nat) : MHeap A :=
  h.modify n fun m => { m with items := m.items.map (editEntry f s) }

omit [DecidableEq A] in
theorem editEntry_fst (f : A → A → Bool) (s : A → A → A) (kv : A × HVal A) : (editEntry f s kv).1 = kv.1 := by
  unfold editEntry
  split
  · split <;> rfl
  · rfl

omit [DecidableEq A] in
theorem editEntry_obj (f : A → A → Bool) (s : A → A → A) (k : A) (n : Nat) :
    editEntry f s (k, .obj n) = (k, .obj n) := rfl

theorem dict_set_middle {β : Type} (pre t : List (A × β)) (k : A) (v w : β) (hk : k ∉ Dict.keys pre) :
    Dict.set (pre ++ (k, v) :: t) k w = pre ++ (k, w) :: t := by
  induction pre with
  | nil => simp [Dict.set]
  | cons x p ih =>
    obtain ⟨k', v'⟩ := x
    simp only [Dict.keys_cons, List.mem_cons, not_or] at hk
    simp [Dict.set, Ne.symm hk.1, ih hk.2]

theorem sets_eq_map (f : A → A → Bool) (s : A → A → A) (p : A × HVal A → Bool)
    (hp : ∀ kv, p kv = false → editEntry f s kv = kv) :
    ∀ (post pre : List (A × HVal A)), (Dict.keys (pre ++ post)).Nodup →
    (post.filter p).foldl (fun d kv => Dict.set d kv.1 (editEntry f s kv).2) (pre ++ post) =
      pre ++ post.map (editEntry f s)
  | [], pre, _ => by simp
  | (k, v) :: post, pre, hn => by
    have hk : k ∉ Dict.keys pre := by
      intro hc
      simp only [Dict.keys_append, Dict.keys_cons] at hn
      exact (List.nodup_append.1 hn).2.2 k hc k (by simp) rfl
    have step : ∀ w, (Dict.keys ((pre ++ [(k, w)]) ++ post)).Nodup := by
      intro w; simpa [Dict.keys] using hn
    have he : editEntry f s (k, v) = (k, (editEntry f s (k, v)).2) :=
      Prod.ext (editEntry_fst f s (k, v)) rfl
    by_cases h : p (k, v) = true
    · rw [List.filter_cons_of_pos h, List.foldl_cons]
      show List.foldl _ (Dict.set (pre ++ (k, v) :: post) k (editEntry f s (k, v)).2) _ = _
      rw [dict_set_middle _ _ _ _ _ hk]
      have := sets_eq_map f s p hp post (pre ++ [(k, (editEntry f s (k, v)).2)]) (step _)
      rw [List.append_assoc, List.singleton_append] at this
      rw [this, List.map_cons, List.append_assoc, List.singleton_append, ← he]
    · rw [List.filter_cons_of_neg h]
      have := sets_eq_map f s p hp post (pre ++ [(k, v)]) (step _)
      rw [List.append_assoc, List.singleton_append] at this
      rw [this, List.map_cons, List.append_assoc, List.singleton_append, hp _ (by simpa using h)]

theorem setMatches_eq {f : A → A → Bool} {s : A → A → A} {filter : MHeap A → A → HVal A → Bool}
    {setter : MHeap A → A → HVal A → HVal A × MHeap A} (hpe : PlainEdit f s filter setter) (n : Nat) :
    ∀ (ms : List (A × HVal A)) (h : MHeap A), (∀ kv ∈ ms, ∃ a, kv.2 = .atom a ∧ f kv.1 a = true) →
    setMatches setter n h ms = h.modify n fun m =>
      { m with items := ms.foldl (fun d kv => Dict.set d kv.1 (editEntry f s kv).2) m.items }
  | [], h, _ => (List.modify_id n h).symm
  | (k, v) :: ms, h, hm => by
    obtain ⟨a, ha, hf⟩ := hm (k, v) (by simp)
    simp only at ha hf
    subst ha
    have he : editEntry f s (k, .atom a) = (k, .atom (s k a)) := by simp [editEntry, hf]
    simp only [setMatches, hpe.sets, List.foldl_cons, he]
    rw [setMatches_eq hpe n ms _ (fun kv hkv => hm kv (List.mem_cons_of_mem _ hkv))]
    simp only [setH, List.modify_modify_eq]
    rfl

/-- the same mappings with the same keys and the same nests -/
def Skel (h h' : MHeap A) : Prop :=
  ∀ n : Nat, (h[n]? = none ∧ h'[n]? = none) ∨ ∃ m m', h[n]? = some m ∧ h'[n]? = some m' ∧ m.tag = m'.tag ∧
    List.Forall₂ (fun x y => x.1 = y.1 ∧ (∀ b, x.2 = .obj b ↔ y.2 = .obj b)) m.items m'.items

omit [DecidableEq A] in
theorem Skel.refl (h : MHeap A) : Skel h h := by
  intro n
  cases hn : h[n]? with
  | none => exact .inl ⟨rfl, rfl⟩
  | some m => exact .inr ⟨m, m, rfl, rfl, rfl, List.forall₂_same.2 fun _ _ => ⟨rfl, fun _ => Iff.rfl⟩⟩

omit [DecidableEq A] in
theorem forall2_trans {α : Type} {R : α → α → Prop} (hR : ∀ x y z, R x y → R y z → R x z) :
    ∀ {xs ys zs : List α}, List.Forall₂ R xs ys → List.Forall₂ R ys zs → List.Forall₂ R xs zs
  | _, _, _, .nil, .nil => .nil
  | _, _, _, .cons h1 t1, .cons h2 t2 => .cons (hR _ _ _ h1 h2) (forall2_trans hR t1 t2)

omit [DecidableEq A] in
theorem Skel.trans {h h' h'' : MHeap A} (h1 : Skel h h') (h2 : Skel h' h'') : Skel h h'' := by
  intro n
  rcases h1 n with ⟨a, b⟩ | ⟨m, m', a, b, c, d⟩
  · rcases h2 n with ⟨a', b'⟩ | ⟨_, _, a', _⟩
    · exact .inl ⟨a, b'⟩
    · rw [b] at a'; cases a'
  · rcases h2 n with ⟨a', _⟩ | ⟨m1, m2, a', b', c', d'⟩
    · rw [b] at a'; cases a'
    · rw [b] at a'; cases a'
      exact .inr ⟨m, m2, a, b', c.trans c', forall2_trans (fun x y z u v => ⟨u.1.trans v.1, fun k => (u.2 k).trans (v.2 k)⟩) d d'⟩

theorem skel_editAt (f : A → A → Bool) (s : A → A → A) (h : MHeap A) (n : Nat) : Skel h (editAt f s h n) := by
  intro b
  cases hb : h[b]? with
  | none => exact .inl ⟨rfl, by simp [editAt, List.getElem?_modify, hb]⟩
  | some m =>
    refine .inr ⟨m, if n = b then { m with items := m.items.map (editEntry f s) } else m, rfl, ?_, ?_, ?_⟩
    · simp only [editAt, List.getElem?_modify, hb, Option.map_some]
      split <;> rfl
    · split <;> rfl
    · split
      · refine List.forall₂_iff_get.2 ⟨by simp, fun i h1 h2 => ?_⟩
        simp only [List.get_eq_getElem, List.getElem_map, editEntry_fst, true_and]
        intro c
        obtain ⟨k, v⟩ := m.items[i]
        cases v with
        | atom a => simp only [editEntry]; split <;> simp
        | obj o => simp [editEntry]
      · exact List.forall₂_same.2 fun _ _ => ⟨rfl, fun _ => Iff.rfl⟩

theorem skel_foldl (f : A → A → Bool) (s : A → A → A) : ∀ (vs : List Nat) (h : MHeap A), Skel h (vs.foldl (editAt f s) h)
  | [], h => Skel.refl h
  | n :: vs, h => (skel_editAt f s h n).trans (skel_foldl f s vs _)

omit [DecidableEq A] in
theorem skel_isA {h h' : MHeap A} (hs : Skel h h') (mt : Tag → Bool) (n : Nat) :
    (HVal.obj n : HVal A).isA h mt = (HVal.obj n : HVal A).isA h' mt := by
  simp only [HVal.isA]
  rcases hs n with ⟨a, b⟩ | ⟨m, m', a, b, c, _⟩
  · rw [a, b]
  · rw [a, b]; simp [c]

theorem skel_ok {h h' : MHeap A} (hs : Skel h h') (hk : MapsOK h) : MapsOK h' := by
  intro m' hm'
  obtain ⟨n, hn⟩ := List.getElem?_of_mem hm'
  rcases hs n with ⟨_, b⟩ | ⟨m, m2, a, b, _, d⟩
  · rw [hn] at b; cases b
  · rw [hn] at b; cases b
    have := hk m (List.mem_of_getElem? a)
    have e : Dict.keys m.items = Dict.keys m'.items := by
      unfold Dict.keys
      have : List.Forall₂ (fun (x y : A) => x = y) (m.items.map Prod.fst) (m'.items.map Prod.fst) := by
        rw [List.forall₂_map_left_iff, List.forall₂_map_right_iff]
        exact d.imp fun _ _ h => h.1
      exact List.forall₂_eq_eq_eq ▸ this
    unfold Dict.WF at this ⊢
    rw [← e]; exact this

omit [DecidableEq A] in
theorem skel_nests {h h' : MHeap A} (hs : Skel h h') (mt : Tag → Bool) :
    ∀ {l l' : List (A × HVal A)}, List.Forall₂ (fun x y => x.1 = y.1 ∧ (∀ b, x.2 = .obj b ↔ y.2 = .obj b)) l l' →
    nestsOf h mt l = nestsOf h' mt l'
  | _, _, .nil => rfl
  | (k, v) :: l, (k', v') :: l', .cons hx ht => by
    have ih := skel_nests hs mt ht
    simp only [nestsOf, List.filterMap_cons] at ih ⊢
    cases v with
    | atom a =>
      cases v' with
      | atom _ => simpa using ih
      | obj b => have := (hx.2 b).2 rfl; cases this
    | obj b =>
      have e : v' = .obj b := (hx.2 b).1 rfl
      subst e
      simp only [skel_isA hs mt b]
      split
      · exact ih
      · rw [ih]

mutual
theorem skel_visits {h h' : MHeap A} (hs : Skel h h') {mt : Tag → Bool} {n : Nat} {vs : List Nat} :
    Visits h mt n vs → Visits h' mt n vs
  | .mk hn hv => by
    rename_i m _
    rcases hs n with ⟨a, _⟩ | ⟨m1, m', a, b, _, d⟩
    · rw [hn] at a; cases a
    · rw [hn] at a; cases a
      exact .mk b (skel_visitsItems hs hv d)
theorem skel_visitsItems {h h' : MHeap A} (hs : Skel h h') {mt : Tag → Bool} {l l' : List (A × HVal A)} {vs : List Nat} :
    VisitsItems h mt l vs → List.Forall₂ (fun x y => x.1 = y.1 ∧ (∀ b, x.2 = .obj b ↔ y.2 = .obj b)) l l' →
    VisitsItems h' mt l' vs
  | .nil, hl => by cases hl; exact .nil
  | .skip hv hr, hl => by
    cases hl with
    | @cons _ y _ _ hx ht =>
      obtain ⟨k', v'⟩ := y
      refine .skip ?_ (skel_visitsItems hs hr ht)
      cases v' with
      | atom _ => rfl
      | obj b =>
        have e := (hx.2 b).2 rfl
        simp only at e
        subst e
        rw [← skel_isA hs mt b]; exact hv
  | .nest hv hn hr, hl => by
    cases hl with
    | @cons _ y _ _ hx ht =>
      obtain ⟨k', v'⟩ := y
      have e := (hx.2 _).1 rfl
      simp only at e
      subst e
      exact .nest ((skel_isA hs mt _).symm.trans hv) (skel_visits hs hn) (skel_visitsItems hs hr ht)
end

theorem skel_symm {h h' : MHeap A} (hs : Skel h h') : Skel h' h := by
  intro n
  rcases hs n with ⟨a, b⟩ | ⟨m, m', a, b, c, d⟩
  · exact .inl ⟨b, a⟩
  · exact .inr ⟨m', m, b, a, c.symm, d.flip.imp fun _ _ h => ⟨h.1.symm, fun b => (h.2 b).symm⟩⟩

/-- one step of `dig_and_edit` with plain edits -/
theorem digEditH_step {f : A → A → Bool} {s : A → A → A} {filter : MHeap A → A → HVal A → Bool}
    {setter : MHeap A → A → HVal A → HVal A × MHeap A} (hpe : PlainEdit f s filter setter) (mt : Tag → Bool) (fuel : Nat)
    {h : MHeap A} (hk : MapsOK h) {n : Nat} {m : HMap A} (hn : h[n]? = some m) :
    digEditH filter setter mt (fuel + 1) h n =
      editNests (digEditH filter setter mt fuel) (editAt f s h n) (nestsOf h mt m.items) := by
  have e1 : setMatches setter n h (m.items.filter fun kv => filter h kv.1 kv.2) = editAt f s h n := by
    rw [setMatches_eq hpe]
    · unfold editAt
      apply List.ext_getElem?
      intro b
      simp only [List.getElem?_modify]
      by_cases hb : n = b
      · subst hb
        simp only [hn, if_true]
        show some (HMap.mk m.tag _) = some (HMap.mk m.tag _)
        have hp : ∀ kv : A × HVal A, filter h kv.1 kv.2 = false → editEntry f s kv = kv := by
          intro kv hkv
          obtain ⟨k, v⟩ := kv
          cases v with
          | atom a => simp only [hpe.atoms] at hkv; simp [editEntry, hkv]
          | obj _ => rfl
        have := sets_eq_map f s (fun kv => filter h kv.1 kv.2) hp m.items [] (hk m (List.mem_of_getElem? hn))
        simp only [List.nil_append] at this
        rw [this]
      · simp [hb]
    · intro kv hkv
      have := (List.mem_filter.1 hkv).2
      obtain ⟨k, v⟩ := kv
      cases v with
      | atom a => exact ⟨a, rfl, by simpa [hpe.atoms] using this⟩
      | obj b => simp [hpe.noObj] at this
  simp only [digEditH, hn, e1]
  rcases skel_editAt f s h n n with ⟨a, _⟩ | ⟨m1, m', a, b, _, d⟩
  · rw [hn] at a; cases a
  · rw [hn] at a; cases a
    rw [b]
    simp only
    rw [← skel_nests (skel_editAt f s h n) mt d]

theorem editNests_visits {f : A → A → Bool} {s : A → A → A} {mt : Tag → Bool} {rec : MHeap A → Nat → Option (MHeap A)}
    {fuel : Nat} (ih : ∀ (h : MHeap A) n vs, MapsOK h → Visits h mt n vs → vs.length ≤ fuel → rec h n = some (vs.foldl (editAt f s) h)) :
    ∀ {l : List (A × HVal A)} {vs : List Nat} {h h' : MHeap A}, Skel h h' → MapsOK h → VisitsItems h mt l vs → vs.length ≤ fuel →
    editNests rec h' (nestsOf h mt l) = some (vs.foldl (editAt f s) h')
  | [], vs, h, h', _, _, hv, _ => by cases hv; rfl
  | (k, v) :: l, vs, h, h', hs, hk, hv, hl => by
    cases hv with
    | skip hA hr =>
      have : nestsOf h mt ((k, v) :: l) = nestsOf h mt l := by
        cases v with
        | atom _ => rfl
        | obj b => simp [nestsOf, hA]
      rw [this]
      exact editNests_visits ih hs hk hr hl
    | @nest _ n _ vs ws hA hn hr =>
      have : nestsOf h mt ((k, .obj n) :: l) = n :: nestsOf h mt l := by simp [nestsOf, hA]
      rw [this]
      simp only [List.length_append] at hl
      simp only [editNests, ih h' n vs (skel_ok hs hk) (skel_visits hs hn) (by omega), bind, Option.bind, List.foldl_append]
      exact editNests_visits ih (hs.trans (skel_foldl f s vs h')) hk hr (by omega)

theorem digEditH_visits {f : A → A → Bool} {s : A → A → A} {filter : MHeap A → A → HVal A → Bool}
    {setter : MHeap A → A → HVal A → HVal A × MHeap A} (hpe : PlainEdit f s filter setter) (mt : Tag → Bool) :
    ∀ (fuel : Nat) (h : MHeap A) n vs, MapsOK h → Visits h mt n vs → vs.length ≤ fuel →
    digEditH filter setter mt fuel h n = some (vs.foldl (editAt f s) h)
  | 0, h, n, vs, _, hv, hl => by cases hv; simp at hl
  | fuel + 1, h, n, _, hk, .mk hn hv, hl => by
    rw [digEditH_step hpe mt fuel hk hn]
    exact editNests_visits (digEditH_visits hpe mt fuel) (skel_editAt f s h n) hk hv (by simpa using hl)

theorem editNests_conv {f : A → A → Bool} {s : A → A → A} {mt : Tag → Bool} {rec : MHeap A → Nat → Option (MHeap A)}
    (ih : ∀ (h : MHeap A) n h', MapsOK h → rec h n = some h' → ∃ vs, Visits h mt n vs ∧ h' = vs.foldl (editAt f s) h) :
    ∀ {l : List (A × HVal A)} {h h' r : MHeap A}, Skel h h' → MapsOK h → editNests rec h' (nestsOf h mt l) = some r →
    ∃ vs, VisitsItems h mt l vs ∧ r = vs.foldl (editAt f s) h'
  | [], h, h', r, _, _, hr => by cases hr; exact ⟨[], .nil, rfl⟩
  | (k, v) :: l, h, h', r, hs, hk, hr => by
    by_cases hA : v.isA h mt = true
    · cases v with
      | atom _ => cases hA
      | obj n =>
        have : nestsOf h mt ((k, .obj n) :: l) = n :: nestsOf h mt l := by simp [nestsOf, hA]
        rw [this] at hr
        simp only [editNests, bind] at hr
        cases h1 : rec h' n with
        | none => rw [h1] at hr; cases hr
        | some h2 =>
          rw [h1] at hr
          obtain ⟨vs, hv, e⟩ := ih h' n h2 (skel_ok hs hk) h1
          have hs2 : Skel h h2 := hs.trans (e ▸ skel_foldl f s vs h')
          obtain ⟨ws, hw, e2⟩ := editNests_conv ih hs2 hk hr
          exact ⟨vs ++ ws, .nest hA (skel_visits (skel_symm hs) hv) hw, by rw [e2, e, List.foldl_append]⟩
    · have : nestsOf h mt ((k, v) :: l) = nestsOf h mt l := by
        cases v with
        | atom _ => rfl
        | obj b => simp [nestsOf, hA]
      rw [this] at hr
      obtain ⟨vs, hv, e⟩ := editNests_conv ih hs hk hr
      exact ⟨vs, .skip (by simpa using hA) hv, e⟩

theorem digEditH_conv {f : A → A → Bool} {s : A → A → A} {filter : MHeap A → A → HVal A → Bool}
    {setter : MHeap A → A → HVal A → HVal A × MHeap A} (hpe : PlainEdit f s filter setter) (mt : Tag → Bool) :
    ∀ (fuel : Nat) (h : MHeap A) n h', MapsOK h → digEditH filter setter mt fuel h n = some h' →
    ∃ vs, Visits h mt n vs ∧ h' = vs.foldl (editAt f s) h
  | 0, h, n, h', _, hr => by cases hr
  | fuel + 1, h, n, h', hk, hr => by
    cases hn : h[n]? with
    | none => simp [digEditH, hn] at hr
    | some m =>
      rw [digEditH_step hpe mt fuel hk hn] at hr
      obtain ⟨vs, hv, e⟩ := editNests_conv (digEditH_conv hpe mt fuel) (skel_editAt f s h n) hk hr
      exact ⟨n :: vs, .mk hn hv, e⟩

theorem foldl_editAt (f : A → A → Bool) (s : A → A → A) : ∀ (vs : List Nat) (h : MHeap A),
    EditedTimes f s (fun n => vs.count n) h (vs.foldl (editAt f s) h)
  | [], h, n => by
    cases hn : h[n]? <;> simp [hn]
  | v :: vs, h, n => by
    rw [List.foldl_cons, foldl_editAt f s vs (editAt f s h v) n]
    simp only [editAt, List.getElem?_modify, Option.map_map]
    cases hn : h[n]? with
    | none => simp
    | some m =>
      by_cases hv : v = n
      · subst hv
        simp [Function.iterate_succ, Function.comp_def]
      · simp [hv, List.count_cons]

mutual
theorem visits_fun {h : MHeap A} {mt : Tag → Bool} {n : Nat} {vs ws : List Nat} :
    Visits h mt n vs → Visits h mt n ws → vs = ws
  | .mk hn hv, .mk hn' hv' => by
    rw [hn] at hn'; cases hn'
    rw [visitsItems_fun hv hv']
theorem visitsItems_fun {h : MHeap A} {mt : Tag → Bool} {l : List (A × HVal A)} {vs ws : List Nat} :
    VisitsItems h mt l vs → VisitsItems h mt l ws → vs = ws
  | .nil, h2 => by cases h2; rfl
  | .skip ha hr, h2 => by
    cases h2 with
    | skip _ hr' => exact visitsItems_fun hr hr'
    | nest ha' _ _ => rw [ha] at ha'; cases ha'
  | .nest ha hn hr, h2 => by
    cases h2 with
    | skip ha' _ => rw [ha] at ha'; cases ha'
    | nest _ hn' hr' => rw [visits_fun hn hn', visitsItems_fun hr hr']
end

omit [DecidableEq A] in
theorem visitsItems_sub {h : MHeap A} {mt : Tag → Bool} {b : Nat} {k : A} (hb : (HVal.obj b : HVal A).isA h mt = true) :
    ∀ {l : List (A × HVal A)} {vs : List Nat}, VisitsItems h mt l vs → (k, .obj b) ∈ l →
    ∃ ws, Visits h mt b ws ∧ ws ⊆ vs ∧ ws.length ≤ vs.length
  | [], _, _, hm => by cases hm
  | (k', v) :: l, vs, hv, hm => by
    cases hv with
    | skip ha hr =>
      rcases List.mem_cons.1 hm with e | hm
      · cases e; rw [ha] at hb; cases hb
      · exact visitsItems_sub hb hr hm
    | @nest _ n _ us ws ha hn hr =>
      rcases List.mem_cons.1 hm with e | hm
      · cases e; exact ⟨us, hn, by simp, by simp⟩
      · obtain ⟨xs, h1, h2, h3⟩ := visitsItems_sub hb hr hm
        refine ⟨xs, h1, List.Subset.trans h2 (by simp), ?_⟩
        simp only [List.length_append]; omega

omit [DecidableEq A] in
theorem holds_visits {h : MHeap A} {mt : Tag → Bool} {a b : Nat} (hab : Holds h mt a b) {vs : List Nat}
    (hv : Visits h mt a vs) : ∃ ws, Visits h mt b ws ∧ ws ⊆ vs ∧ ws.length < vs.length := by
  obtain ⟨m, k, m', ha, hm, hb, ht⟩ := hab
  cases hv with
  | @mk _ m2 us hn hi =>
    rw [ha] at hn; cases hn
    obtain ⟨ws, h1, h2, h3⟩ := visitsItems_sub (by simp [HVal.isA, hb, ht]) hi hm
    exact ⟨ws, h1, List.Subset.trans h2 (by simp), by simp only [List.length_cons]; omega⟩

omit [DecidableEq A] in
theorem reach_visits {h : MHeap A} {mt : Tag → Bool} {a b : Nat} (hab : Relation.ReflTransGen (Holds h mt) a b)
    {vs : List Nat} (hv : Visits h mt a vs) : ∃ ws, Visits h mt b ws ∧ ws ⊆ vs ∧ ws.length ≤ vs.length := by
  induction hab with
  | refl => exact ⟨vs, hv, fun _ h => h, Nat.le_refl _⟩
  | tail _ hbc ih =>
    obtain ⟨ws, h1, h2, h3⟩ := ih
    obtain ⟨us, g1, g2, g3⟩ := holds_visits hbc h1
    exact ⟨us, g1, List.Subset.trans g2 h2, by omega⟩

end Verif.Lemmas
