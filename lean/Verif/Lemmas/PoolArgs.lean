import Verif.Lemmas.PickleSame
import Verif.Spec.PoolArgs
/-! Helper lemmas for `MaybePool.map` of functions that change their arguments. -/
namespace Verif.Lemmas.Pickle
open Verif Verif.Model Verif.Spec

/-! ## what a reference leads to -/

theorem nodeRel_refs {R : Nat → Nat → Prop} {n n' : PNode} (hn : NodeRel R n n') {b : Nat} (hb : .obj b ∈ PNode.refs n') :
    ∃ a, R a b ∧ .obj a ∈ PNode.refs n := by
  have lst : ∀ {xs ys : List PRef}, List.Forall₂ (RefRel R) xs ys → .obj b ∈ ys → ∃ a, R a b ∧ .obj a ∈ xs := by
    intro xs ys h
    induction h with
    | nil => intro h; cases h
    | cons hx _ ih =>
      intro h
      rcases List.mem_cons.1 h with e | h
      · subst e; cases hx with | obj hr => exact ⟨_, hr, by simp⟩
      · obtain ⟨a, h1, h2⟩ := ih h; exact ⟨a, h1, List.mem_cons_of_mem _ h2⟩
  cases hn with
  | str => cases hb
  | bytes => cases hb
  | tuple h => exact lst h hb
  | list h => exact lst h hb
  | dict h => exact lst (forall₂_flatMap h fun x y hxy => .cons hxy.1 (.cons hxy.2 .nil)) hb

theorem nodeRel_imp {R S : Nat → Nat → Prop} {n n' : PNode} (hn : NodeRel R n n') (hi : ∀ a b, .obj a ∈ PNode.refs n → R a b → S a b) :
    NodeRel S n n' := by
  have rr : ∀ {x y : PRef}, (∀ a b, x = .obj a → R a b → S a b) → RefRel R x y → RefRel S x y := by
    intro x y hx h
    cases h <;> constructor
    exact hx _ _ rfl ‹_›
  have lst : ∀ {xs ys : List PRef}, (∀ a b, .obj a ∈ xs → R a b → S a b) → List.Forall₂ (RefRel R) xs ys → List.Forall₂ (RefRel S) xs ys := by
    intro xs ys hx h
    induction h with
    | nil => exact .nil
    | cons h1 _ ih =>
      exact .cons (rr (fun a b e => hx a b (by rw [e]; simp)) h1) (ih fun a b hm => hx a b (List.mem_cons_of_mem _ hm))
  cases hn with
  | str => constructor
  | bytes => constructor
  | tuple h => exact .tuple (lst hi h)
  | list h => exact .list (lst hi h)
  | dict h =>
    refine .dict ?_
    simp only [PNode.refs] at hi
    induction h with
    | nil => exact .nil
    | cons h1 _ ih =>
      refine .cons ⟨rr (fun a b e => hi a b (by simp [e])) h1.1, rr (fun a b e => hi a b (by simp [e])) h1.2⟩ (ih fun a b hm => hi a b ?_)
      rw [List.flatMap_cons]
      exact List.mem_append_right _ hm

theorem nodeRel_refl {R : Nat → Nat → Prop} {n : PNode} (hi : ∀ a, .obj a ∈ PNode.refs n → R a a) : NodeRel R n n := by
  have rr : ∀ {x : PRef}, (∀ a, x = .obj a → R a a) → RefRel R x x := by
    intro x hx
    cases x <;> constructor
    exact hx _ rfl
  have lst : ∀ {xs : List PRef}, (∀ a, .obj a ∈ xs → R a a) → List.Forall₂ (RefRel R) xs xs := by
    intro xs hx
    induction xs with
    | nil => exact .nil
    | cons x xs ih => exact .cons (rr fun a e => hx a (by simp [e])) (ih fun a hm => hx a (List.mem_cons_of_mem _ hm))
  cases n with
  | str => constructor
  | bytes => constructor
  | tuple => exact .tuple (lst hi)
  | list => exact .list (lst hi)
  | dict kvs =>
    refine .dict ?_
    simp only [PNode.refs] at hi
    induction kvs with
    | nil => exact .nil
    | cons p kvs ih =>
      refine .cons ⟨rr fun a e => hi a (by simp [e]), rr fun a e => hi a (by simp [e])⟩ (ih fun a hm => hi a ?_)
      rw [List.flatMap_cons]
      exact List.mem_append_right _ hm

theorem reach_agree {h h' : PHeap} {r : PRef} (ha : ∀ a, PReach h r a → h'[a]? = h[a]?) {a : Nat} : PReach h' r a ↔ PReach h r a := by
  constructor
  · intro hr
    induction hr with
    | here e => exact .here e
    | step _ h1 h2 ih => rw [ha _ ih] at h1; exact .step ih h1 h2
  · intro hr
    induction hr with
    | here e => exact .here e
    | step h0 h1 h2 ih => exact .step ih (by rw [ha _ h0]; exact h1) h2

/-- the same objects, the same value -/
theorem same_agree {h h' : PHeap} {r : PRef} (hok : OKFrom h r) (ha : ∀ a, PReach h r a → h'[a]? = h[a]?) : SameGraph h r h' r := by
  refine ⟨fun a b => a = b ∧ PReach h r a, ?_, ?_, ?_, ?_⟩
  · rintro a b b' ⟨rfl, _⟩ ⟨rfl, _⟩; rfl
  · rintro a a' b ⟨rfl, _⟩ ⟨rfl, _⟩; rfl
  · cases r <;> constructor
    exact ⟨rfl, .here rfl⟩
  · rintro a b ⟨rfl, hr⟩
    obtain ⟨n, hn, _⟩ := hok a hr
    exact ⟨n, n, hn, by rw [ha a hr]; exact hn, nodeRel_refl fun b hb => ⟨rfl, .step hr hn hb⟩⟩

/-- what corresponds is reached on both sides -/
theorem reach_back {R : Nat → Nat → Prop} {h h' : PHeap} {r r' : PRef} (hr : RefRel R r r')
    (hn : ∀ a b, R a b → ∃ n n', h[a]? = some n ∧ h'[b]? = some n' ∧ NodeRel R n n') {b : Nat} (hb : PReach h' r' b) :
    ∃ a, R a b ∧ PReach h r a := by
  induction hb with
  | here e => subst e; cases hr with | obj h1 => exact ⟨_, h1, .here rfl⟩
  | step _ h1 h2 ih =>
    obtain ⟨a, g1, g2⟩ := ih
    obtain ⟨n, n', k1, k2, k3⟩ := hn _ _ g1
    rw [k2] at h1; cases h1
    obtain ⟨a', l1, l2⟩ := nodeRel_refs k3 h2
    exact ⟨a', l1, .step g2 k1 l2⟩

theorem mapM_rel' {α β γ : Type} {f : α → Option γ} {g : β → Option γ} {xs : List α} {ys : List β}
    (h : List.Forall₂ (fun x y => ∀ k, f x = some k → g y = some k) xs ys) {ks : List γ} (hk : xs.mapM f = some ks) :
    ys.mapM g = some ks := by
  induction h generalizing ks with
  | nil => simpa using hk
  | cons hx _ ih =>
    rw [List.mapM_cons] at hk ⊢
    simp only [Option.bind_eq_bind, Option.bind_eq_some_iff, Option.pure_def, Option.some.injEq] at hk ⊢
    obtain ⟨k, h1, ks', h2, rfl⟩ := hk
    exact ⟨k, hx _ h1, ks', ih h2, rfl⟩

/-- corresponding references are the same key -/
theorem key_iso {R : Nat → Nat → Prop} {h h' : PHeap} (hn : ∀ a b, R a b → ∃ n n', h[a]? = some n ∧ h'[b]? = some n' ∧ NodeRel R n n') :
    ∀ (n : Nat) (r r' : PRef) k, RefRel R r r' → keyN h n r = some k → keyN h' n r' = some k
  | 0, _, _, _, _, hk => by cases hk
  | n + 1, r, r', k, hr, hk => by
    cases hr with
    | none => exact hk
    | bool => exact hk
    | int => exact hk
    | float => exact hk
    | unit => exact hk
    | obj hm =>
      rename_i a b
      obtain ⟨nd, nd', h1, h2, h3⟩ := hn _ _ hm
      simp only [keyN, h1, h2] at hk ⊢
      cases h3 with
      | str => exact hk
      | bytes => exact hk
      | tuple hxs =>
        simp only [Option.map_eq_some_iff] at hk ⊢
        obtain ⟨ks, hks, rfl⟩ := hk
        refine ⟨ks, mapM_rel' (hxs.imp fun x y hxy k hk => key_iso hn n x y k hxy hk) hks, ?_⟩
        rw [hxs.length_eq]
      | list => cases hk
      | dict => cases hk

theorem okFrom_same {h h' : PHeap} {r r' : PRef} (hs : SameGraph h r h' r') (hok : OKFrom h r) : OKFrom h' r' := by
  have hsym := SameGraph.symm hs
  obtain ⟨R, h1, h2, h3, h4⟩ := hs
  have hflip : ∀ {x y : PRef}, RefRel R x y → RefRel (fun a b => R b a) y x := by
    intro x y hxy
    cases hxy <;> constructor
    assumption
  have h4' : ∀ a b, (fun a b => R b a) a b → ∃ n n', h'[a]? = some n ∧ h[b]? = some n' ∧ NodeRel (fun a b => R b a) n n' := by
    intro a b hab
    obtain ⟨n, n', k1, k2, k3⟩ := h4 b a hab
    refine ⟨n', n, k2, k1, ?_⟩
    cases k3 with
    | str => constructor
    | bytes => constructor
    | tuple h => exact .tuple (h.flip.imp fun _ _ h => hflip h)
    | list h => exact .list (h.flip.imp fun _ _ h => hflip h)
    | dict h => exact .dict (h.flip.imp fun _ _ h => ⟨hflip h.1, hflip h.2⟩)
  intro b hb
  obtain ⟨a, hab, har⟩ := reach_back h3 h4 hb
  obtain ⟨n, n', k1, k2, k3⟩ := h4 a b hab
  obtain ⟨m, hm, hmok⟩ := hok a har
  rw [k1] at hm; cases hm
  refine ⟨n', k2, ?_⟩
  cases k3 with
  | str => exact hmok
  | bytes => exact hmok
  | tuple hx => intro e; subst e; cases hx; exact hmok rfl
  | list => trivial
  | dict hx =>
    obtain ⟨q1, q2⟩ := hmok
    clear k1 k2 hb har hab
    constructor
    · induction hx with
      | nil => intro p hp; cases hp
      | cons hp _ ih =>
        intro p hm
        rcases List.mem_cons.1 hm with e | hm
        · subst e
          obtain ⟨k, g, hk⟩ := q1 _ List.mem_cons_self
          exact ⟨k, g, key_iso h4 g _ _ k hp.1 hk⟩
        · exact ih (fun p hp => q1 p (List.mem_cons_of_mem _ hp)) (List.pairwise_cons.1 q2).2 p hm
    · induction hx with
      | nil => exact .nil
      | @cons p0 p0' l l' hp hl ih =>
        obtain ⟨q3, q4⟩ := List.pairwise_cons.1 q2
        refine List.pairwise_cons.2 ⟨fun p hm k j hk hj => ?_, ih (fun p hp => q1 p (List.mem_cons_of_mem _ hp)) q4⟩
        have : ∃ p', p' ∈ l ∧ RefRel R p'.1 p.1 := by
          clear q1 q2 q3 q4 ih
          induction hl with
          | nil => cases hm
          | cons hp _ ih =>
            rcases List.mem_cons.1 hm with e | hm
            · subst e; exact ⟨_, by simp, hp.1⟩
            · obtain ⟨p', h1, h2⟩ := ih hm; exact ⟨p', List.mem_cons_of_mem _ h1, h2⟩
        obtain ⟨p', hm', hr'⟩ := this
        obtain ⟨g, hk⟩ := hk
        obtain ⟨g', hj⟩ := hj
        exact q3 p' hm' k j ⟨g, key_iso h4' g _ _ k (hflip hp.1) hk⟩ ⟨g', key_iso h4' g' _ _ j (hflip hr') hj⟩

theorem okFrom_agree {h h' : PHeap} {r : PRef} (hok : OKFrom h r) (ha : ∀ a, PReach h r a → h'[a]? = h[a]?) : OKFrom h' r :=
  okFrom_same (same_agree hok ha) hok

theorem reach_lt {h : PHeap} {r : PRef} (hok : OKFrom h r) {a : Nat} (ha : PReach h r a) : a < h.length := by
  obtain ⟨n, hn, _⟩ := hok a ha
  exact (List.getElem?_eq_some_iff.1 hn).1

/-! ## lists sent -/

/-- the elements of a list that was sent, with their correspondence -/
theorem list_sent {h H : PHeap} {xs : List PRef} {s : PRef} (hs : SameGraph (pyList h xs).1 (pyList h xs).2 H s) :
    ∃ R : Nat → Nat → Prop, (∀ a b b', R a b → R a b' → b = b') ∧ (∀ a a' b, R a b → R a' b → a = a') ∧
      (∀ a b, R a b → ∃ n n', (h ++ [.list xs])[a]? = some n ∧ H[b]? = some n' ∧ NodeRel R n n') ∧
      List.Forall₂ (RefRel R) xs (pyElems (H, s)) := by
  obtain ⟨R, h1, h2, h3, h4⟩ := hs
  refine ⟨R, h1, h2, h4, ?_⟩
  simp only [pyList] at h3 h4
  cases h3 with
  | obj hr =>
    obtain ⟨n, n', k1, k2, k3⟩ := h4 _ _ hr
    rw [List.getElem?_append_right (Nat.le_refl _), Nat.sub_self] at k1
    cases k1
    cases k3 with
    | list hx =>
      simp only [pyElems, k2]
      exact hx

theorem okFrom_append {h : PHeap} {r : PRef} (x : PHeap) (hok : OKFrom h r) : OKFrom (h ++ x) r :=
  okFrom_agree hok fun a ha => List.getElem?_append_left (reach_lt hok ha)

theorem reach_append {h : PHeap} {r : PRef} (x : PHeap) (hok : OKFrom h r) {a : Nat} : PReach (h ++ x) r a ↔ PReach h r a :=
  reach_agree fun _ ha => List.getElem?_append_left (reach_lt hok ha)

theorem okFrom_list {h : PHeap} {xs : List PRef} (hok : ∀ x ∈ xs, OKFrom h x) : OKFrom (pyList h xs).1 (pyList h xs).2 := by
  intro a ha
  have key : a = h.length ∨ ∃ x ∈ xs, PReach (pyList h xs).1 x a := by
    induction ha with
    | here e => cases e; exact .inl rfl
    | @step a b n _ h1 h2 ih =>
      rcases ih with rfl | ⟨x, hx, hr⟩
      · simp only [pyList] at h1
        rw [List.getElem?_append_right (Nat.le_refl _), Nat.sub_self] at h1
        cases h1
        exact .inr ⟨.obj b, h2, .here rfl⟩
      · exact .inr ⟨x, hx, .step hr h1 h2⟩
  rcases key with rfl | ⟨x, hx, hr⟩
  · exact ⟨.list xs, by simp [pyList], trivial⟩
  · exact okFrom_append _ (hok x hx) a hr

/-! ## calls on the same objects -/

/-- what is needed of a function and some arguments for calls one after another to be calls on their own: `W a` are the objects a
call with `a` may change -/
structure CallsApart (f : PyFunc) (W : PRef → Nat → Prop) (h0 : PHeap) (as : List PRef) : Prop where
  grows : ∀ h r, h.length ≤ (f h r).2.length
  keeps : ∀ a ∈ as, ∀ h, h0.length ≤ h.length → (∀ x, PReach h0 a x → h[x]? = h0[x]?) → ∀ x < h.length, ¬ W a x → (f h a).2[x]? = h[x]?
  apart : as.Pairwise fun a b => ∀ x, PReach h0 b x → ¬ W a x
  later : as.Pairwise fun a b => ∀ h, h0.length ≤ h.length → (∀ x, PReach h0 a x → h[x]? = h0[x]?) →
    ∀ x, PReach (f h a).2 (f h a).1 x → ¬ W b x

theorem CallsApart.tail {f : PyFunc} {W : PRef → Nat → Prop} {h0 : PHeap} {a : PRef} {as : List PRef} (hc : CallsApart f W h0 (a :: as)) :
    CallsApart f W h0 as :=
  ⟨hc.grows, fun b hb => hc.keeps b (List.mem_cons_of_mem _ hb), (List.pairwise_cons.1 hc.apart).2, (List.pairwise_cons.1 hc.later).2⟩

theorem callAll_spec {f : PyFunc} (hv : ByValue f) (hk : KeepsOK f) {W : PRef → Nat → Prop} {h0 : PHeap} : ∀ (as : List PRef) (h : PHeap),
    CallsApart f W h0 as → (∀ a ∈ as, OKFrom h0 a) → h0.length ≤ h.length → (∀ a ∈ as, ∀ x, PReach h0 a x → h[x]? = h0[x]?) →
    h.length ≤ (callAll f h as).2.length ∧
    (∀ x < h.length, (∀ a ∈ as, ¬ W a x) → (callAll f h as).2[x]? = h[x]?) ∧
    List.Forall₂ (fun a r => SameGraph (f h0 a).2 (f h0 a).1 (callAll f h as).2 r) as (callAll f h as).1
  | [], h, _, _, _, _ => ⟨Nat.le_refl _, fun _ _ _ => rfl, .nil⟩
  | a :: as, h, hc, hok, hlen, hag => by
    have ha := hok a (by simp)
    have haa := hag a (by simp)
    have g1 := hc.grows h a
    obtain ⟨p1, _⟩ := List.pairwise_cons.1 hc.apart
    obtain ⟨l1, _⟩ := List.pairwise_cons.1 hc.later
    have kp := hc.keeps a (by simp) h hlen haa
    obtain ⟨i1, i2, i3⟩ := callAll_spec hv hk as (f h a).2 hc.tail (fun b hb => hok b (List.mem_cons_of_mem _ hb)) (by omega)
      (fun b hb x hx => by
        have hxl := reach_lt (hok b (List.mem_cons_of_mem _ hb)) hx
        rw [kp x (by omega) (p1 b hb x hx)]
        exact hag b (List.mem_cons_of_mem _ hb) x hx)
    have s1 : SameGraph (f h0 a).2 (f h0 a).1 (f h a).2 (f h a).1 := hv _ _ _ _ ha (same_agree ha haa)
    have o1 : OKFrom (f h a).2 (f h a).1 := hk h a (okFrom_agree ha haa)
    have s2 : SameGraph (f h a).2 (f h a).1 (callAll f (f h a).2 as).2 (f h a).1 :=
      same_agree o1 fun x hx => i2 x (reach_lt o1 hx) fun b hb => l1 b hb h hlen haa x hx
    refine ⟨Nat.le_trans g1 i1, fun x hx hw => ?_, .cons (SameGraph.trans s1 s2) i3⟩
    show (callAll f (f h a).2 as).2[x]? = _
    rw [i2 x (by omega) fun b hb => hw b (List.mem_cons_of_mem _ hb)]
    exact kp x hx (hw a (by simp))

end Verif.Lemmas.Pickle
