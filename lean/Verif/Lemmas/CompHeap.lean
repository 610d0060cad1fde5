import Verif.Lemmas.Composition
import Verif.Model.CompHeap
/-! # Compositions that share nothing behave as values -/
namespace Verif.Lemmas
open Verif Verif.Model Verif.Spec

variable {A V X ι : Type}

/-- a dict that exists, and whose objects exist and are different from each other -/
structure Owned (H : Boxes A) (d : Nat) : Prop where
  lt : d < H.nextDict
  nodup : (H.dicts d).values.Nodup
  boxes : ∀ b ∈ (H.dicts d).values, b < H.nextBox

/-- several dicts that have nothing in common -/
structure Sep (H : Boxes A) (ds : ι → Nat) : Prop where
  owned : ∀ i, Owned H (ds i)
  ne : ∀ i j, i ≠ j → ds i ≠ ds j
  disj : ∀ i j, i ≠ j → ∀ b ∈ (H.dicts (ds i)).values, b ∉ (H.dicts (ds j)).values

private theorem values_of_get? {d : Dict Name Nat} {n : Name} {b : Nat} (h : d.get? n = some b) : b ∈ d.values :=
  List.mem_map.2 ⟨(n, b), Dict.mem_of_get? h, rfl⟩

/-- changing the object of a name, in a dict of different objects -/
private theorem map_update (f : Nat → A) (x : A) {d : Dict Name Nat} {n : Name} {b : Nat} (hn : d.values.Nodup)
    (h : d.get? n = some b) :
    d.map (fun p => (p.1, if p.2 = b then x else f p.2)) = Dict.set (d.map fun p => (p.1, f p.2)) n x := by
  induction d with
  | nil => cases h
  | cons p t ih =>
    obtain ⟨k, c⟩ := p
    simp only [Dict.values, List.map_cons, List.nodup_cons] at hn
    rw [Dict.get?_cons] at h
    simp only [List.map_cons, Dict.set]
    by_cases hk : k = n
    · rw [if_pos hk] at h
      cases h
      rw [if_pos hk, if_pos rfl]
      congr 1
      refine List.map_congr_left fun p hp => ?_
      rw [if_neg]
      rintro he
      exact hn.1 (he ▸ List.mem_map.2 ⟨p, hp, rfl⟩)
    · rw [if_neg hk] at h ⊢
      have hne : c ≠ b := by
        rintro rfl
        exact hn.1 (values_of_get? h)
      rw [if_neg hne, ih hn.2 h]

private theorem map_get? (f : Nat → A) (d : Dict Name Nat) (n : Name) :
    Dict.get? (d.map fun p => (p.1, f p.2)) n = (d.get? n).map f := by
  induction d with
  | nil => rfl
  | cons p t ih =>
    obtain ⟨k, c⟩ := p
    simp only [List.map_cons, Dict.get?_cons]
    split
    · rfl
    · exact ih

/-- `touch` seen from the dict -/
theorem touch_view (init : A) (g : A → A) {H : Boxes A} {d : Nat} (ho : Owned H d) (n : Name) :
    (H.touch init g d n).view d = (H.view d).set n (g (((H.view d).get? n).getD init)) := by
  unfold Boxes.touch Boxes.view
  rw [map_get?]
  cases hg : (H.dicts d).get? n with
  | some b =>
    simp only [Option.map_some, Option.getD_some]
    rw [← map_update H.box (g (H.box b)) ho.nodup hg]
  | none =>
    simp only [Option.map_none, Option.getD_none, if_true]
    have hk : n ∉ (H.dicts d).keys := Dict.get?_eq_none.1 hg
    have hk' : n ∉ Dict.keys ((H.dicts d).map fun p => (p.1, H.box p.2)) := by
      rw [← Dict.get?_eq_none, map_get?, hg]; rfl
    rw [Dict.set_of_not_mem _ _ hk, Dict.set_of_not_mem _ _ hk', List.map_append]
    congr 1
    · refine List.map_congr_left fun p hp => ?_
      have := ho.boxes p.2 (List.mem_map.2 ⟨p, hp, rfl⟩)
      rw [if_neg (by omega)]
    · simp

/-- `touch` seen from another dict -/
theorem touch_frame (init : A) (g : A → A) {H : Boxes A} {ds : ι → Nat} (hs : Sep H ds) {i j : ι} (hij : i ≠ j) (n : Name) :
    (H.touch init g (ds i) n).view (ds j) = H.view (ds j) := by
  unfold Boxes.touch Boxes.view
  cases hg : (H.dicts (ds i)).get? n with
  | some b =>
    refine List.map_congr_left fun p hp => ?_
    have hb : b ∉ (H.dicts (ds j)).values := hs.disj i j hij b (values_of_get? hg)
    simp only
    rw [if_neg]
    rintro he
    exact hb (he ▸ List.mem_map.2 ⟨p, hp, rfl⟩)
  | none =>
    simp only
    rw [if_neg (hs.ne j i (Ne.symm hij))]
    refine List.map_congr_left fun p hp => ?_
    have := (hs.owned j).boxes p.2 (List.mem_map.2 ⟨p, hp, rfl⟩)
    rw [if_neg (by omega)]

theorem touch_sep (init : A) (g : A → A) {H : Boxes A} {ds : ι → Nat} (hs : Sep H ds) (i : ι) (n : Name) :
    Sep (H.touch init g (ds i) n) ds := by
  unfold Boxes.touch
  cases hg : (H.dicts (ds i)).get? n with
  | some b => exact ⟨fun j => ⟨(hs.owned j).lt, (hs.owned j).nodup, (hs.owned j).boxes⟩, hs.ne, hs.disj⟩
  | none =>
    have hk : n ∉ (H.dicts (ds i)).keys := Dict.get?_eq_none.1 hg
    have hv : ((H.dicts (ds i)).set n H.nextBox).values = (H.dicts (ds i)).values ++ [H.nextBox] := by
      rw [Dict.set_of_not_mem _ _ hk]; simp [Dict.values]
    have hfresh : ∀ j, H.nextBox ∉ (H.dicts (ds j)).values := fun j hm => by
      have := (hs.owned j).boxes _ hm; omega
    refine ⟨fun j => ⟨(hs.owned j).lt, ?_, ?_⟩, hs.ne, ?_⟩
    · simp only
      by_cases hj : ds j = ds i
      · rw [if_pos hj, hv, List.nodup_append]
        refine ⟨(hs.owned i).nodup, by simp, fun a ha b hb => ?_⟩
        simp only [List.mem_singleton] at hb
        subst hb
        rintro rfl
        exact hfresh i ha
      · rw [if_neg hj]
        exact (hs.owned j).nodup
    · intro b hb
      simp only at hb ⊢
      by_cases hj : ds j = ds i
      · rw [if_pos hj, hv, List.mem_append, List.mem_singleton] at hb
        rcases hb with hb | rfl
        · have := (hs.owned i).boxes b hb; omega
        · omega
      · rw [if_neg hj] at hb
        have := (hs.owned j).boxes b hb; omega
    · intro j k hjk b hb hb'
      simp only at hb hb'
      by_cases hj : ds j = ds i
      · have hk : ds k ≠ ds i := fun he => hs.ne j k hjk (hj.trans he.symm)
        rw [if_pos hj, hv, List.mem_append, List.mem_singleton] at hb
        rw [if_neg hk] at hb'
        rcases hb with hb | rfl
        · exact hs.disj j k hjk b (hj ▸ hb) hb'
        · exact hfresh k hb'
      · rw [if_neg hj] at hb
        by_cases hk : ds k = ds i
        · rw [if_pos hk, hv, List.mem_append, List.mem_singleton] at hb'
          rcases hb' with hb' | rfl
          · exact hs.disj j k hjk b hb (hk ▸ hb')
          · exact hfresh j hb
        · rw [if_neg hk] at hb'
          exact hs.disj j k hjk b hb hb'

/-- Compositions that exist and share nothing -/
structure Unshared (h : CHeap V X) (os : ι → CObj V X) : Prop where
  steps_lt : ∀ i, (os i).steps < h.nextSteps
  steps_ne : ∀ i j, i ≠ j → (os i).steps ≠ (os j).steps
  sends : Sep h.sends fun i => (os i).sends
  inserts : Sep h.inserts fun i => (os i).inserts

/-- an operation on the Composition `i` that makes of its value `c'`, leaving the others -/
structure Became (h h' : CHeap V X) (os os' : ι → CObj V X) (i : ι) (c' : Comp V X) : Prop where
  unshared : Unshared h' os'
  view : h'.view (os' i) = c'
  frame : ∀ j, j ≠ i → h'.view (os' j) = h.view (os j)

theorem Became.refl {h : CHeap V X} {os : ι → CObj V X} (hu : Unshared h os) (i : ι) :
    Became h h os os i (h.view (os i)) := ⟨hu, rfl, fun _ _ => rfl⟩

theorem Became.trans {h1 h2 h3 : CHeap V X} {os1 os2 os3 : ι → CObj V X} {i : ι} {c c' : Comp V X}
    (a : Became h1 h2 os1 os2 i c) (b : Became h2 h3 os2 os3 i c') : Became h1 h3 os1 os3 i c' :=
  ⟨b.unshared, b.view, fun j hj => (b.frame j hj).trans (a.frame j hj)⟩

theorem addInsertH_became {h : CHeap V X} {os : ι → CObj V X} (hu : Unshared h os) (i : ι) (n k : Name) (v : V) :
    Became h (addInsertH h (os i) n k v) os os i (addInsert (h.view (os i)) n k v) := by
  refine ⟨⟨hu.steps_lt, hu.steps_ne, hu.sends, touch_sep [] (fun d : Dict Name V => Dict.set d k v) hu.inserts i n⟩, ?_, ?_⟩
  · simp only [CHeap.view, addInsertH, addInsert]
    rw [touch_view _ _ (hu.inserts.owned i)]
  · intro j hj
    simp only [CHeap.view, addInsertH]
    rw [touch_frame _ _ hu.inserts (Ne.symm hj)]

theorem addSendH_became {h : CHeap V X} {os : ι → CObj V X} (hu : Unshared h os) (i : ι) (n : Name) (sd : Send V X) :
    (∃ e, addSendH h (os i) n sd = .error e ∧ addSend (h.view (os i)) n sd = .error e) ∨
    ∃ h' c', addSendH h (os i) n sd = .ok h' ∧ addSend (h.view (os i)) n sd = .ok c' ∧ Became h h' os os i c' := by
  unfold addSendH addSend
  by_cases hc : (sd.target.isNone && sd.pipe.isNone) = true
  · exact Or.inl ⟨.valueError, by rw [if_pos hc], by rw [if_pos hc]⟩
  · refine Or.inr ⟨_, _, by rw [if_neg hc], by rw [if_neg hc], ?_, ?_, ?_⟩
    · exact ⟨hu.steps_lt, hu.steps_ne, touch_sep [] (· ++ [sd]) hu.sends i n, hu.inserts⟩
    · simp only [CHeap.view]
      rw [touch_view _ _ (hu.sends.owned i)]
    · intro j hj
      simp only [CHeap.view]
      rw [touch_frame _ _ hu.sends (Ne.symm hj)]

theorem addTrackSendH_became [PyNone V] {h : CHeap V X} {os : ι → CObj V X} (hu : Unshared h os) (i : ι) (n : Name)
    (s : Step V X) : Became h (addTrackSendH h (os i) n s) os os i (addTrackSend (h.view (os i)) n s) := by
  unfold addTrackSendH addTrackSend
  rw [show (h.view (os i)).tracker = (os i).tracker from rfl]
  cases (os i).tracker with
  | none => exact Became.refl hu i
  | some t =>
    simp only
    rcases addSendH_became hu i n { pipe := some (trackPipe t n s), target := none, pointer := .none } with
      ⟨e, h1, h2⟩ | ⟨h', c', h1, h2, h3⟩
    · rw [h1, h2]; exact Became.refl hu i
    · rw [h1, h2]; exact h3

theorem addTrackSendsH_became [PyNone V] {h : CHeap V X} {os : ι → CObj V X} (hu : Unshared h os) (i : ι)
    (l : Dict Name (Step V X)) : Became h (addTrackSendsH h (os i) l) os os i (addTrackSends (h.view (os i)) l) := by
  induction l generalizing h with
  | nil => exact Became.refl hu i
  | cons p t ih =>
    obtain ⟨n, s⟩ := p
    have h1 := addTrackSendH_became hu i n s
    rw [addTrackSendsH, addTrackSends]
    have h2 := ih h1.unshared
    rw [h1.view] at h2
    exact h1.trans h2

theorem addStepH_became [PyNone V] {h : CHeap V X} {os : ι → CObj V X} (hu : Unshared h os) (i : ι) (s : Step V X)
    (n : Option Name) : Became h (addStepH h (os i) s n) os os i (addStep (h.view (os i)) s n) := by
  unfold addStepH addStep
  simp only
  rw [show (h.view (os i)).steps = h.steps (os i).steps from rfl]
  generalize hm : n.getD (.int ((h.steps (os i).steps).length + 1)) = m
  clear hm
  have h1 : Became h { h with steps := fun k => if k = (os i).steps then (h.steps (os i).steps).set m s else h.steps k } os os i
      { h.view (os i) with steps := (h.steps (os i).steps).set m s } := by
    refine ⟨⟨hu.steps_lt, hu.steps_ne, hu.sends, hu.inserts⟩, ?_, ?_⟩
    · simp only [CHeap.view, if_true]
    · intro j hj
      simp only [CHeap.view, if_neg (hu.steps_ne j i hj)]
  have h2 := addTrackSendH_became h1.unshared i m s
  rw [h1.view] at h2
  exact h1.trans h2

theorem reindexH_became [DecidableEq ι] {h : CHeap V X} {os : ι → CObj V X} (hu : Unshared h os) (i : ι) :
    Became h (reindexH h (os i)).2 os (fun j => if j = i then (reindexH h (os i)).1 else os j) i (reindex (h.view (os i))) := by
  have hsends : (fun j => (if j = i then (reindexH h (os i)).1 else os j).sends) = fun j => (os j).sends := by
    funext j; by_cases hj : j = i
    · subst hj; simp [reindexH]
    · simp [hj]
  have hins : (fun j => (if j = i then (reindexH h (os i)).1 else os j).inserts) = fun j => (os j).inserts := by
    funext j; by_cases hj : j = i
    · subst hj; simp [reindexH]
    · simp [hj]
  refine ⟨⟨?_, ?_, by rw [hsends]; exact hu.sends, by rw [hins]; exact hu.inserts⟩, ?_, ?_⟩
  · intro j
    by_cases hj : j = i
    · rw [if_pos hj]; simp [reindexH]
    · rw [if_neg hj]
      have := hu.steps_lt j
      simp only [reindexH]; omega
  · intro j k hjk
    by_cases hj : j = i
    · have hk : k ≠ i := fun e => hjk (hj.trans e.symm)
      rw [if_pos hj, if_neg hk]
      have := hu.steps_lt k
      simp only [reindexH]; omega
    · rw [if_neg hj]
      by_cases hk : k = i
      · rw [if_pos hk]
        have := hu.steps_lt j
        simp only [reindexH]; omega
      · rw [if_neg hk]
        exact hu.steps_ne j k hjk
  · simp [CHeap.view, reindexH, reindex]
  · intro j hj
    have := hu.steps_lt j
    simp only [if_neg hj, CHeap.view, reindexH, if_neg (show ¬ (os j).steps = h.nextSteps by omega)]

/-! ## Runs -/

private theorem placeInto_out (c : Comp V X) (v : V) {t : Target V X} (ht : t.step? = none) (p : Name) (w : World V X) :
    placeInto c v t p w = ((placeInto { steps := [] } v t p w).1, c, (placeInto { steps := [] } v t p w).2.2) := by
  cases t with
  | stepInt n => cases ht
  | stepStr n => cases ht
  | list id =>
    cases p with
    | none => rfl
    | _ =>
      simp only [placeInto]
      split <;> rfl
  | dict id => rfl
  | writer f => rfl
  | inert => rfl

theorem placeIntoH_became {h : CHeap V X} {os : ι → CObj V X} (hu : Unshared h os) (i : ι) (v : V) (t : Target V X) (p : Name)
    (w : World V X) : ∃ r h' c' w', placeIntoH h (os i) v t p w = (r, h', w') ∧
      placeInto (h.view (os i)) v t p w = (r, c', w') ∧ Became h h' os os i c' := by
  unfold placeIntoH
  cases ht : t.step? with
  | none =>
    simp only
    exact ⟨_, _, _, _, rfl, placeInto_out _ v ht p w, Became.refl hu i⟩
  | some b =>
    refine ⟨_, _, _, _, rfl, ?_, addInsertH_became hu i b p v⟩
    cases t with
    | stepInt n => cases ht; rfl
    | stepStr n => cases ht; rfl
    | _ => cases ht

theorem performSendH_became {h : CHeap V X} {os : ι → CObj V X} (hu : Unshared h os) (i : ι) (v : V) (sd : Send V X)
    (w : World V X) : ∃ r h' c' w', performSendH h (os i) v sd w = (r, h', w') ∧
      performSend (h.view (os i)) v sd w = (r, c', w') ∧ Became h h' os os i c' := by
  obtain ⟨p, t, ptr⟩ := sd
  cases t with
  | none =>
    cases p with
    | none => exact ⟨_, _, _, _, rfl, rfl, Became.refl hu i⟩
    | some p =>
      simp only [performSendH, performSend]
      rcases p v w with ⟨r, w'⟩
      cases r <;> exact ⟨_, _, _, _, rfl, rfl, Became.refl hu i⟩
  | some t =>
    cases p with
    | none => exact placeIntoH_became hu i v t ptr w
    | some p =>
      simp only [performSendH, performSend]
      rcases p v w with ⟨r, w'⟩
      cases r with
      | ok y => exact placeIntoH_became hu i y t ptr w'
      | error e => exact ⟨_, _, _, _, rfl, rfl, Became.refl hu i⟩

theorem performSendListH_became {h : CHeap V X} {os : ι → CObj V X} (hu : Unshared h os) (i : ι) (v : V) (l : List (Send V X))
    (w : World V X) : ∃ r h' c' w', performSendListH h (os i) v l w = (r, h', w') ∧
      performSendList (h.view (os i)) v l w = (r, c', w') ∧ Became h h' os os i c' := by
  induction l generalizing h w with
  | nil => exact ⟨_, _, _, _, rfl, rfl, Became.refl hu i⟩
  | cons sd t ih =>
    obtain ⟨r, h1, c1, w1, e1, e2, b1⟩ := performSendH_became hu i v sd w
    rw [performSendListH, performSendList, e1, e2]
    cases r with
    | error e => exact ⟨_, _, _, _, rfl, rfl, b1⟩
    | ok u =>
      simp only
      obtain ⟨r, h2, c2, w2, e3, e4, b2⟩ := ih b1.unshared w1
      rw [b1.view] at e4
      exact ⟨r, h2, c2, w2, e3, e4, b1.trans b2⟩

theorem doStepH_became {h : CHeap V X} {os : ι → CObj V X} (hu : Unshared h os) (i : ι) (n : Name) (s : Step V X) (v : V)
    (w : World V X) : ∃ r h' c' w', doStepH h (os i) n s v w = (r, h', w') ∧
      doStep (h.view (os i)) n s v w = (r, c', w') ∧ Became h h' os os i c' := by
  rw [doStepH, doStep]
  rcases callStep (h.view (os i)) n s v w with ⟨r, w1⟩
  cases r with
  | error e => exact ⟨_, _, _, _, rfl, rfl, Became.refl hu i⟩
  | ok x =>
    simp only [performSends]
    obtain ⟨r, h2, c2, w2, e1, e2, b⟩ := performSendListH_became hu i x (((h.view (os i)).sends.get? n).getD []) w1
    rw [e1, e2]
    cases r <;> exact ⟨_, _, _, _, rfl, rfl, b⟩

theorem iterStepsH_became {h : CHeap V X} {os : ι → CObj V X} (hu : Unshared h os) (i : ι) (v : V) (l : Dict Name (Step V X))
    (w : World V X) : ∃ outs e h' c' w', iterStepsH h (os i) v l w = (outs, e, h', w') ∧
      iterSteps (h.view (os i)) v l w = (outs, e, c', w') ∧ Became h h' os os i c' := by
  induction l generalizing h v w with
  | nil => exact ⟨_, _, _, _, _, rfl, rfl, Became.refl hu i⟩
  | cons p t ih =>
    obtain ⟨n, s⟩ := p
    obtain ⟨r, h1, c1, w1, e1, e2, b1⟩ := doStepH_became hu i n s v w
    rw [iterStepsH, iterSteps, e1, e2]
    cases r with
    | error e => exact ⟨_, _, _, _, _, rfl, rfl, b1⟩
    | ok x =>
      simp only
      obtain ⟨outs, e, h2, c2, w2, e3, e4, b2⟩ := ih b1.unshared x w1
      rw [b1.view] at e4
      rw [e3, e4]
      exact ⟨_, _, _, _, _, rfl, rfl, b1.trans b2⟩

theorem executeH_became [PyNone V] {h : CHeap V X} {os : ι → CObj V X} (hu : Unshared h os) (i : ι) (v : V) (w : World V X) :
    ∃ r h' c' w', executeH h (os i) v w = (r, h', w') ∧ execute (h.view (os i)) v w = (r, c', w') ∧
      Became h h' os os i c' := by
  obtain ⟨outs, e, h', c', w', e1, e2, b⟩ := iterStepsH_became hu i v (h.steps (os i).steps) w
  unfold executeH execute itercall
  rw [show (h.view (os i)).steps = h.steps (os i).steps from rfl, e1, e2]
  cases e with
  | none => exact ⟨_, _, _, _, rfl, rfl, b⟩
  | some e =>
    simp only
    rw [show (h.view (os i)).tracker = (os i).tracker from rfl, show (h.view (os i)).optional = (os i).optional from rfl]
    by_cases he : (fromGenerator e).isException = true
    · rw [if_pos he, if_pos he]
      cases (os i).tracker with
      | none => exact ⟨_, _, _, _, rfl, rfl, b⟩
      | some t =>
        cases (h.steps (os i).steps)[outs.length]? with
        | none => exact ⟨_, _, _, _, rfl, rfl, b⟩
        | some p =>
          simp only
          rcases t { target := p.2.ident, failure := some (fromGenerator e) } w' with ⟨r, w''⟩
          cases r <;> exact ⟨_, _, _, _, rfl, rfl, b⟩
    · rw [if_neg he, if_neg he]
      exact ⟨_, _, _, _, rfl, rfl, b⟩

end Verif.Lemmas
