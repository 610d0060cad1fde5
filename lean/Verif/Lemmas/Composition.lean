import Verif.Model.Composition
import Verif.Spec.Composition
import Verif.Py.Tactics
import Mathlib.Data.List.Perm.Subperm
/-! # Lemmas about composition.py -/
namespace Verif.Lemmas
open Verif Verif.Model Verif.Spec

variable {V X : Type}

/-! ## Arguments -/

theorem get?_intArgs (d : Dict Name V) (n : Int) : (intArgs d).get? n = Dict.get? d (.int n) := by
  induction d with
  | nil => rfl
  | cons h t ih =>
    obtain ⟨k, v⟩ := h
    cases k <;> simp [intArgs, Dict.get?_cons, ih]

theorem get?_strArgs (d : Dict Name V) (s : Str) : (strArgs d).get? s = Dict.get? d (.str s) := by
  induction d with
  | nil => rfl
  | cons h t ih =>
    obtain ⟨k, v⟩ := h
    cases k <;> simp [strArgs, Dict.get?_cons, ih]

theorem mem_keys_intArgs {d : Dict Name V} {n : Int} : n ∈ (intArgs d).keys ↔ Name.int n ∈ d.keys := by
  rw [← Dict.get?_isSome, ← Dict.get?_isSome, get?_intArgs]

theorem mem_keys_strArgs {d : Dict Name V} {n : Str} : n ∈ (strArgs d).keys ↔ Name.str n ∈ d.keys := by
  rw [← Dict.get?_isSome, ← Dict.get?_isSome, get?_strArgs]

theorem wf_intArgs {d : Dict Name V} (h : d.WF) : (intArgs d).WF := by
  induction d with
  | nil => exact Dict.wf_nil
  | cons x t ih =>
    obtain ⟨k, v⟩ := x
    have h' := List.nodup_cons.1 h
    cases k with
    | int n => exact List.nodup_cons.2 ⟨fun hm => h'.1 (mem_keys_intArgs.1 hm), ih h'.2⟩
    | _ => exact ih h'.2

theorem wf_strArgs {d : Dict Name V} (h : d.WF) : (strArgs d).WF := by
  induction d with
  | nil => exact Dict.wf_nil
  | cons x t ih =>
    obtain ⟨k, v⟩ := x
    have h' := List.nodup_cons.1 h
    cases k with
    | str n => exact List.nodup_cons.2 ⟨fun hm => h'.1 (mem_keys_strArgs.1 hm), ih h'.2⟩
    | _ => exact ih h'.2

theorem get?_enumFrom (l : List V) (j : Nat) (k : Int) :
    Dict.get? (l.mapIdx fun i v => (((i + j : Nat) : Int), v)) k = if (j : Int) ≤ k then l[(k - j).toNat]? else none := by
  induction l generalizing j with
  | nil => simp
  | cons v t ih =>
    rw [List.mapIdx_cons, Dict.get?_cons]
    by_cases hk : ((0 + j : Nat) : Int) = k
    · rw [if_pos hk, if_pos (by omega)]
      simp [show (k - j).toNat = 0 by omega]
    · rw [if_neg hk]
      have := ih (j + 1)
      simp only [show ∀ i, i + 1 + j = i + (j + 1) by omega]
      rw [this]
      by_cases hj : (j : Int) ≤ k
      · rw [if_pos hj, if_pos (by omega), show (k - j).toNat = (k - (j + 1 : Nat)).toNat + 1 by omega]
        simp
      · rw [if_neg hj, if_neg (by omega)]

theorem get?_enumArgs (l : List V) (k : Int) : (enumArgs l).get? k = baked l k := by
  have := get?_enumFrom l 0 k
  simpa [enumArgs, baked] using this

theorem wf_enumFrom (l : List V) (j : Nat) : Dict.WF (l.mapIdx fun i v => (((i + j : Nat) : Int), v)) := by
  induction l generalizing j with
  | nil => exact Dict.wf_nil
  | cons v t ih =>
    rw [List.mapIdx_cons]
    have h := ih (j + 1)
    simp only [show ∀ i, i + (j + 1) = i + 1 + j by omega] at h
    refine List.nodup_cons.2 ⟨?_, h⟩
    simp only [Dict.keys, List.mem_map, List.mem_mapIdx]
    rintro ⟨x, ⟨i, hi, rfl⟩, hx⟩
    simp only at hx
    omega

theorem wf_enumArgs (l : List V) : (enumArgs l).WF := by simpa [enumArgs] using wf_enumFrom l 0

theorem openFrom_spec (args : Dict Int V) (fuel n : Nat) (hn : n + fuel = args.length)
    (h : ∀ i < n, args.get? (i : Nat) ≠ none) :
    args.get? (openFrom args n fuel : Nat) = none ∧ ∀ i < openFrom args n fuel, args.get? (i : Nat) ≠ none := by
  induction fuel generalizing n with
  | zero =>
    refine ⟨?_, h⟩
    simp only [openFrom]
    by_contra hc
    have hsub : ((List.range (n + 1)).map fun i : Nat => (i : Int)) ⊆ args.keys := by
      intro k hk
      obtain ⟨i, hi, rfl⟩ := List.mem_map.1 hk
      have hi' := List.mem_range.1 hi
      by_contra hc2
      have hnone := Dict.get?_eq_none.2 hc2
      by_cases he : i = n
      · subst he; exact hc hnone
      · exact h i (by omega) hnone
    have hnd : ((List.range (n + 1)).map fun i : Nat => (i : Int)).Nodup :=
      by
      rw [List.Nodup, List.pairwise_map]
      exact List.nodup_range.imp fun h hc => h (by omega)
    have := (List.subperm_of_subset hnd hsub).length_le
    simp [Dict.keys] at this
    omega
  | succ f ih =>
    simp only [openFrom]
    by_cases hs : (args.get? (n : Int)).isSome = true
    · rw [if_pos hs]
      refine ih (n + 1) (by omega) fun i hi => ?_
      by_cases he : i = n
      · subst he; intro hnone; rw [hnone] at hs; simp at hs
      · exact h i (by omega)
    · rw [if_neg hs]
      refine ⟨?_, h⟩
      cases hg : args.get? (n : Int) with
      | none => rfl
      | some _ => rw [hg] at hs; simp at hs

theorem opening_spec (args : Dict Int V) : IsOpening args.get? (opening args) := by
  have := openFrom_spec args args.length 0 (by omega) (by omega)
  exact this

theorem map_some_filterMap {α β : Type} {f : α → Option β} {l : List α} (h : ∀ x ∈ l, f x ≠ none) :
    (l.filterMap f).map some = l.map f := by
  induction l with
  | nil => rfl
  | cons x t ih =>
    cases hx : f x with
    | none => exact absurd hx (h x List.mem_cons_self)
    | some y =>
      rw [List.filterMap_cons_some hx, List.map_cons, List.map_cons, hx, ih fun z hz => h z (List.mem_cons_of_mem _ hz)]

theorem insertInt_perm (x : Int) (l : List Int) : (insertInt x l).Perm (x :: l) := by
  induction l with
  | nil => exact List.Perm.refl _
  | cons y t ih =>
    rw [insertInt]
    by_cases h : x ≤ y
    · rw [if_pos h]
    · rw [if_neg h]
      exact (ih.cons y).trans (List.Perm.swap x y t)

theorem sortInts_perm (l : List Int) : (sortInts l).Perm l := by
  induction l with
  | nil => exact List.Perm.refl _
  | cons x t ih => exact (insertInt_perm x _).trans (ih.cons x)

theorem insertInt_sorted (x : Int) {l : List Int} (h : l.Pairwise (· ≤ ·)) : (insertInt x l).Pairwise (· ≤ ·) := by
  induction l with
  | nil => simp [insertInt]
  | cons y t ih =>
    have h' := List.pairwise_cons.1 h
    rw [insertInt]
    by_cases hx : x ≤ y
    · rw [if_pos hx]
      refine List.pairwise_cons.2 ⟨fun z hz => ?_, h⟩
      rcases List.mem_cons.1 hz with rfl | hz
      · exact hx
      · have := h'.1 z hz; omega
    · rw [if_neg hx]
      refine List.pairwise_cons.2 ⟨fun z hz => ?_, ih h'.2⟩
      rcases List.mem_cons.1 ((insertInt_perm x t).mem_iff.1 hz) with rfl | hz
      · omega
      · exact h'.1 z hz

theorem sortInts_sorted (l : List Int) : (sortInts l).Pairwise (· ≤ ·) := by
  induction l with
  | nil => exact List.Pairwise.nil
  | cons x t ih => exact insertInt_sorted x ih

theorem flowSignal_spec (v : V) {args : Dict Int V} (wf : args.WF) : PosArgs args.get? v (flowSignal v args) := by
  refine ⟨opening args, opening_spec args, sortInts (args.set (opening args) v).keys, ?_, ?_, ?_⟩
  · have h1 := sortInts_sorted (args.set (opening args) v).keys
    have h2 : (sortInts (args.set (opening args) v).keys).Nodup := (sortInts_perm _).nodup_iff.2 (Dict.wf_set wf _ _)
    refine (h1.and h2).imp fun h => ?_
    omega
  · intro k
    rw [(sortInts_perm _).mem_iff, ← Dict.get?_isSome, Dict.get?_set]
    by_cases hk : (opening args : Int) = k
    · simp [hk]
    · simp [hk, Ne.symm hk, Option.isSome_iff_ne_none]
  · rw [flowSignal, map_some_filterMap]
    · apply List.map_congr_left
      intro k _
      rw [Dict.get?_set]
      by_cases h : (opening args : Int) = k
      · rw [if_pos h, if_pos h.symm]
      · rw [if_neg h, if_neg (Ne.symm h)]
    · intro k hk hnone
      rw [(sortInts_perm _).mem_iff, ← Dict.get?_isSome, hnone] at hk
      simp at hk

theorem callWith_spec (f : Fn V X) (v : V) {args : Dict Int V} (wf : args.WF) (kw : Dict Str V) (w : World V X) :
    ∃ l, PosArgs args.get? v l ∧ callWith f v args kw w = f l kw w := by
  unfold callWith
  by_cases h : args.length = 0
  · rw [if_pos h]
    refine ⟨[v], ⟨0, ⟨?_, by omega⟩, [0], by simp, ?_, by simp⟩, rfl⟩ <;> simp [List.length_eq_zero_iff.1 h]
  · rw [if_neg h]
    exact ⟨_, flowSignal_spec v wf, rfl⟩

/-- strictly increasing lists with the same elements are equal -/
theorem sorted_unique : ∀ {l l' : List Int}, l.Pairwise (· < ·) → l'.Pairwise (· < ·) → (∀ k, k ∈ l ↔ k ∈ l') → l = l'
  | [], [], _, _, _ => rfl
  | [], b :: t, _, _, h => absurd ((h b).2 List.mem_cons_self) (by simp)
  | a :: s, [], _, _, h => absurd ((h a).1 List.mem_cons_self) (by simp)
  | a :: s, b :: t, hs, ht, h => by
    have h1 := List.pairwise_cons.1 hs
    have h2 := List.pairwise_cons.1 ht
    have hab : a = b := by
      rcases List.mem_cons.1 ((h a).1 List.mem_cons_self) with e | e
      · exact e
      · rcases List.mem_cons.1 ((h b).2 List.mem_cons_self) with e' | e'
        · exact e'.symm
        · have := h1.1 b e'
          have := h2.1 a e
          omega
    subst hab
    rw [sorted_unique h1.2 h2.2]
    intro k
    have hk := h k
    simp only [List.mem_cons] at hk
    constructor
    · intro hks
      rcases hk.1 (Or.inr hks) with e | e
      · have := h1.1 k hks; omega
      · exact e
    · intro hkt
      rcases hk.2 (Or.inr hkt) with e | e
      · have := h2.1 k hkt; omega
      · exact e

theorem isOpening_unique {ins : Int → Option V} {o o' : Nat} (h : IsOpening ins o) (h' : IsOpening ins o') : o = o' := by
  rcases Nat.lt_trichotomy o o' with hl | hl | hl
  · exact absurd h.1 (h'.2 o hl)
  · exact hl
  · exact absurd h'.1 (h.2 o' hl)

/-- the positional arguments are determined -/
theorem posArgs_unique {ins : Int → Option V} {v : V} {a b : List V} (ha : PosArgs ins v a) (hb : PosArgs ins v b) : a = b := by
  obtain ⟨o, ho, ks, s1, m1, e1⟩ := ha
  obtain ⟨o', ho', ks', s2, m2, e2⟩ := hb
  have hoo := isOpening_unique ho ho'
  subst hoo
  have hk : ks = ks' := sorted_unique s1 s2 fun k => by rw [m1, m2]
  subst hk
  rw [← e2] at e1
  exact List.map_injective_iff.2 (fun x y h => Option.some.inj h) e1

/-! ## Steps -/

/-- the inserts of a step -/
def insertsAt (c : Comp V X) (name : Name) : Name → Option V := fun k => (c.inserts.get? name).bind fun d => d.get? k

/-- the step is called with the right arguments -/
def StepCalls (step : Step V X) (ins : Name → Option V) (v : V) (w : World V X) (r : Except PyErr V × World V X) : Prop :=
  ∃ args kw, match step.func with
    | some f => PosArgs (over (fun i => ins (.int i)) (baked (step.args.getD []))) v args ∧
        KwArgs (over (fun s => ins (.str s)) (step.keywords.getD []).get?) kw ∧ r = f args kw w
    | none => PosArgs (fun i => ins (.int i)) v args ∧ KwArgs (fun s => ins (.str s)) kw ∧ r = step.call args kw w

/-- dictionaries have distinct keys -/
structure CompWF (c : Comp V X) : Prop where
  steps : c.steps.WF
  inserts : ∀ n d, c.inserts.get? n = some d → d.WF
  keywords : ∀ n s, (n, s) ∈ c.steps → ∀ k, s.keywords = some k → k.WF

theorem get?_getD (c : Comp V X) (name : Name) (k : Name) :
    ((c.inserts.get? name).getD []).get? k = insertsAt c name k := by
  unfold insertsAt
  cases c.inserts.get? name <;> rfl

theorem insert_wf {c : Comp V X} (h : ∀ n d, c.inserts.get? n = some d → d.WF) (name : Name) :
    ((c.inserts.get? name).getD []).WF := by
  cases hc : c.inserts.get? name with
  | none => exact Dict.wf_nil
  | some d => exact h name d hc

theorem enumArgs_nil : (enumArgs ([] : List V)) = [] := rfl

theorem update_empty_int (d : Dict Int V) (wf : d.WF) (k : Int) : (Dict.update ([] : Dict Int V) d).get? k = d.get? k := by
  rw [Dict.get?_update _ _ wf]; simp

theorem callStep_spec {c : Comp V X} (hi : ∀ n d, c.inserts.get? n = some d → d.WF) (name : Name) {step : Step V X}
    (hk : step.func ≠ none → ∀ k, step.keywords = some k → k.WF) (v : V) (w : World V X) :
    StepCalls step (insertsAt c name) v w (callStep c name step v w) := by
  have hw := insert_wf hi name
  have hint : (fun i : Int => (intArgs ((c.inserts.get? name).getD [])).get? i) = fun i => insertsAt c name (.int i) := by
    funext i; rw [get?_intArgs, get?_getD]
  have hstr : (fun i : Str => (strArgs ((c.inserts.get? name).getD [])).get? i) = fun i => insertsAt c name (.str i) := by
    funext i; rw [get?_strArgs, get?_getD]
  cases hf : step.func with
  | none =>
    obtain ⟨l, h1, h2⟩ := callWith_spec step.call v (wf_intArgs hw) (strArgs ((c.inserts.get? name).getD [])) w
    refine ⟨l, strArgs ((c.inserts.get? name).getD []), ?_⟩
    simp only [hf]
    refine ⟨hint ▸ h1, ⟨wf_strArgs hw, fun s => congrFun hstr s⟩, ?_⟩
    simp only [callStep, hf]
    exact h2
  | some f =>
    have ha : ∃ A : Dict Int V, A.WF ∧ overArgs step (intArgs ((c.inserts.get? name).getD [])) = A ∧
        A.get? = over (fun i => insertsAt c name (.int i)) (baked (step.args.getD [])) := by
      unfold overArgs
      cases hs : step.args with
      | none =>
        refine ⟨_, wf_intArgs hw, rfl, ?_⟩
        funext i
        have := congrFun hint i
        simp [over, this, baked]
      | some a =>
        refine ⟨_, Dict.wf_update (wf_enumArgs a) _, rfl, ?_⟩
        funext i
        have := congrFun hint i
        rw [Dict.get?_update _ _ (wf_intArgs hw), this, get?_enumArgs]
        rfl
    have hkw : ∃ K : Dict Str V, K.WF ∧ overKeywords step (strArgs ((c.inserts.get? name).getD [])) = K ∧
        ∀ s, K.get? s = over (fun s => insertsAt c name (.str s)) (step.keywords.getD []).get? s := by
      unfold overKeywords
      cases hs : step.keywords with
      | none =>
        refine ⟨_, wf_strArgs hw, rfl, fun s => ?_⟩
        have := congrFun hstr s
        simp [over, this]
      | some a =>
        refine ⟨_, Dict.wf_update (hk (by rw [hf]; simp) a hs) _, rfl, fun s => ?_⟩
        have := congrFun hstr s
        rw [Dict.get?_update _ _ (wf_strArgs hw), this]
        rfl
    obtain ⟨A, hA, hA1, hA2⟩ := ha
    obtain ⟨K, hK, hK1, hK2⟩ := hkw
    obtain ⟨l, h1, h2⟩ := callWith_spec f v hA K w
    refine ⟨l, K, ?_⟩
    simp only [hf]
    refine ⟨hA2 ▸ h1, ⟨hK, hK2⟩, ?_⟩
    simp only [callStep, hf, callPartialStep, hA1, hK1]
    exact h2

/-! ## Rows of steps -/

/-- no step has a send -/
def NoSends (c : Comp V X) : Prop := ∀ n l, c.sends.get? n = some l → l = []

theorem performSends_none {c : Comp V X} (h : NoSends c) (name : Name) (v : V) (w : World V X) :
    performSends c name v w = (.ok (), c, w) := by
  unfold performSends
  cases hs : c.sends.get? name with
  | none => rfl
  | some l => rw [h name l hs]; rfl

theorem iterSteps_threads {c : Comp V X} (hi : ∀ n d, c.inserts.get? n = some d → d.WF) (hno : NoSends c)
    (l : Dict Name (Step V X)) (hk : ∀ n s, (n, s) ∈ l → ∀ k, s.keywords = some k → k.WF) (v : V) (w : World V X) :
    ∃ outs e w', iterSteps c v l w = (outs, e, c, w') ∧
      Threads (l.map fun p => StepCalls p.2 (insertsAt c p.1)) v w outs e w' := by
  induction l generalizing v w with
  | nil => exact ⟨[], none, w, rfl, .done v w⟩
  | cons p t ih =>
    obtain ⟨n, s⟩ := p
    have hc := callStep_spec hi n (fun _ => hk n s List.mem_cons_self) v w
    rcases hr : callStep c n s v w with ⟨r, w1⟩
    rw [hr] at hc
    cases r with
    | error e =>
      refine ⟨[], some e, w1, ?_, .fail hc⟩
      simp only [iterSteps, doStep, hr]
    | ok v1 =>
      obtain ⟨outs, e, w', h1, h2⟩ := ih (fun n s h => hk n s (List.mem_cons_of_mem _ h)) v1 w1
      refine ⟨v1 :: outs, e, w', ?_, .step hc h2⟩
      simp only [iterSteps, doStep, hr, performSends_none hno, h1]

/-- running a row of steps is running its first part and then, if that succeeds, the rest -/
theorem iterSteps_append (c : Comp V X) (v : V) (l l' : Dict Name (Step V X)) (w : World V X) :
    iterSteps c v (l ++ l') w = match iterSteps c v l w with
      | (outs, none, c1, w1) => (outs ++ (iterSteps c1 (outs.getLast?.getD v) l' w1).1,
          (iterSteps c1 (outs.getLast?.getD v) l' w1).2)
      | (outs, some e, c1, w1) => (outs, some e, c1, w1) := by
  induction l generalizing c v w with
  | nil => simp [iterSteps]
  | cons p t ih =>
    obtain ⟨n, s⟩ := p
    rw [List.cons_append, iterSteps, iterSteps]
    rcases doStep c n s v w with ⟨r, c1, w1⟩
    cases r with
    | error e => rfl
    | ok v1 =>
      simp only
      rw [ih]
      rcases iterSteps c1 v1 t w1 with ⟨outs, e, c2, w2⟩
      cases e with
      | some e => rfl
      | none =>
        simp only [List.cons_append]
        rw [List.getLast?_cons]
        rfl

theorem iterSteps_length {c : Comp V X} {v : V} {l : Dict Name (Step V X)} {w : World V X} {outs : List V} {c' : Comp V X}
    {w' : World V X} (h : iterSteps c v l w = (outs, none, c', w')) : outs.length = l.length := by
  induction l generalizing c v w outs with
  | nil => simp [iterSteps] at h; simp [h.1]
  | cons p t ih =>
    obtain ⟨n, s⟩ := p
    rw [iterSteps] at h
    rcases hd : doStep c n s v w with ⟨r, c1, w1⟩
    rw [hd] at h
    cases r with
    | error e => simp at h
    | ok v1 =>
      simp only at h
      rcases ht : iterSteps c1 v1 t w1 with ⟨outs1, e1, c2, w2⟩
      rw [ht] at h
      simp only [Prod.mk.injEq] at h
      obtain ⟨rfl, rfl, rfl, rfl⟩ := h
      simp [ih ht]

/-- a row of steps that fails: the steps before the failing one succeed, the failing one fails, that is all -/
theorem iterSteps_fail {c : Comp V X} {v : V} {l : Dict Name (Step V X)} {w : World V X} {outs : List V} {e : PyErr}
    {c' : Comp V X} {w' : World V X} (h : iterSteps c v l w = (outs, some e, c', w')) :
    ∃ n s c1 w1, l[outs.length]? = some (n, s) ∧
      iterSteps c v (l.take outs.length) w = (outs, none, c1, w1) ∧
      doStep c1 n s (outs.getLast?.getD v) w1 = (.error e, c', w') := by
  induction l generalizing c v w outs with
  | nil => simp [iterSteps] at h
  | cons p t ih =>
    obtain ⟨n, s⟩ := p
    rw [iterSteps] at h
    rcases hd : doStep c n s v w with ⟨r, c1, w1⟩
    rw [hd] at h
    cases r with
    | error e1 =>
      simp only [Prod.mk.injEq, Option.some.injEq] at h
      obtain ⟨rfl, rfl, rfl, rfl⟩ := h
      exact ⟨n, s, c, w, by simp, by simp [iterSteps], by simpa using hd⟩
    | ok v1 =>
      simp only at h
      rcases ht : iterSteps c1 v1 t w1 with ⟨outs1, e1, c2, w2⟩
      rw [ht] at h
      simp only [Prod.mk.injEq] at h
      obtain ⟨rfl, rfl, rfl, rfl⟩ := h
      obtain ⟨n', s', c3, w3, h1, h2, h3⟩ := ih ht
      refine ⟨n', s', c3, w3, by simpa using h1, ?_, ?_⟩
      · simp [iterSteps, hd, h2]
      · rw [List.getLast?_cons]; exact h3

/-! ## Runs change the inserts only -/

/-- the same steps, sends, tracker, `optional`, captures -/
structure SameBut (c c' : Comp V X) : Prop where
  steps : c'.steps = c.steps
  sends : c'.sends = c.sends
  tracker : c'.tracker = c.tracker
  optional : c'.optional = c.optional
  captures : c'.captures = c.captures

theorem SameBut.refl (c : Comp V X) : SameBut c c := ⟨rfl, rfl, rfl, rfl, rfl⟩

theorem SameBut.trans {a b c : Comp V X} (h : SameBut a b) (h' : SameBut b c) : SameBut a c :=
  ⟨h'.steps.trans h.steps, h'.sends.trans h.sends, h'.tracker.trans h.tracker, h'.optional.trans h.optional,
    h'.captures.trans h.captures⟩

theorem placeInto_same (c : Comp V X) (v : V) (t : Target V X) (p : Name) (w : World V X) :
    SameBut c (placeInto c v t p w).2.1 := by
  cases t with
  | stepInt n => exact ⟨rfl, rfl, rfl, rfl, rfl⟩
  | stepStr n => exact ⟨rfl, rfl, rfl, rfl, rfl⟩
  | list id =>
    cases p with
    | none => exact SameBut.refl c
    | _ =>
      simp only [placeInto]
      split <;> exact SameBut.refl c
  | _ => exact SameBut.refl c

theorem performSend_same (c : Comp V X) (v : V) (sd : Send V X) (w : World V X) : SameBut c (performSend c v sd w).2.1 := by
  obtain ⟨p, t, ptr⟩ := sd
  cases t with
  | none =>
    cases p with
    | none => exact SameBut.refl c
    | some p =>
      simp only [performSend]
      rcases p v w with ⟨r, w'⟩
      cases r <;> exact SameBut.refl c
  | some t =>
    cases p with
    | none => exact placeInto_same ..
    | some p =>
      simp only [performSend]
      rcases p v w with ⟨r, w'⟩
      cases r with
      | ok y => exact placeInto_same ..
      | error e => exact SameBut.refl c

theorem performSendList_same (c : Comp V X) (v : V) (l : List (Send V X)) (w : World V X) :
    SameBut c (performSendList c v l w).2.1 := by
  induction l generalizing c w with
  | nil => exact SameBut.refl c
  | cons sd t ih =>
    rw [performSendList]
    have h := performSend_same c v sd w
    rcases hd : performSend c v sd w with ⟨r, c1, w1⟩
    rw [hd] at h
    cases r with
    | ok u => exact h.trans (ih c1 w1)
    | error e => exact h

theorem doStep_same (c : Comp V X) (n : Name) (s : Step V X) (v : V) (w : World V X) : SameBut c (doStep c n s v w).2.1 := by
  rw [doStep]
  rcases callStep c n s v w with ⟨r, w1⟩
  cases r with
  | error e => exact SameBut.refl c
  | ok v1 =>
    have h := performSendList_same c v1 ((c.sends.get? n).getD []) w1
    simp only [performSends]
    rcases hd : performSendList c v1 ((c.sends.get? n).getD []) w1 with ⟨r, c2, w2⟩
    rw [hd] at h
    cases r <;> exact h

theorem iterSteps_same (c : Comp V X) (v : V) (l : Dict Name (Step V X)) (w : World V X) :
    SameBut c (iterSteps c v l w).2.2.1 := by
  induction l generalizing c v w with
  | nil => exact SameBut.refl c
  | cons p t ih =>
    obtain ⟨n, s⟩ := p
    rw [iterSteps]
    have h := doStep_same c n s v w
    rcases hd : doStep c n s v w with ⟨r, c1, w1⟩
    rw [hd] at h
    cases r with
    | error e => exact h
    | ok v1 => exact h.trans (ih c1 v1 w1)

theorem execute_comp [PyNone V] (c : Comp V X) (v : V) (w : World V X) :
    (execute c v w).2.1 = (itercall c v w).2.2.1 := by
  rw [execute]
  rcases itercall c v w with ⟨outs, e, c', w'⟩
  cases e with
  | none => rfl
  | some e =>
    simp only
    by_cases h : (fromGenerator e).isException = true
    · rw [if_pos h]
      cases c.tracker with
      | none => rfl
      | some t =>
        cases c.steps[outs.length]? with
        | none => rfl
        | some p =>
          simp only
          rcases t { target := p.2.ident, failure := some (fromGenerator e) } w' with ⟨r, w''⟩
          cases r <;> rfl
    · rw [if_neg h]

theorem execute_same [PyNone V] (c : Comp V X) (v : V) (w : World V X) : SameBut c (execute c v w).2.1 := by
  rw [execute_comp]; exact iterSteps_same ..

end Verif.Lemmas
