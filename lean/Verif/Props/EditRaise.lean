import Verif.Props.DigRaise
/-!
# C155: `dig_and_edit` with functions that raise
-/
set_option linter.unusedSectionVars false
namespace Verif.Props
open Verif Verif.Model Verif.Spec
variable {A : Type} [DecidableEq A]

theorem forall₂_at {α β : Type} {R : α → β → Prop} {l : List α} {l' : List β} (h : List.Forall₂ R l l') :
    ∀ (i : Nat) x y, l[i]? = some x → l'[i]? = some y → R x y := by
  induction h with
  | nil => intro i x y hx; simp at hx
  | cons hxy _ ih =>
    intro i x y hx hy
    cases i with
    | zero => simp at hx hy; subst hx hy; exact hxy
    | succ i => exact ih i x y (by simpa using hx) (by simpa using hy)

theorem matchesX_mem {f : A → Val A → Except PyErr Bool} {l ms : List (A × Val A)} (h : matchesX f l = .ok ms) :
    ∀ x ∈ ms, x ∈ l ∧ f x.1 x.2 = .ok true := by
  induction l generalizing ms with
  | nil => cases h; simp
  | cons y l ih =>
    obtain ⟨k, v⟩ := y
    simp only [matchesX] at h
    cases hf : f k v with
    | error e =>
      rw [hf] at h
      cases e <;> cases h
      simp
    | ok b =>
      rw [hf] at h
      cases hm : matchesX f l with
      | error e => rw [hm] at h; cases h
      | ok ms' =>
        rw [hm] at h
        cases h
        intro x hx
        cases b with
        | true =>
          rcases List.mem_cons.1 hx with rfl | hx
          · exact ⟨by simp, hf⟩
          · have := ih hm x hx; exact ⟨by simp [this.1], this.2⟩
        | false => have := ih hm x hx; exact ⟨by simp [this.1], this.2⟩

theorem setAllX_skip (s : A → Val A → Except PyErr (Val A)) (k : A) (v : Val A) (ms : List (A × Val A))
    (hk : ∀ x ∈ ms, x.1 ≠ k) : ∀ r : List (A × Val A),
    setAllX s ((k, v) :: r) ms = ((k, v) :: (setAllX s r ms).1, (setAllX s r ms).2) := by
  induction ms with
  | nil => intro r; rfl
  | cons x ms ih =>
    obtain ⟨k', v'⟩ := x
    intro r
    simp only [setAllX]
    cases s k' v' with
    | error e => rfl
    | ok w =>
      have hne : k ≠ k' := fun h => hk (k', v') (by simp) h.symm
      have : Dict.set ((k, v) :: r) k' w = (k, v) :: Dict.set r k' w := by simp [Dict.set, hne]
      simp only [this]
      exact ih (fun x hx => hk x (by simp [hx])) _

/-- one pair before and after the assignments of a level -/
def SetPair (f : A → Val A → Except PyErr Bool) (s : A → Val A → Except PyErr (Val A)) (x y : A × Val A) : Prop :=
  y.1 = x.1 ∧ (y.2 = x.2 ∨ (f x.1 x.2 = .ok true ∧ s x.1 x.2 = .ok y.2))

/-- the same, if no exception was raised -/
def SetWhole (f : A → Val A → Except PyErr Bool) (s : A → Val A → Except PyErr (Val A)) (x y : A × Val A) : Prop :=
  y.1 = x.1 ∧ ((f x.1 x.2 = .ok false ∧ y.2 = x.2) ∨ (f x.1 x.2 = .ok true ∧ s x.1 x.2 = .ok y.2))

theorem forall₂_setPair_refl (f : A → Val A → Except PyErr Bool) (s : A → Val A → Except PyErr (Val A)) (l : List (A × Val A)) :
    List.Forall₂ (SetPair f s) l l := by
  induction l with
  | nil => exact .nil
  | cons x l ih => exact .cons ⟨rfl, .inl rfl⟩ ih

theorem setAllX_spec {f : A → Val A → Except PyErr Bool} {s : A → Val A → Except PyErr (Val A)} {l ms : List (A × Val A)}
    (hl : Dict.WF l) (h : matchesX f l = .ok ms) :
    List.Forall₂ (SetPair f s) l (setAllX s l ms).1 ∧
    (∀ e, (setAllX s l ms).2 = some e → ∃ k v, s k v = .error e) ∧
    ((setAllX s l ms).2 = none → (∀ x ∈ l, f x.1 x.2 ≠ .error .stopIteration) →
      List.Forall₂ (SetWhole f s) l (setAllX s l ms).1) := by
  induction l generalizing ms with
  | nil => cases h; exact ⟨.nil, fun e h => (nomatch h), fun _ _ => .nil⟩
  | cons y l ih =>
    obtain ⟨k, v⟩ := y
    have hkl : k ∉ Dict.keys l := (List.nodup_cons.1 hl).1
    have hl' : Dict.WF l := (List.nodup_cons.1 hl).2
    simp only [matchesX] at h
    cases hf : f k v with
    | error e =>
      rw [hf] at h
      cases e <;> cases h
      exact ⟨forall₂_setPair_refl f s _, fun e h => (nomatch h), fun _ hs => absurd hf (hs (k, v) (by simp))⟩
    | ok b =>
      rw [hf] at h
      cases hm : matchesX f l with
      | error e => rw [hm] at h; cases h
      | ok ms' =>
        rw [hm] at h
        cases h
        have hk : ∀ x ∈ ms', x.1 ≠ k := by
          rintro ⟨k', v'⟩ hx rfl
          exact hkl (List.mem_map.2 ⟨_, (matchesX_mem hm _ hx).1, rfl⟩)
        obtain ⟨h1, h2, h3⟩ := ih hl' hm
        cases b with
        | false =>
          simp only [Bool.false_eq_true, if_false, setAllX_skip s k v ms' hk]
          exact ⟨.cons ⟨rfl, .inl rfl⟩ h1, h2, fun hn hs => .cons ⟨rfl, .inl ⟨hf, rfl⟩⟩
            (h3 hn fun x hx => hs x (by simp [hx]))⟩
        | true =>
          simp only [if_true, setAllX]
          cases hsv : s k v with
          | error e => exact ⟨forall₂_setPair_refl f s _, fun e' h => by cases h; exact ⟨k, v, hsv⟩, fun h => (nomatch h)⟩
          | ok w =>
            have hset : Dict.set ((k, v) :: l) k w = (k, w) :: l := by simp [Dict.set]
            simp only [hset, setAllX_skip s k w ms' hk]
            exact ⟨.cons ⟨rfl, .inr ⟨hf, hsv⟩⟩ h1, h2, fun hn hs => .cons ⟨rfl, .inr ⟨hf, hsv⟩⟩
              (h3 hn fun x hx => hs x (by simp [hx]))⟩

theorem nestsX_spec (mt : Tag → Bool) (dig : Val A → Option (Val A × Option PyErr)) (P : Val A → Val A → Prop)
    (Q : Val A → Val A → Prop) (E : PyErr → Prop) (hrefl : ∀ v, P v v)
    {l : List (A × Val A)} (hdig : ∀ x ∈ l, ∀ r, x.2.isA mt = true → dig x.2 = some r → P x.2 r.1 ∧ (∀ e, r.2 = some e → E e) ∧
      (r.2 = none → Q x.2 r.1)) {r : List (A × Val A) × Option PyErr} (h : nestsX mt dig l = some r) :
    List.Forall₂ (fun x y => y.1 = x.1 ∧ P x.2 y.2 ∧ (x.2.isA mt = false → y = x)) l r.1 ∧ (∀ e, r.2 = some e → E e) ∧
    (r.2 = none → List.Forall₂ (fun x y => x.2.isA mt = true → Q x.2 y.2) l r.1) := by
  induction l generalizing r with
  | nil => cases h; exact ⟨.nil, fun e h => (nomatch h), fun _ => .nil⟩
  | cons x l ih =>
    obtain ⟨k, v⟩ := x
    have hrest : ∀ l : List (A × Val A), List.Forall₂ (fun x y => y.1 = x.1 ∧ P x.2 y.2 ∧ (x.2.isA mt = false → y = x)) l l := by
      intro l
      induction l with
      | nil => exact .nil
      | cons y l ih => exact .cons ⟨rfl, hrefl _, fun _ => rfl⟩ ih
    simp only [nestsX] at h
    by_cases hv : v.isA mt = true
    · rw [if_pos hv] at h
      cases hd : dig v with
      | none => rw [hd] at h; cases h
      | some o =>
        obtain ⟨w, oe⟩ := o
        obtain ⟨d1, d2, d3⟩ := hdig (k, v) (by simp) _ hv hd
        rw [hd] at h
        cases oe with
        | some e =>
          cases h
          exact ⟨.cons ⟨rfl, d1, fun hf => by rw [hv] at hf; cases hf⟩ (hrest l), fun e' he => by cases he; exact d2 e rfl,
            fun hn => (nomatch hn)⟩
        | none =>
          simp only [Option.map_eq_some_iff] at h
          obtain ⟨r', hr', rfl⟩ := h
          obtain ⟨i1, i2, i3⟩ := ih (fun x hx => hdig x (by simp [hx])) hr'
          exact ⟨.cons ⟨rfl, d1, fun hf => by rw [hv] at hf; cases hf⟩ i1, i2, fun hn => .cons (fun _ => d3 rfl) (i3 hn)⟩
    · rw [if_neg hv] at h
      simp only [Option.map_eq_some_iff] at h
      obtain ⟨r', hr', rfl⟩ := h
      obtain ⟨i1, i2, i3⟩ := ih (fun x hx => hdig x (by simp [hx])) hr'
      exact ⟨.cons ⟨rfl, hrefl _, fun _ => rfl⟩ i1, i2, fun hn => .cons (fun hf => absurd hf hv) (i3 hn)⟩

theorem digEditX_spec (f : A → Val A → Except PyErr Bool) (s : A → Val A → Except PyErr (Val A)) (mt : Tag → Bool)
    (hwf : ∀ k v w, v.WF → s k v = .ok w → w.WF) (n : Nat) : ∀ (v : Val A) (r : Val A × Option PyErr), v.isMapping = true → v.WF →
    digEditX f s mt n v = some r →
    PartEdit f s v r.1 ∧
    (∀ e, r.2 = some e → ∃ k w, (f k w = .error e ∧ e ≠ .stopIteration) ∨ s k w = .error e) ∧
    (r.2 = none → (∀ k w, f k w ≠ .error .stopIteration) → WholeEdit f s mt v r.1) := by
  induction n with
  | zero => intro v r _ _ h; cases h
  | succ n ih =>
    intro v r hm hv h
    cases v with
    | atom a => cases hm
    | map t l =>
      simp only [digEditX] at h
      cases hms : matchesX f l with
      | error e =>
        rw [hms] at h
        cases h
        refine ⟨.same _, fun e' he => ?_, fun hn => (nomatch hn)⟩
        cases he
        clear hv hm
        induction l with
        | nil => cases hms
        | cons x l ihl =>
          obtain ⟨k, w⟩ := x
          simp only [matchesX] at hms
          cases hf : f k w with
          | error e'' =>
            rw [hf] at hms
            refine ⟨k, w, .inl ?_⟩
            cases e'' <;> cases hms <;> exact ⟨hf, fun h => (nomatch h)⟩
          | ok b =>
            rw [hf] at hms
            cases hl : matchesX f l with
            | error e'' => rw [hl] at hms; cases hms; exact ihl hl
            | ok ms => rw [hl] at hms; cases hms
      | ok ms =>
        simp only [hms] at h
        obtain ⟨s1, s2, s3⟩ := setAllX_spec (s := s) hv.1 hms
        have hvals := Val.wfItems_iff.1 hv.2
        revert h s1 s2 s3
        generalize setAllX s l ms = st
        obtain ⟨l', oe⟩ := st
        intro h s1 s2 s3
        have hlen : l'.length = l.length := s1.length_eq.symm
        cases oe with
        | some e =>
          cases h
          refine ⟨.map t l l' (l'.map Prod.snd) (by simpa using hlen) hlen (fun i x y hx hy => (forall₂_at s1 i x y hx hy).1)
            (fun i x z hx hz => ?_) (fun i z y hz hy => ?_), fun e' he => ?_, fun hn => (nomatch hn)⟩
          · rw [List.getElem?_map, Option.map_eq_some_iff] at hz
            obtain ⟨y, hy, rfl⟩ := hz
            exact (forall₂_at s1 i x y hx hy).2
          · rw [List.getElem?_map, hy, Option.map_some, Option.some.injEq] at hz
            subst hz
            exact .same _
          · cases he
            obtain ⟨k, w, hk⟩ := s2 e rfl
            exact ⟨k, w, .inr hk⟩
        | none =>
          simp only [Option.map_eq_some_iff] at h
          obtain ⟨r', hr', rfl⟩ := h
          have hmid : ∀ y ∈ l', y.2.WF := by
            intro y hy
            obtain ⟨i, hi⟩ := List.mem_iff_getElem?.1 hy
            have hli : i < l.length := by
              rw [← hlen]; exact (List.getElem?_eq_some_iff.1 hi).1
            have hxi : l[i]? = some l[i] := List.getElem?_eq_getElem hli
            rcases (forall₂_at s1 i _ y hxi hi).2 with he | ⟨_, he⟩
            · rw [he]; exact hvals _ _ (List.mem_of_getElem? hxi)
            · exact hwf _ _ _ (hvals _ _ (List.mem_of_getElem? hxi)) he
          obtain ⟨n1, n2, n3⟩ := nestsX_spec mt (digEditX f s mt n) (PartEdit f s)
            (fun a b => (∀ k w, f k w ≠ .error .stopIteration) → WholeEdit f s mt a b)
            (fun e => ∃ k w, (f k w = .error e ∧ e ≠ .stopIteration) ∨ s k w = .error e) PartEdit.same
            (l := l') (fun x hx r hxa hr => ih x.2 r (by cases hx2 : x.2 <;> simp_all) (hmid x hx) hr) hr'
          have hlen2 : r'.1.length = l'.length := n1.length_eq.symm
          have hkey : ∀ (i : Nat) x y, l[i]? = some x → r'.1[i]? = some y → y.1 = x.1 := by
            intro i x y hx hy
            have hli : i < l'.length := by rw [← hlen2]; exact (List.getElem?_eq_some_iff.1 hy).1
            have hz : l'[i]? = some l'[i] := List.getElem?_eq_getElem hli
            rw [(forall₂_at n1 i _ y hz hy).1, (forall₂_at s1 i x _ hx hz).1]
          refine ⟨.map t l r'.1 (l'.map Prod.snd) (by simpa using hlen) (hlen2.trans hlen) hkey
            (fun i x z hx hz => ?_) (fun i z y hz hy => ?_), n2, fun hn hs => .map t l r'.1 (l'.map Prod.snd) (by simpa using hlen)
              (hlen2.trans hlen) hkey (fun i x z hx hz => ?_) (fun i z y hz hy hza => ?_) (fun i z y hz hy hza => ?_)⟩
          · rw [List.getElem?_map, Option.map_eq_some_iff] at hz
            obtain ⟨y, hy, rfl⟩ := hz
            exact (forall₂_at s1 i x y hx hy).2
          · rw [List.getElem?_map, Option.map_eq_some_iff] at hz
            obtain ⟨x, hx, rfl⟩ := hz
            exact (forall₂_at n1 i x y hx hy).2.1
          · rw [List.getElem?_map, Option.map_eq_some_iff] at hz
            obtain ⟨y, hy, rfl⟩ := hz
            exact (forall₂_at (s3 rfl fun x _ => hs x.1 x.2) i x y hx hy).2
          · rw [List.getElem?_map, Option.map_eq_some_iff] at hz
            obtain ⟨x, hx, rfl⟩ := hz
            rw [(forall₂_at n1 i x y hx hy).2.2 hza]
          · rw [List.getElem?_map, Option.map_eq_some_iff] at hz
            obtain ⟨x, hx, rfl⟩ := hz
            exact forall₂_at (n3 hn) i x y hx hy hza hs

/-- **C155** (partial). Whatever the filter and the setter raise: `dig_and_edit` adds, removes and reorders no keys, and each
value is afterwards what it was, or what the setter has made of it where the filter held, perhaps with parts of that edited;
what is raised was raised by the setter, or by the filter and is not `StopIteration`; and if nothing is raised, and the filter
raises no `StopIteration`, every pair has been edited for which the filter holds, at all levels. -/
theorem C155_edit_partial (f : A → Val A → Except PyErr Bool) (s : A → Val A → Except PyErr (Val A)) (mt : Tag → Bool)
    (hwf : ∀ k v w, v.WF → s k v = .ok w → w.WF) (n : Nat) (t : Tag) (l : List (A × Val A)) (hl : (Val.map t l).WF)
    (v' : Val A) (o : Option PyErr) (h : digEditX f s mt n (.map t l) = some (v', o)) :
    PartEdit f s (.map t l) v' ∧
    (∀ e, o = some e → ∃ k w, (f k w = .error e ∧ e ≠ .stopIteration) ∨ s k w = .error e) ∧
    (o = none → (∀ k w, f k w ≠ .error .stopIteration) → WholeEdit f s mt (.map t l) v') :=
  digEditX_spec f s mt hwf n _ _ rfl hl h

theorem matchesX_raise (f : A → Val A → Except PyErr Bool) (xs ys : List (A × Val A)) (x : A × Val A)
    (h : ∀ y ∈ xs, Returns f y) {e : PyErr} (hx : f x.1 x.2 = .error e) :
    matchesX f (xs ++ x :: ys) = if e = .stopIteration then .ok (hits f xs) else .error e := by
  induction xs with
  | nil => simp only [List.nil_append, matchesX, hx]; cases e <;> rfl
  | cons y xs ih =>
    obtain ⟨k, v⟩ := y
    obtain ⟨b, hb⟩ := h (k, v) (by simp)
    simp only at hb
    simp only [List.cons_append, matchesX, hb, ih fun y hy => h y (by simp [hy])]
    split
    · rename_i hm; split at hm <;> cases hm
      rename_i he; rw [if_neg he]
    · rename_i hm
      split at hm <;> cases hm
      rename_i he
      rw [if_pos he]
      simp only [hits, List.filter_cons, hb]

/-- **C155**. If the filter raises for a pair of the mapping itself, and not `StopIteration`, nothing has been edited. -/
theorem C155_filter_raises (f : A → Val A → Except PyErr Bool) (s : A → Val A → Except PyErr (Val A)) (mt : Tag → Bool)
    (n : Nat) (t : Tag) (xs ys : List (A × Val A)) (x : A × Val A) (h : ∀ y ∈ xs, Returns f y) (e : PyErr)
    (hx : f x.1 x.2 = .error e) (he : e ≠ .stopIteration) :
    digEditX f s mt (n + 1) (.map t (xs ++ x :: ys)) = some (.map t (xs ++ x :: ys), some e) := by
  simp only [digEditX, matchesX_raise f xs ys x h hx, if_neg he]

/-- assignments to keys of the first part of a mapping -/
theorem setAllX_append (s : A → Val A → Except PyErr (Val A)) (ys : List (A × Val A)) (ms : List (A × Val A)) :
    ∀ xs : List (A × Val A), (∀ x ∈ ms, x.1 ∈ Dict.keys xs) →
      ∃ xs', xs'.length = xs.length ∧ setAllX s (xs ++ ys) ms = (xs' ++ ys, (setAllX s xs ms).2) := by
  induction ms with
  | nil => intro xs _; exact ⟨xs, rfl, rfl⟩
  | cons x ms ih =>
    obtain ⟨k, v⟩ := x
    intro xs hk
    simp only [setAllX]
    cases s k v with
    | error e => exact ⟨xs, rfl, rfl⟩
    | ok w =>
      have hset : ∀ xs : List (A × Val A), k ∈ Dict.keys xs → Dict.set (xs ++ ys) k w = Dict.set xs k w ++ ys := by
        intro xs hk
        induction xs with
        | nil => simp at hk
        | cons y xs ihx =>
          obtain ⟨k', v'⟩ := y
          by_cases hkk : k' = k
          · simp [Dict.set, hkk]
          · have : k ∈ Dict.keys xs := by
              rcases List.mem_cons.1 hk with h | h
              · exact absurd h.symm hkk
              · exact h
            simp only [List.cons_append, Dict.set, hkk, if_false, ihx this]
      have hin := hk (k, v) (by simp)
      simp only [hset xs hin]
      obtain ⟨xs', hl, he⟩ := ih (Dict.set xs k w) fun x hx => by
        rw [Dict.set_of_mem k w hin]; exact hk x (by simp [hx])
      refine ⟨xs', ?_, he⟩
      have := congrArg List.length (Dict.set_of_mem k w hin)
      simp only [Dict.keys, List.length_map] at this
      omega

/-- **C155** (`StopIteration`). If the filter raises `StopIteration` for a pair, this pair and all pairs after it in the same
mapping keep their values, unless these are mappings and are edited inside; the exception is not raised for that. -/
theorem C155_stop_iteration (f : A → Val A → Except PyErr Bool) (s : A → Val A → Except PyErr (Val A)) (mt : Tag → Bool)
    (n : Nat) (t : Tag) (xs ys : List (A × Val A)) (x : A × Val A) (h : ∀ y ∈ xs, Returns f y)
    (hx : f x.1 x.2 = .error .stopIteration) (v' : Val A) (o : Option PyErr)
    (hr : digEditX f s mt (n + 1) (.map t (xs ++ x :: ys)) = some (v', o)) :
    (∀ (i : Nat) y, (x :: ys)[i]? = some y → y.2.isA mt = false → v'.items[xs.length + i]? = some y) ∧
    ((∀ k v, s k v ≠ .error .stopIteration) → (∀ k v w, s k v = .ok w → w.isA mt = false) →
      (∀ y ∈ xs ++ x :: ys, y.2.isA mt = false) → o ≠ some .stopIteration) := by
  simp only [digEditX, matchesX_raise f xs ys x h hx, if_true] at hr
  have hk : ∀ y ∈ hits f xs, y.1 ∈ Dict.keys xs := fun y hy => List.mem_map.2 ⟨y, (List.mem_filter.1 hy).1, rfl⟩
  obtain ⟨xs', hl, he⟩ := setAllX_append s (x :: ys) (hits f xs) xs hk
  have herr : ∀ (ms l : List (A × Val A)) e, (setAllX s l ms).2 = some e → ∃ k v, s k v = .error e := by
    intro ms
    induction ms with
    | nil => intro l e h; cases h
    | cons y ms ih =>
      obtain ⟨k, v⟩ := y
      intro l e h
      simp only [setAllX] at h
      cases hs : s k v with
      | error e' => rw [hs] at h; cases h; exact ⟨k, v, hs⟩
      | ok w => rw [hs] at h; exact ih _ e h
  have hval : ∀ (ms l : List (A × Val A)), (∀ k v w, s k v = .ok w → w.isA mt = false) → (∀ y ∈ l, y.2.isA mt = false) →
      ∀ y ∈ (setAllX s l ms).1, y.2.isA mt = false := by
    intro ms
    induction ms with
    | nil => intro l _ h; exact h
    | cons y ms ih =>
      obtain ⟨k, v⟩ := y
      intro l hs h
      simp only [setAllX]
      cases hsv : s k v with
      | error e' => exact h
      | ok w =>
        refine ih _ hs ?_
        clear ih he hr
        induction l with
        | nil => simp [Dict.set]; exact hs k v w hsv
        | cons z l ihl =>
          obtain ⟨k', v'⟩ := z
          by_cases hkk : k' = k
          · simp only [Dict.set, hkk, if_true]
            intro y hy
            rcases List.mem_cons.1 hy with rfl | hy
            · exact hs k v w hsv
            · exact h y (by simp [hy])
          · simp only [Dict.set, hkk, if_false]
            intro y hy
            rcases List.mem_cons.1 hy with rfl | hy
            · exact h _ (by simp)
            · exact ihl (fun y hy => h y (by simp [hy])) y hy
  have h1 := herr (hits f xs) (xs ++ x :: ys)
  have h2 := hval (hits f xs) (xs ++ x :: ys)
  rw [he] at hr h1 h2
  cases ho : (setAllX s xs (hits f xs)).2 with
  | some e =>
    rw [ho] at hr h1
    cases hr
    refine ⟨fun i y hy _ => ?_, fun hs _ _ hst => ?_⟩
    · simp only [Val.items_map]
      rw [List.getElem?_append_right (by omega), hl, Nat.add_sub_cancel_left]
      exact hy
    · cases hst
      obtain ⟨k, v, hkv⟩ := h1 _ rfl
      exact hs k v hkv
  | none =>
    rw [ho] at hr
    simp only [Option.map_eq_some_iff] at hr
    obtain ⟨r', hr', hrr⟩ := hr
    cases hrr
    refine ⟨fun i y hy hya => ?_, fun _ hs hxs hst => ?_⟩
    · obtain ⟨n1, -, -⟩ := nestsX_spec mt (digEditX f s mt n) (fun _ _ => True) (fun _ _ => True) (fun _ => True)
        (fun _ => trivial) (fun _ _ _ _ _ => ⟨trivial, fun _ _ => trivial, fun _ => trivial⟩) hr'
      have hyi : (xs' ++ x :: ys)[xs.length + i]? = some y := by
        rw [List.getElem?_append_right (by omega), hl, Nat.add_sub_cancel_left]
        exact hy
      have hlt : xs.length + i < r'.1.length := by
        rw [← n1.length_eq]; exact (List.getElem?_eq_some_iff.1 hyi).1
      have hz : r'.1[xs.length + i]? = some r'.1[xs.length + i] := List.getElem?_eq_getElem hlt
      simp only [Val.items_map]
      rw [hz, (forall₂_at n1 _ y _ hyi hz).2.2 hya]
    · have hflat := h2 hs hxs
      have : ∀ (l : List (A × Val A)), (∀ y ∈ l, y.2.isA mt = false) → nestsX mt (digEditX f s mt n) l = some (l, none) := by
        intro l
        induction l with
        | nil => intro _; rfl
        | cons y l ih =>
          obtain ⟨k, v⟩ := y
          intro h
          have hv : v.isA mt = false := h (k, v) (by simp)
          simp [nestsX, hv, ih fun y hy => h y (by simp [hy])]
      rw [this _ hflat] at hr'
      cases hr'
      cases hst

/-- **C155**: with functions that never raise, this is the `dig_and_edit` of C09. -/
theorem C155_no_exceptions (f : A → Val A → Bool) (s : A → Val A → Val A) (mt : Tag → Bool)
    (hwf : ∀ k v, v.WF → (s k v).WF) (n : Nat) : ∀ (v : Val A), v.isMapping = true → v.WF →
    digEditX (fun k v => .ok (f k v)) (fun k v => .ok (s k v)) mt n v = (digAndEdit f s mt n v).map fun w => (w, none) := by
  induction n with
  | zero => intro v _ _; rfl
  | succ n ih =>
    intro v hm hv
    cases v with
    | atom a => cases hm
    | map t l =>
      have hvals := Val.wfItems_iff.1 hv.2
      have hsets : ∀ l : List (A × Val A), Dict.WF l → ∃ ms, matchesX (fun k v => .ok (f k v)) l = .ok ms ∧
          (∀ x ∈ ms, x.1 ∈ Dict.keys l) ∧ setAllX (fun k v => .ok (s k v)) l ms = (l.map (editItem f s), none) := by
        intro l hl
        induction l with
        | nil => exact ⟨[], rfl, by simp, rfl⟩
        | cons x l ihl =>
          obtain ⟨k, w⟩ := x
          have hkl : k ∉ Dict.keys l := (List.nodup_cons.1 hl).1
          obtain ⟨ms, h1, h2, h3⟩ := ihl (List.nodup_cons.1 hl).2
          have hk : ∀ x ∈ ms, x.1 ≠ k := fun x hx he => hkl (he ▸ h2 x hx)
          cases hf : f k w with
          | false =>
            refine ⟨ms, by simp [matchesX, h1, hf], fun x hx => by simp [h2 x hx], ?_⟩
            rw [setAllX_skip _ k w ms hk, h3]
            simp [editItem, hf]
          | true =>
            refine ⟨(k, w) :: ms, by simp [matchesX, h1, hf], fun x hx => ?_, ?_⟩
            · rcases List.mem_cons.1 hx with rfl | hx
              · simp
              · simp [h2 x hx]
            · have hset : Dict.set ((k, w) :: l) k (s k w) = (k, s k w) :: l := by simp [Dict.set]
              simp only [setAllX, hset]
              rw [setAllX_skip _ k (s k w) ms hk, h3]
              simp [editItem, hf]
      obtain ⟨ms, h1, _, h3⟩ := hsets l hv.1
      have hmid : ∀ x ∈ l.map (editItem f s), x.2.WF := by
        intro x hx
        obtain ⟨y, hy, rfl⟩ := List.mem_map.1 hx
        simp only [editItem]
        split
        · exact hwf _ _ (hvals _ _ hy)
        · exact hvals _ _ hy
      simp only [digEditX, h1, h3, digAndEdit]
      revert hmid
      generalize l.map (editItem f s) = l'
      intro hmid
      have hn : nestsX mt (digEditX (fun k v => .ok (f k v)) (fun k v => .ok (s k v)) mt n) l' =
          (l'.mapM fun (kv : A × Val A) => if kv.2.isA mt then (digAndEdit f s mt n kv.2).map (fun w => (kv.1, w)) else some kv).map
            fun w => (w, none) := by
        induction l' with
        | nil => rfl
        | cons x l' ihl =>
          obtain ⟨k, w⟩ := x
          have hi := ihl fun x hx => hmid x (by simp [hx])
          by_cases hw : w.isA mt = true
          · have hmw : w.isMapping = true := by cases w <;> simp_all
            simp only [nestsX, hw, if_true, ih w hmw (hmid (k, w) (by simp)), hi, List.mapM_cons]
            cases digAndEdit f s mt n w with
            | none => rfl
            | some w' =>
              simp only [Option.map_some, bind, Option.bind, pure]
              generalize (List.mapM (m := Option) _ l') = o
              cases o <;> rfl
          · simp only [nestsX, hw, hi, List.mapM_cons]
            simp only [Bool.false_eq_true, if_false, bind, Option.bind, pure]
            generalize (List.mapM (m := Option) _ l') = o
            cases o <;> rfl
      rw [hn]
      simp only [bind, Option.bind, pure]
      generalize (List.mapM (m := Option) _ l') = o
      cases o <;> rfl

/-- doubles numbers; raises for 5 -/
def doubler : Nat → Val Nat → Except PyErr (Val Nat)
  | _, .atom a => if a = 5 then .error .valueError else .ok (.atom (2 * a))
  | _, v => .ok v

/-- numbers; raises for the key 7 -/
def numbersOnly (e : PyErr) : Nat → Val Nat → Except PyErr Bool
  | 7, _ => .error e
  | _, .atom _ => .ok true
  | _, _ => .ok false

/-- **C155** (the full claim, all or nothing, is false). `dig_and_edit({1: 1, 2: {3: 2, 4: 5, 6: 6}, 8: 8}, …)` where the setter
raises for 5: 1, 8 and 2 have been doubled, 6 has not. A filter that raises `ValueError` for the key 7, in a sublevel: what is
above has been edited. A filter that raises `StopIteration` for the key 7: 6, after it, has not been edited, nothing is raised. -/
theorem C155_not_all_or_nothing :
    digEditX (numbersOnly .valueError) doubler Tag.isDict 9
      (.map .dict [(1, .atom 1), (2, .map .dict [(3, .atom 2), (4, .atom 5), (6, .atom 6)]), (8, .atom 8)]) =
      some (.map .dict [(1, .atom 2), (2, .map .dict [(3, .atom 4), (4, .atom 5), (6, .atom 6)]), (8, .atom 16)],
        some .valueError) ∧
    digEditX (numbersOnly .valueError) doubler Tag.isDict 9
      (.map .dict [(1, .atom 1), (2, .map .dict [(3, .atom 2), (7, .atom 0)])]) =
      some (.map .dict [(1, .atom 2), (2, .map .dict [(3, .atom 2), (7, .atom 0)])], some .valueError) ∧
    digEditX (numbersOnly .stopIteration) doubler Tag.isDict 9 (.map .dict [(1, .atom 1), (7, .atom 0), (6, .atom 6)]) =
      some (.map .dict [(1, .atom 2), (7, .atom 0), (6, .atom 6)], none) :=
  ⟨by rfl, by rfl, by rfl⟩

theorem wf_doubler : ∀ k v w, v.WF → doubler k v = .ok w → w.WF := by
  intro k v w hv h
  cases v with
  | atom a =>
    simp only [doubler] at h
    split at h <;> cases h
    trivial
  | map t l => cases h; exact hv

/-- the hypotheses of `C155_edit_partial` are met in the first case above -/
example : PartEdit (numbersOnly .valueError) doubler
    (.map .dict [(1, .atom 1), (2, .map .dict [(3, .atom 2), (4, .atom 5), (6, .atom 6)]), (8, .atom 8)])
    (.map .dict [(1, .atom 2), (2, .map .dict [(3, .atom 4), (4, .atom 5), (6, .atom 6)]), (8, .atom 16)]) :=
  (C155_edit_partial _ _ Tag.isDict wf_doubler 9 .dict _ (by simp [Val.WF, Val.WFItems, Dict.WF, Dict.keys]) _ _
    C155_not_all_or_nothing.1).1

/-- without the 5, nothing is raised and everything is edited -/
example : WholeEdit (numbersOnly .valueError) doubler Tag.isDict
    (.map .dict [(1, .atom 1), (2, .map .dict [(3, .atom 2)])]) (.map .dict [(1, .atom 2), (2, .map .dict [(3, .atom 4)])]) :=
  (C155_edit_partial _ _ Tag.isDict wf_doubler 9 .dict _ (by simp [Val.WF, Val.WFItems, Dict.WF, Dict.keys]) _ none
    (by rfl)).2.2 rfl (by intro k w; unfold numbersOnly; split <;> intro h <;> cases h)

end Verif.Props
