import Verif.Lemmas.PickleSame
/-!
# How deep `save` goes
-/
namespace Verif.Lemmas.Pickle
open Verif Verif.Model Verif.Spec

/-- the objects not yet memoized -/
def todo (h : PHeap) (m : List Nat) : Nat := ((List.range h.length).filter fun a => decide (a ∉ m)).length

theorem todo_le {h : PHeap} {m m' : List Nat} (hm : m ⊆ m') : todo h m' ≤ todo h m := by
  refine List.Sublist.length_le (List.monotone_filter_right _ fun a ha => ?_)
  simp only [decide_eq_true_eq] at ha ⊢
  exact fun h => ha (hm h)

theorem todo_lt {h : PHeap} {m : List Nat} {a : Nat} (ha : a ∉ m) (hl : a < h.length) : todo h (m ++ [a]) < todo h m := by
  unfold todo
  generalize hL : List.range h.length = L
  have haL : a ∈ L := by rw [← hL]; exact List.mem_range.2 hl
  clear hL
  have hsub : ∀ L : List Nat, (L.filter fun x => decide (x ∉ m ++ [a])).length ≤ (L.filter fun x => decide (x ∉ m)).length := by
    intro L
    refine List.Sublist.length_le (List.monotone_filter_right _ fun x hx => ?_)
    simp only [decide_eq_true_eq] at hx ⊢
    exact fun h => hx (List.mem_append_left _ h)
  induction L with
  | nil => cases haL
  | cons x L ih =>
    rcases List.mem_cons.1 haL with rfl | haL
    · have h1 := hsub L
      rw [List.filter_cons_of_neg (by simp), List.filter_cons_of_pos (by simpa using ha), List.length_cons]
      omega
    · have h1 := ih haL
      by_cases hx : x ∉ m ++ [a]
      · rw [List.filter_cons_of_pos (by simpa using hx),
          List.filter_cons_of_pos (by simp at hx ⊢; exact hx.1), List.length_cons, List.length_cons]
        omega
      · rw [List.filter_cons_of_neg (by simpa using hx)]
        refine Nat.lt_of_lt_of_le h1 (List.Sublist.length_le ?_)
        exact List.Sublist.filter _ (List.sublist_cons_self x L)

/-- a reference to an object that exists -/
def RefIn (h : PHeap) : PRef → Prop
  | .obj a => a < h.length
  | _ => True

theorem refs_in {h : PHeap} (hc : Closed h) {a : Nat} {n : PNode} (hn : h[a]? = some n) : ∀ r ∈ PNode.refs n, RefIn h r := by
  intro r hr
  cases r with
  | obj b => exact hc a n hn b hr
  | _ => trivial

theorem saveAll_ok {h : PHeap} {sv : PRef → List Nat → Except PyErr (List PEv × List Nat)} {m0 : List Nat} {xs : List PRef}
    (hs : ∀ r ∈ xs, ∀ m, m0 ⊆ m → ∃ e m', sv r m = .ok (e, m') ∧ m ⊆ m') : ∀ m, m0 ⊆ m →
    ∃ e m', saveAll sv xs m = .ok (e, m') ∧ m ⊆ m' := by
  induction xs with
  | nil => intro m _; exact ⟨[], m, rfl, List.Subset.refl _⟩
  | cons r rs ih =>
    intro m hm
    obtain ⟨e1, m1, h1, h2⟩ := hs r (by simp) m hm
    obtain ⟨e2, m2, h3, h4⟩ := ih (fun r hr => hs r (by simp [hr])) m1 (List.Subset.trans hm h2)
    exact ⟨e1 ++ e2, m2, by simp only [saveAll, h1]; show (saveAll sv rs m1 >>= _) = _; rw [h3]; rfl, List.Subset.trans h2 h4⟩

theorem saveBatches_ok {α : Type} {sv : PRef → List Nat → Except PyErr (List PEv × List Nat)} {refs : α → List PRef} (one many : POp)
    (short : Bool) {m0 : List Nat} {bs : List (List α)}
    (hs : ∀ b ∈ bs, ∀ x ∈ b, ∀ r ∈ refs x, ∀ m, m0 ⊆ m → ∃ e m', sv r m = .ok (e, m') ∧ m ⊆ m') : ∀ m, m0 ⊆ m →
    ∃ e m', saveBatches sv refs one many short bs m = .ok (e, m') ∧ m ⊆ m' := by
  induction bs with
  | nil => intro m _; exact ⟨[], m, rfl, List.Subset.refl _⟩
  | cons b bs ih =>
    intro m hm
    have ih := ih fun b hb => hs b (by simp [hb])
    simp only [saveBatches]
    split
    · exact ih m hm
    · obtain ⟨e1, m1, h1, h2⟩ := saveAll_ok (h := []) (sv := sv) (xs := b.flatMap refs) (m0 := m0) (fun r hr => by
        obtain ⟨x, hx, hr⟩ := List.mem_flatMap.1 hr
        exact hs b (by simp) x hx r hr) m hm
      obtain ⟨e2, m2, h3, h4⟩ := ih m1 (List.Subset.trans hm h2)
      rw [h1]
      show ∃ e m', (saveBatches sv refs one many short bs m1 >>= _) = _ ∧ _
      rw [h3]
      by_cases hc : b.length = 1 ∧ short = true
      · exact ⟨_, m2, if_pos hc, List.Subset.trans h2 h4⟩
      · exact ⟨_, m2, if_neg hc, List.Subset.trans h2 h4⟩

theorem mem_batches {α : Type} : ∀ (f : Nat) (xs : List α), ∀ b ∈ batches f xs, ∀ x ∈ b, x ∈ xs
  | 0, _, b, hb, _, _ => by simp [batches] at hb
  | f + 1, xs, b, hb, x, hx => by
    simp only [batches] at hb
    split at hb
    · simp at hb; exact hb ▸ hx
    · rcases List.mem_cons.1 hb with rfl | hb
      · exact List.mem_of_mem_take hx
      · exact List.mem_of_mem_drop (mem_batches f _ b hb x hx)

/-- deep enough -/
theorem save_deep {h : PHeap} (hc : Closed h) (short : Nat → Bool) {N : Nat} {rank : Nat → Nat} (hN : ∀ a, rank a ≤ N)
    (hpos : ∀ a, IsTuple h a → 0 < rank a)
    (hrank : ∀ a xs, h[a]? = some (.tuple xs) → ∀ b, .obj b ∈ xs → IsTuple h b → rank b < rank a) :
    ∀ n r m, RefIn h r → (∀ a, r = .obj a → IsTuple h a → todo h m * (N + 1) + rank a < n) → todo h m * (N + 1) < n →
    ∃ e m', save short h n r m = .ok (e, m') ∧ m ⊆ m'
  | 0, r, m, _, _, hn => absurd hn (by omega)
  | n + 1, r, m, hr, h1, h2 => by
    have ih := save_deep hc short hN hpos hrank n
    cases r with
    | obj a =>
      simp only [save]
      split
      · exact ⟨_, m, rfl, List.Subset.refl _⟩
      · rename_i ha
        have hl : a < h.length := hr
        rw [List.getElem?_eq_getElem hl]
        have hn := List.getElem?_eq_getElem hl
        -- inside a list or dict there is one object less to do
        have inner : ∀ r, RefIn h r → ∀ m', m ++ [a] ⊆ m' → ∃ e m'', save short h n r m' = .ok (e, m'') ∧ m' ⊆ m'' := by
          intro r hr m' hm'
          have h3 := todo_le (h := h) hm'
          have h4 := todo_lt ha hl
          have h5 : (todo h m' + 1) * (N + 1) ≤ todo h m * (N + 1) := Nat.mul_le_mul_right _ (by omega)
          rw [Nat.add_mul, Nat.one_mul] at h5
          exact ih r m' hr (fun b _ _ => by have := hN b; omega) (by omega)
        cases hnd : h[a] with
        | str s => exact ⟨_, _, rfl, List.subset_append_left _ _⟩
        | bytes s => exact ⟨_, _, rfl, List.subset_append_left _ _⟩
        | list xs =>
          rw [hnd] at hn
          obtain ⟨e, m', q1, q2⟩ := saveBatches_ok (sv := save short h n) (refs := fun x => [x]) .append .appends (short xs.length)
            (m0 := m ++ [a]) (bs := batches (xs.length + 1) xs) (fun b hb x hx r hr => by
              have : r = x := by simpa using hr
              subst this
              exact inner r (refs_in hc hn r (mem_batches _ _ b hb r hx))) (m ++ [a]) (List.Subset.refl _)
          simp only [q1]
          exact ⟨_, m', rfl, List.Subset.trans (List.subset_append_left _ _) q2⟩
        | dict kvs =>
          rw [hnd] at hn
          obtain ⟨e, m', q1, q2⟩ := saveBatches_ok (sv := save short h n) (refs := fun p : PRef × PRef => [p.1, p.2]) .setitem .setitems
            (short kvs.length) (m0 := m ++ [a]) (bs := batches (kvs.length + 1) kvs) (fun b hb x hx r hr =>
              inner r (refs_in hc hn r (List.mem_flatMap.2 ⟨x, mem_batches _ _ b hb x hx, hr⟩))) (m ++ [a]) (List.Subset.refl _)
          simp only [q1]
          exact ⟨_, m', rfl, List.Subset.trans (List.subset_append_left _ _) q2⟩
        | tuple xs =>
          rw [hnd] at hn
          have hra := h1 a rfl ⟨xs, hn⟩
          have hp := hpos a ⟨xs, hn⟩
          obtain ⟨e, m', q1, q2⟩ := saveAll_ok (h := h) (sv := save short h n) (xs := xs) (m0 := m) (fun r hr m' hm' => by
            have h3 := Nat.mul_le_mul_right (N + 1) (todo_le (h := h) hm')
            refine ih r m' (refs_in hc hn r hr) (fun b hb hbt => ?_) (by omega)
            subst hb
            have := hrank a xs hn b hr hbt
            omega) m (List.Subset.refl _)
          simp only [q1]
          show ∃ e1 m1, (if xs.length ≤ 3 then _ else _) = _ ∧ _
          split
          · split
            · exact ⟨_, m', rfl, q2⟩
            · exact ⟨_, _, rfl, List.Subset.trans q2 (List.subset_append_left _ _)⟩
          · split
            · exact ⟨_, m', rfl, q2⟩
            · exact ⟨_, _, rfl, List.Subset.trans q2 (List.subset_append_left _ _)⟩
    | _ => exact ⟨_, m, rfl, List.Subset.refl _⟩

/-! ## what can go wrong -/

theorem saveAll_err {sv : PRef → List Nat → Except PyErr (List PEv × List Nat)} {P : PyErr → Prop} {xs : List PRef}
    (hs : ∀ r ∈ xs, ∀ m e, sv r m = .error e → P e) : ∀ m e, saveAll sv xs m = .error e → P e := by
  induction xs with
  | nil => intro m e h; cases h
  | cons r rs ih =>
    intro m e h
    simp only [saveAll] at h
    cases h1 : sv r m with
    | error e' => rw [h1] at h; cases h; exact hs r (by simp) m e h1
    | ok p =>
      rw [h1] at h
      change (saveAll sv rs p.2 >>= _) = _ at h
      cases h2 : saveAll sv rs p.2 with
      | error e' => rw [h2] at h; cases h; exact ih (fun r hr => hs r (by simp [hr])) _ _ h2
      | ok q => rw [h2] at h; cases h

theorem saveBatches_err {α : Type} {sv : PRef → List Nat → Except PyErr (List PEv × List Nat)} {P : PyErr → Prop} {refs : α → List PRef}
    (one many : POp) (short : Bool) {bs : List (List α)}
    (hs : ∀ b ∈ bs, ∀ x ∈ b, ∀ r ∈ refs x, ∀ m e, sv r m = .error e → P e) :
    ∀ m e, saveBatches sv refs one many short bs m = .error e → P e := by
  induction bs with
  | nil => intro m e h; cases h
  | cons b bs ih =>
    intro m e h
    have ih := ih fun b hb => hs b (by simp [hb])
    simp only [saveBatches] at h
    split at h
    · exact ih m e h
    · cases h1 : saveAll sv (b.flatMap refs) m with
      | error e' =>
        rw [h1] at h; cases h
        exact saveAll_err (fun r hr => by
          obtain ⟨x, hx, hr⟩ := List.mem_flatMap.1 hr
          exact hs b (by simp) x hx r hr) m e h1
      | ok p =>
        rw [h1] at h
        change (saveBatches sv refs one many short bs p.2 >>= _) = _ at h
        cases h2 : saveBatches sv refs one many short bs p.2 with
        | error e' => rw [h2] at h; cases h; exact ih _ _ h2
        | ok q =>
          rw [h2] at h
          change (if _ then _ else _) = _ at h
          split at h <;> cases h

theorem save_err {h : PHeap} (hc : Closed h) (short : Nat → Bool) : ∀ n r m e, RefIn h r → save short h n r m = .error e → e = .runtimeError
  | 0, r, m, e, _, hv => by simp [save] at hv; exact hv.symm
  | n + 1, r, m, e, hr, hv => by
    have ih := save_err hc short n
    cases r with
    | obj a =>
      simp only [save] at hv
      split at hv
      · cases hv
      · have hl : a < h.length := hr
        have hn := List.getElem?_eq_getElem hl
        rw [hn] at hv
        cases hnd : h[a] with
        | str s => rw [hnd] at hv; cases hv
        | bytes s => rw [hnd] at hv; cases hv
        | list xs =>
          rw [hnd] at hv hn
          simp only at hv
          cases h1 : saveBatches (save short h n) (fun x => [x]) .append .appends (short xs.length) (batches (xs.length + 1) xs) (m ++ [a]) with
          | ok p => rw [h1] at hv; cases hv
          | error e' =>
            rw [h1] at hv; cases hv
            refine saveBatches_err (P := (· = .runtimeError)) _ _ _ (fun b hb x hx r hr m e he => ih r m e ?_ he) _ _ h1
            have : r = x := by simpa using hr
            subst this
            exact refs_in hc hn r (mem_batches _ _ b hb r hx)
        | dict kvs =>
          rw [hnd] at hv hn
          simp only at hv
          cases h1 : saveBatches (save short h n) (fun p : PRef × PRef => [p.1, p.2]) .setitem .setitems (short kvs.length)
              (batches (kvs.length + 1) kvs) (m ++ [a]) with
          | ok p => rw [h1] at hv; cases hv
          | error e' =>
            rw [h1] at hv; cases hv
            exact saveBatches_err (P := (· = .runtimeError)) _ _ _ (fun b hb x hx r hr m e he =>
              ih r m e (refs_in hc hn r (List.mem_flatMap.2 ⟨x, mem_batches _ _ b hb x hx, hr⟩)) he) _ _ h1
        | tuple xs =>
          rw [hnd] at hv hn
          simp only at hv
          cases h1 : saveAll (save short h n) xs m with
          | ok p =>
            rw [h1] at hv
            change (if _ then _ else _) = _ at hv
            split at hv <;> split at hv <;> cases hv
          | error e' =>
            rw [h1] at hv; cases hv
            exact saveAll_err (P := (· = .runtimeError)) (fun r hr m e he => ih r m e (refs_in hc hn r hr) he) _ _ h1
    | _ => simp [save] at hv

theorem opBytes_err {o : POp} {e : PyErr} (h : opBytes o = .error e) : e = structError := by
  cases o with
  | int i =>
    simp only [opBytes, intOpBytes] at h
    repeat' split at h
    all_goals cases h
    rfl
  | str s =>
    simp only [opBytes, sizedBytes] at h
    repeat' split at h
    all_goals cases h
    rfl
  | bytes s =>
    simp only [opBytes, sizedBytes] at h
    repeat' split at h
    all_goals cases h
    rfl
  | frame n =>
    simp only [opBytes] at h
    split at h <;> cases h
    rfl
  | get n =>
    simp only [opBytes] at h
    repeat' split at h
    all_goals cases h
    rfl
  | _ => cases h

theorem frameOut_err {cur : Bytes} {e : PyErr} (h : frameOut cur = .error e) : e = structError := by
  unfold frameOut at h
  split at h
  · cases h
  · cases h1 : opBytes (.frame cur.length) with
    | error e' => rw [h1] at h; cases h; exact opBytes_err h1
    | ok y => rw [h1] at h; cases h

theorem framer_err : ∀ (es : List PEv) (cur : Bytes) (e : PyErr), framer es cur = .error e → e = structError
  | [], cur, e, h => frameOut_err h
  | .check :: es, cur, e, h => by
    simp only [framer] at h
    split at h
    · cases h1 : frameOut cur with
      | error e' => rw [h1] at h; cases h; exact frameOut_err h1
      | ok a =>
        rw [h1] at h
        change (framer es [] >>= _) = _ at h
        cases h2 : framer es [] with
        | error e' => rw [h2] at h; cases h; exact framer_err es _ _ h2
        | ok b => rw [h2] at h; cases h
    · exact framer_err es cur e h
  | .op o :: es, cur, e, h => by
    simp only [framer] at h
    cases h0 : opBytes o with
    | error e' => rw [h0] at h; cases h; exact opBytes_err h0
    | ok y =>
      rw [h0] at h
      change (if o.large = true then _ else _) = _ at h
      split at h
      · cases h1 : frameOut cur with
        | error e' => rw [h1] at h; cases h; exact frameOut_err h1
        | ok a =>
          rw [h1] at h
          change (framer es [] >>= _) = _ at h
          cases h2 : framer es [] with
          | error e' => rw [h2] at h; cases h; exact framer_err es _ _ h2
          | ok b => rw [h2] at h; cases h
      · exact framer_err es _ e h

/-! ## lists in lists -/

/-- `[[[...]]]`, with `d` lists around the empty one; the outermost first -/
def nestHeap (d : Nat) : PHeap := (List.range d).map (fun i => .list [.obj (i + 1)]) ++ [.list []]

theorem nestHeap_get {d i : Nat} (h : i < d) : (nestHeap d)[i]? = some (.list [.obj (i + 1)]) := by
  unfold nestHeap
  rw [List.getElem?_append_left (by simpa using h)]
  simp [h]

/-- too deep -/
theorem nest_fails (short : Nat → Bool) (d : Nat) : ∀ n i m, i + n ≤ d → (∀ j, i ≤ j → j ∉ m) →
    save short (nestHeap d) n (.obj i) m = .error .runtimeError
  | 0, i, m, _, _ => by simp [save]
  | n + 1, i, m, hi, hm => by
    simp only [save]
    rw [if_neg (hm i (Nat.le_refl _)), nestHeap_get (by omega)]
    have ih := nest_fails short d n (i + 1) (m ++ [i]) (by omega) (fun j hj => by
      simp only [List.mem_append, List.mem_singleton, not_or]
      exact ⟨hm j (by omega), by omega⟩)
    simp only [List.length_singleton]
    have : batches (1 + 1) [PRef.obj (i + 1)] = [[.obj (i + 1)]] := rfl
    rw [this]
    simp only [saveBatches, List.length_singleton, Nat.one_ne_zero, if_false, List.flatMap_cons, List.flatMap_nil, List.append_nil, saveAll, ih]
    rfl

end Verif.Lemmas.Pickle
