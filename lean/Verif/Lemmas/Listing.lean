import Verif.Lemmas.GridClientRun
import Verif.Spec.ListClients
/-!
# Listing the keys of an index while others add

`Tidy`: the length and the key blocks are those of an index of which at most the last key is still being added. `Grow`: what
every step of a process that adds keys does to such an index.
-/
namespace Verif.Lemmas
open Verif Verif.Model Verif.Spec
variable {E : Env} {α β ρ : Type} {X : Str → Prop} {s s' : Store} {ix : Index} {U : List Str}

/-! ## an index to which keys are added -/

/-- the index has `n` key blocks, the last of which may be missing, or blank -/
structure Tidy (E : Env) (ix : Index) (U : List Str) (s : Store) (n : Nat) : Prop where
  mem : s.names ix.name = some ix.memory
  len : s.segs ix.memory = toLE 8 n
  bound : n < 256 ^ 8
  full : ∀ j, j + 1 < n → ∃ k ∈ U, s.content (keyAddr ix.name j) = some (E.utf8 k)
  last : ∀ j, j + 1 = n → s.content (keyAddr ix.name j) = none ∨
    (∃ m, 0 < m ∧ s.content (keyAddr ix.name j) = some (List.replicate m 0)) ∨
    ∃ k ∈ U, s.content (keyAddr ix.name j) = some (E.utf8 k)

/-- the index only grows: a key that is there stays, and so does a block that is there -/
def Grow (E : Env) (ix : Index) (U : List Str) (s s' : Store) : Prop :=
  ∀ n, Tidy E ix U s n → ∃ n', n ≤ n' ∧ Tidy E ix U s' n' ∧
    (∀ j k, j < n → k ∈ U → s.content (keyAddr ix.name j) = some (E.utf8 k) →
      s'.content (keyAddr ix.name j) = some (E.utf8 k)) ∧
    ∀ j i, j < n → s.names (keyAddr ix.name j) = some i → s'.names (keyAddr ix.name j) = some i

theorem Grow.trans {s'' : Store} (h1 : Grow E ix U s s') (h2 : Grow E ix U s' s'') : Grow E ix U s s'' := by
  intro n hn
  obtain ⟨n1, a1, a2, a3, a4⟩ := h1 n hn
  obtain ⟨n2, b1, b2, b3, b4⟩ := h2 n1 a2
  exact ⟨n2, Nat.le_trans a1 b1, b2, fun j k hj hk hc => b3 j k (by omega) hk (a3 j k hj hk hc),
    fun j i hj hi => b4 j i (by omega) (a4 j i hj hi)⟩

theorem segs_of_same {a : Str} {i : Nat} (h1 : s.names a = some i) (h2 : s'.names a = some i) (h : s'.content a = s.content a) :
    s'.segs i = s.segs i := by
  rw [content_some h1, content_some h2] at h
  injection h

/-- a step that leaves the length and the key blocks alone -/
theorem grow_same (hm : SameAt s s' ix.name) (hk : ∀ j, SameAt s s' (keyAddr ix.name j)) : Grow E ix U s s' := by
  intro n h
  have m' : s'.names ix.name = some ix.memory := by rw [hm.1]; exact h.mem
  refine ⟨n, Nat.le_refl _, ⟨m', by rw [segs_of_same h.mem m' hm.2]; exact h.len, h.bound, fun j hj => ?_, fun j hj => ?_⟩,
    fun j k _ _ hc => by rw [(hk j).2]; exact hc, fun j i _ hi => by rw [(hk j).1]; exact hi⟩
  · rw [(hk j).2]; exact h.full j hj
  · rw [(hk j).2]; exact h.last j hj

theorem grow_refl (s : Store) : Grow E ix U s s := grow_same ⟨rfl, rfl⟩ fun _ => ⟨rfl, rfl⟩

theorem grow_X (hX : OffX ix.name X) (hr : RLock X s s') : Grow E ix U s s' :=
  grow_same (hr.2 _ hX.mem) fun j => hr.2 _ (hX.key j)

theorem tidy_of_rep {keys : List Str} (h : IxRep E s ix keys) (hk : keys ⊆ U) : Tidy E ix U s keys.length := by
  have slot : ∀ j, j < keys.length → ∃ k ∈ U, s.content (keyAddr ix.name j) = some (E.utf8 k) := fun j hj =>
    ⟨keys[j], hk (List.getElem_mem hj), h.key j _ (List.getElem?_eq_getElem hj)⟩
  exact ⟨h.mem, h.len, h.bound, fun j hj => slot j (by omega), fun j hj => Or.inr (Or.inr (slot j (by omega)))⟩

/-- the length is written for the next key -/
theorem grow_len {keys : List Str} (h : IxRep E s ix keys) (hk : keys ⊆ U) (hb : keys.length + 1 < 256 ^ 8)
    (he : Eff s s' ix.name (some (toLE 8 (keys.length + 1)))) (hn : s'.names ix.name = s.names ix.name) : Grow E ix U s s' := by
  intro n hT
  have e : n = keys.length := toLE_inj hT.bound h.bound (hT.len.symm.trans h.len)
  subst e
  have m' : s'.names ix.name = some ix.memory := by rw [hn]; exact h.mem
  have hc : ∀ j, s'.content (keyAddr ix.name j) = s.content (keyAddr ix.name j) := fun j => by
    rw [he.content, if_neg (key_ne_mem _ _)]
  refine ⟨keys.length + 1, by omega, ⟨m', ?_, hb, fun j hj => ?_, fun j hj => ?_⟩, fun j k _ _ h => by rw [hc]; exact h,
    fun j i _ hi => by rw [he.names _ (key_ne_mem _ _)]; exact hi⟩
  · have := he.content ix.name
    rw [if_pos rfl, content_some m'] at this
    injection this
  · have hj : j < keys.length := by omega
    rw [hc]
    exact ⟨keys[j], hk (List.getElem_mem hj), h.key j _ (List.getElem?_eq_getElem hj)⟩
  · rw [hc]
    exact Or.inl (h.nokey j (by omega))

/-- the last key block is made, or written -/
theorem grow_slot {n : Nat} {b : Bytes} (hb : n + 1 < 256 ^ 8) (hlen : s.content ix.name = some (toLE 8 (n + 1)))
    (he : Eff s s' (keyAddr ix.name n) (some b))
    (hn : ∀ i, s.names (keyAddr ix.name n) = some i → s'.names (keyAddr ix.name n) = some i)
    (hold : ∀ k ∈ U, s.content (keyAddr ix.name n) ≠ some (E.utf8 k))
    (hnew : (∃ m, 0 < m ∧ b = List.replicate m 0) ∨ ∃ k ∈ U, b = E.utf8 k) : Grow E ix U s s' := by
  intro n' hT
  rw [content_some hT.mem] at hlen
  injection hlen with hlen
  have e : n' = n + 1 := toLE_inj hT.bound hb (hT.len.symm.trans hlen)
  subst e
  have m' : s'.names ix.name = some ix.memory := by rw [he.names _ (key_ne_mem _ _).symm]; exact hT.mem
  have hc : ∀ j, j ≠ n → s'.content (keyAddr ix.name j) = s.content (keyAddr ix.name j) := fun j hj => by
    rw [he.content, if_neg fun e => hj (key_eq.1 e)]
  refine ⟨n + 1, Nat.le_refl _, ⟨m', ?_, hb, fun j hj => ?_, fun j hj => ?_⟩, fun j k _ hk h => ?_, fun j i _ hi => ?_⟩
  · rw [segs_of_same hT.mem m' (by rw [he.content, if_neg (key_ne_mem _ _).symm])]; exact hT.len
  · rw [hc j (by omega)]; exact hT.full j hj
  · have : j = n := by omega
    subst this
    rw [he.content, if_pos rfl]
    rcases hnew with ⟨m, h1, h2⟩ | ⟨k, h1, h2⟩
    · exact Or.inr (Or.inl ⟨m, h1, by rw [h2]⟩)
    · exact Or.inr (Or.inr ⟨k, h1, by rw [h2]⟩)
  · by_cases hj : j = n
    · subst hj; exact absurd h (hold k hk)
    · rw [hc j hj]; exact h
  · by_cases hj : j = n
    · subst hj; exact hn i hi
    · rw [he.names _ fun e => hj (key_eq.1 e)]; exact hi

/-! ## adding a key -/

/-- a program that only looks does what anybody may -/
theorem rg_looks_refl {R G G' : Store → Store → Prop} {Q : Except PyErr α → Store → Prop} {p : Prog α} (hp : Looks p)
    (hG : ∀ a, G' a a) (h : RG E R G Q p s) : RG E R G' Q p s := by
  induction p generalizing s with
  | ret a => exact h
  | raise e => exact h
  | stuck => trivial
  | op o k ih =>
    intro s2 h2
    have key : (o.step E s2).2 = s2 := by
      cases o with
      | attach n => simp only [Op.step]; split <;> first | rfl | (split <;> rfl)
      | read h => rfl
      | _ => exact hp.elim
    refine ⟨by rw [key]; exact hG _, ?_⟩
    cases o with
    | attach n => exact ih _ (hp _) (h s2 h2).2
    | read h' => exact ih _ (hp _) (h s2 h2).2
    | _ => exact hp.elim

theorem rg_and {R G G' : Store → Store → Prop} {Q Q' : Except PyErr α → Store → Prop} {p : Prog α} (h : RG E R G Q p s)
    (h' : RG E R G' Q' p s) : RG E R (fun a b => G a b ∧ G' a b) (fun r s => Q r s ∧ Q' r s) p s := by
  induction p generalizing s with
  | ret a => exact fun s1 h1 => ⟨h s1 h1, h' s1 h1⟩
  | raise e => exact fun s1 h1 => ⟨h s1 h1, h' s1 h1⟩
  | stuck => trivial
  | op o k ih => exact fun s1 h1 => ⟨⟨(h s1 h1).1, (h' s1 h1).1⟩, ih _ (h s1 h1).2 (h' s1 h1).2⟩

theorem grg_write {G : Store → Store → Prop} {a : Str} {i : Nat} {b : Bytes} (ha : ¬ X a) (hn : s.names a = some i)
    (hl : b.length = (s.segs i).length)
    (hG : ∀ s1 s2, RLock X s s1 → Eff s1 s2 a (some b) → s2.names a = s1.names a → G s1 s2) :
    RG E (RLock X) G (fun r s' => r = .ok () ∧ s'.names a = some i ∧ EffL X s s' a (some b)) (write i b) s := by
  intro s' hr
  have hn' : s'.names a = some i := by rw [(hr.2 a ha).1]; exact hn
  have hc := (hr.2 a ha).2
  rw [content_some hn', content_some hn] at hc
  injection hc with hc
  have e : (Op.write i b).step E s' = (.ok (), s'.wrote i b) := by
    simp only [Op.step]; rw [hc, if_pos hl]; rfl
  rw [e]
  have f := eff_wrote hr.1 hn' b
  exact ⟨hG _ _ hr f rfl, fun s2 h2 => ⟨rfl, by rw [(h2.2 a ha).1]; exact hn', EffL.of hr f h2⟩⟩

theorem grg_create {G : Store → Store → Prop} {a : Str} {size : Nat} (hz : size ≠ 0) (hok : E.okName a = true) (ha : ¬ X a)
    (hn : s.names a = none) (hG : ∀ s1 s2, RLock X s s1 → Eff s1 s2 a (some (List.replicate size 0)) → G s1 s2) :
    RG E (RLock X) G (fun r s' => ∃ i, r = .ok i ∧ s'.names a = some i ∧ EffL X s s' a (some (List.replicate size 0)))
      (create a size) s := by
  intro s' hr
  have hn' : s'.names a = none := by rw [(hr.2 a ha).1]; exact hn
  have e : (Op.create a size).step E s' = (.ok s'.next, s'.created a size) := by
    simp [Op.step, hz, hok, hn', Store.created]
  rw [e]
  have f := eff_created hr.1 a size
  exact ⟨hG _ _ hr f, fun s2 h2 => ⟨s'.next, rfl, by rw [(h2.2 a ha).1]; simp, EffL.of hr f h2⟩⟩

theorem grg_openBlock_new {G : Store → Store → Prop} {a : Str} {size : Nat} {ow : Bool} (w : s.WF) (hz : size ≠ 0)
    (hok : E.okName a = true) (ha : ¬ X a) (hn : s.names a = none)
    (hG : ∀ s1 s2, RLock X s s1 → Eff s1 s2 a (some (List.replicate size 0)) → G s1 s2) :
    RG E (RLock X) G (fun r s' => ∃ i, r = .ok i ∧ s'.names a = some i ∧ EffL X s s' a (some (List.replicate size 0)))
      (openBlock a size true ow) s := by
  refine wrg_bind w (wrg_attempt (Q := fun r s' => ∃ i, r = .ok (.ok i) ∧ s'.names a = some i ∧
      EffL X s s' a (some (List.replicate size 0)))
    (grg_create hz hok ha hn hG) ?_) ?_ (fun e s' h => by simp at h)
  · rintro r s' ⟨i, h1, h2⟩
    exact ⟨i, by rw [h1], h2⟩
  · rintro r s' w' ⟨i, h1, h2, h3⟩
    injection h1 with h1
    subst h1
    refine fun s2 h4 => ⟨i, rfl, by rw [(h4.2 a ha).1]; exact h2, ⟨h4.1, fun x hx => ?_, fun x hx hxa => ?_⟩⟩
    · rw [(h4.2 x hx).2, h3.content x hx]
    · rw [(h4.2 x hx).1, h3.names x hx hxa]

theorem grg_intBytes {G : Store → Store → Prop} {wd n : Nat} (h : n < 256 ^ wd) :
    RG E (RLock X) G (fun r s' => r = .ok (toLE wd n) ∧ RLock X s s') (intBytes wd n) s := by
  rw [intBytes, if_pos h]
  exact fun s' hr => ⟨rfl, hr⟩

/-- no key is blank -/
def NoBlanks (U : List Str) : Prop := ∀ k ∈ U, ¬ IsBlank k

theorem blank_ne {k : Str} (h : ¬ IsBlank k) {n : Nat} (hn : 0 < n) : List.replicate n 0 ≠ E.utf8 k := by
  intro e
  have h1 := E.utf8dec_zeros n
  rw [e, E.utf8_roundtrip] at h1
  injection h1 with h1
  exact h ⟨n, hn, h1⟩

/-- whatever is in the index, adding a key lets it grow -/
theorem grow_indexAdd (w : s.WF) {keys : List Str} (h : IxRep E s ix keys) (hok : NamesOK E ix.name) (hX : OffX ix.name X)
    (hsub : keys ⊆ U) (hnb : NoBlanks U) {key : Key} (hk : key.hashed E = E.utf8 key.text) (hne : key.text ≠ [])
    (hkU : key.text ∈ U) (hb : key.text ∉ keys → keys.length + 1 < 256 ^ 8)
    (hinj : ∀ k' ∈ keys, E.sha (E.utf8 k') = E.sha (E.utf8 key.text) → k' = key.text) (existsOk : Bool) :
    RG E (RLock X) (Grow E ix U) (fun _ _ => True) (indexAdd_ E ix key existsOk) s := by
  rw [indexAdd_, hk]
  cases hp : position key.text keys with
  | some i =>
    refine wrg_bind w (rg_looks_refl (looks_check _ _) grow_refl (lrg_check_some w h hok hX (position_some hp))) ?_
      (fun e s' h => trivial)
    rintro r s1 w1 ⟨h1, r1⟩
    injection h1 with h1
    subst h1
    cases existsOk <;> exact fun _ _ => trivial
  | none =>
    have hmem := position_none.1 hp
    have hb := hb hmem
    have habs : ∀ k' ∈ keys, E.sha (E.utf8 k') ≠ E.sha (E.utf8 key.text) := fun k' hk' e => hmem (hinj k' hk' e ▸ hk')
    refine wrg_bind w (rg_looks_refl (looks_check _ _) grow_refl (lrg_check_none w hok hX (h.absent habs))) ?_ (fun e s' h => trivial)
    rintro r s1 w1 ⟨h1, r1⟩
    injection h1 with h1
    subst h1
    have i1 := h.rely hX r1
    refine wrg_bind w1 (rg_looks_refl (looks_readLength _) grow_refl (lrg_readLength w1 i1 hX)) ?_ (fun e s' h => trivial)
    rintro n s2 w2 ⟨h2, r2⟩
    injection h2 with h2
    subst h2
    have i2 := i1.rely hX r2
    refine wrg_bind w2 (grg_intBytes hb) ?_ (fun e s' h => trivial)
    rintro nb s3 w3 ⟨h3, r3⟩
    injection h3 with h3
    subst h3
    have i3 := i2.rely hX r3
    refine wrg_bind w3 (grg_write hX.mem i3.mem (by rw [i3.len]; simp) fun a b ha he hn => grow_len (i3.rely hX ha) hsub hb he hn)
      ?_ (fun e s' h => trivial)
    rintro _ s4 w4 ⟨_, m4, f4⟩
    have k4 : s4.names (keyAddr ix.name keys.length) = none := by
      rw [f4.names _ (hX.key _) (key_ne_mem _ _)]; exact content_none.1 (i3.nokey _ (Nat.le_refl _))
    have l4 : s4.content ix.name = some (toLE 8 (keys.length + 1)) := by rw [f4.content _ hX.mem, if_pos rfl]
    have hz : (E.utf8 key.text).length ≠ 0 := by simp [utf8_ne_nil E hne]
    refine wrg_bind w4 (grg_openBlock_new w4 hz (hok.key _ (by omega)) (hX.key _) k4 fun a b ha he =>
        grow_slot (n := keys.length) hb (by rw [(ha.2 _ hX.mem).2]; exact l4) he
          (fun i hi => by rw [(ha.2 _ (hX.key _)).1, k4] at hi; cases hi)
          (fun k _ hc => by rw [(ha.2 _ (hX.key _)).2, content_none.2 k4] at hc; cases hc) (Or.inl ⟨_, by omega, rfl⟩))
      ?_ (fun e s' h => trivial)
    rintro kh s5 w5 ⟨i, h5, n5, f5⟩
    injection h5 with h5
    subst h5
    have c5 : s5.segs kh = List.replicate (E.utf8 key.text).length 0 := by
      have := f5.content _ (hX.key keys.length)
      rw [content_some n5, if_pos rfl] at this
      injection this
    have l5 : s5.content ix.name = some (toLE 8 (keys.length + 1)) := by
      rw [f5.content _ hX.mem, if_neg (key_ne_mem _ _).symm]; exact l4
    refine wrg_bind w5 (grg_write (hX.key _) n5 (by rw [c5]; simp) fun a b ha he hn =>
        grow_slot (n := keys.length) hb (by rw [(ha.2 _ hX.mem).2]; exact l5) he (fun i hi => by rw [hn]; exact hi)
          (fun k hkU' hc => by
            rw [(ha.2 _ (hX.key _)).2, content_some n5, c5] at hc
            injection hc with hc
            exact blank_ne (hnb k hkU') (by omega) hc) (Or.inr ⟨_, hkU, rfl⟩))
      ?_ (fun e s' h => trivial)
    rintro _ s6 w6 ⟨_, n6, f6⟩
    refine wrg_bind w6 (grg_intBytes (show keys.length < 256 ^ 8 by omega)) ?_ (fun e s' h => trivial)
    rintro pb s7 w7 ⟨h7, r7⟩
    injection h7 with h7
    subst h7
    have kh' : ∀ j, keyAddr ix.name j ≠ hashAddr E ix.name (E.utf8 key.text) := fun j => by
      rw [addr_hash]; exact key_ne_hash _ _ _
    have mh' : hashAddr E ix.name (E.utf8 key.text) ≠ ix.name := by rw [addr_hash]; exact hash_ne_mem _ _
    have hn7 : s7.names (hashAddr E ix.name (E.utf8 key.text)) = none := by
      rw [(r7.2 _ (hX.hash E _)).1, f6.names _ (hX.hash E _) (kh' _).symm, f5.names _ (hX.hash E _) (kh' _).symm,
        f4.names _ (hX.hash E _) mh']
      exact content_none.1 (i3.absent habs)
    have off : ∀ a b v, Eff a b (hashAddr E ix.name (E.utf8 key.text)) v → Grow E ix U a b := fun a b v he =>
      grow_same ⟨he.names _ mh'.symm, by rw [he.content, if_neg mh'.symm]⟩ fun j =>
        ⟨he.names _ (kh' j), by rw [he.content, if_neg (kh' j)]⟩
    refine wrg_bind w7 (grg_openBlock_new w7 (by omega) (hok.hash _) (hX.hash E _) hn7 fun a b _ he => off a b _ he) ?_
      (fun e s' h => trivial)
    rintro nh s8 w8 ⟨i, h8, n8, f8⟩
    injection h8 with h8
    subst h8
    have c8 : s8.segs nh = List.replicate 8 0 := by
      have := f8.content _ (hX.hash E (E.utf8 key.text))
      rw [content_some n8, if_pos rfl] at this
      injection this
    refine wrg_bind w8 (grg_write (hX.hash E _) n8 (by rw [c8]; simp) fun a b _ he _ => off a b _ he) ?_ (fun e s' h => trivial)
    rintro _ s9 w9 _
    exact fun _ _ => trivial

/-! ## listing the keys -/

/-- the first keys are known -/
structure HasSeen (E : Env) (ix : Index) (U : List Str) (s : Store) (v : List Str) : Prop where
  tidy : ∃ n, Tidy E ix U s n ∧ v.length ≤ n
  mem : v ⊆ U
  key : ∀ i k, v[i]? = some k → s.content (keyAddr ix.name i) = some (E.utf8 k)

theorem HasSeen.grow {v : List Str} (h : HasSeen E ix U s v) (hg : Grow E ix U s s') : HasSeen E ix U s' v := by
  obtain ⟨n, h1, h2⟩ := h.tidy
  obtain ⟨n', g1, g2, g3, _⟩ := hg n h1
  exact ⟨⟨n', g2, by omega⟩, h.mem, fun i k hi =>
    g3 i k (by have := lt_of_getElem? hi; omega) (h.mem (List.mem_of_getElem? hi)) (h.key i k hi)⟩

theorem knows_of_rep {keys : List Str} (h : IxRep E s ix keys) (hk : keys ⊆ U) : HasSeen E ix U s keys :=
  ⟨⟨_, tidy_of_rep h hk, Nat.le_refl _⟩, hk, h.key⟩

theorem HasSeen.cons_tail {v : List Str} {k : Str} {n : Nat} (h : HasSeen E ix U s v) (ht : Tidy E ix U s n) (hn : v.length < n)
    (hk : k ∈ U) (hc : s.content (keyAddr ix.name v.length) = some (E.utf8 k)) : HasSeen E ix U s (v ++ [k]) := by
  refine ⟨⟨n, ht, by simp; omega⟩, fun x hx => ?_, fun i x hi => ?_⟩
  · rcases List.mem_append.1 hx with hx | hx
    · exact h.mem hx
    · simp at hx; rw [hx]; exact hk
  · by_cases hl : i < v.length
    · rw [List.getElem?_append_left hl] at hi
      exact h.key i x hi
    · rw [List.getElem?_append_right (by omega)] at hi
      have hi0 : i - v.length = 0 := by
        have := lt_of_getElem? hi
        simp at this; omega
      rw [hi0] at hi
      injection hi with hi
      have : i = v.length := by omega
      subst this; rw [← hi]; exact hc

/-- what is known of an index is what is in it -/
theorem HasSeen.prefix_rep {v keys : List Str} (h : HasSeen E ix U s v) (hr : IxRep E s ix keys) : v <+: keys := by
  obtain ⟨n, h1, h2⟩ := h.tidy
  have e : n = keys.length := toLE_inj h1.bound hr.bound (h1.len.symm.trans hr.len)
  rw [List.prefix_iff_eq_take]
  apply List.ext_getElem?
  intro i
  by_cases hi : i < v.length
  · rw [List.getElem?_take_of_lt hi, List.getElem?_eq_getElem hi, List.getElem?_eq_getElem (by omega : i < keys.length)]
    have a := h.key i _ (List.getElem?_eq_getElem hi)
    rw [hr.key i _ (List.getElem?_eq_getElem (by omega : i < keys.length))] at a
    injection a with a
    rw [utf8_injective E a]
  · rw [List.getElem?_eq_none (by omega), List.getElem?_eq_none]
    rw [List.length_take]; omega

/-- what two processes know of an index agrees -/
theorem HasSeen.comparable {v v' : List Str} (h : HasSeen E ix U s v) (h' : HasSeen E ix U s v') : v <+: v' ∨ v' <+: v := by
  have key : ∀ {v v' : List Str}, HasSeen E ix U s v → HasSeen E ix U s v' → v.length ≤ v'.length → v <+: v' := by
    intro v v' h h' hl
    rw [List.prefix_iff_eq_take]
    apply List.ext_getElem?
    intro i
    by_cases hi : i < v.length
    · rw [List.getElem?_take_of_lt hi, List.getElem?_eq_getElem hi, List.getElem?_eq_getElem (by omega : i < v'.length)]
      have a := h.key i _ (List.getElem?_eq_getElem hi)
      rw [h'.key i _ (List.getElem?_eq_getElem (by omega : i < v'.length))] at a
      injection a with a
      rw [utf8_injective E a]
    · rw [List.getElem?_eq_none (by omega), List.getElem?_eq_none]
      rw [List.length_take]; omega
  rcases Nat.le_total v.length v'.length with hl | hl
  · exact Or.inl (key h h' hl)
  · exact Or.inr (key h' h hl)

/-- what a process that lists the keys may rely on -/
def RGrow (E : Env) (ix : Index) (U : List Str) (s s' : Store) : Prop := s'.WF ∧ Grow E ix U s s'

/-- nothing is changed -/
abbrev Still (s s' : Store) : Prop := s' = s

theorem rgw_bind {G : Store → Store → Prop} {Q' : Except PyErr α → Store → Prop} {Q : Except PyErr β → Store → Prop} {p : Prog α}
    {f : α → Prog β} (w : s.WF) (h : RG E (RGrow E ix U) G Q' p s)
    (hok : ∀ a s', s'.WF → Q' (.ok a) s' → RG E (RGrow E ix U) G Q (f a) s') (herr : ∀ e s', Q' (.error e) s' → Q (.error e) s') :
    RG E (RGrow E ix U) G Q (p.bind f) s := by
  induction p generalizing s with
  | ret a => exact hok a s w (h s ⟨w, grow_refl _⟩)
  | raise e => exact fun s' hr => herr e s' (h s' hr)
  | stuck => trivial
  | op o k ih =>
    intro s' hr
    exact ⟨(h s' hr).1, ih _ (step_wf E o s' hr.1) (h s' hr).2⟩

/-- what is found in slot `v.length`, one of `n`: a key, or, when it is the last, nothing or a blank -/
def SlotIs (E : Env) (ix : Index) (U v : List Str) (n : Nat) (r : Except PyErr (Option Str)) (s : Store) : Prop :=
  (∃ k, r = .ok (some k) ∧ HasSeen E ix U s (v ++ [k])) ∨
  (v.length + 1 = n ∧ (r = .ok none ∨ ∃ b, IsBlank b ∧ r = .ok (some b)) ∧ HasSeen E ix U s v)

theorem step_attach (a : Str) (s : Store) : ((Op.attach a).step E s).2 = s := by
  simp only [Op.step]
  split
  · rfl
  · split <;> rfl

theorem rg_step {R G : Store → Store → Prop} {Q : Except PyErr α → Store → Prop} {o : Op} {f : Except PyErr o.Res → Prog α}
    (h : ∀ s', R s s' → G s' (o.step E s').2 ∧ RG E R G Q (f (o.step E s').1) (o.step E s').2) : RG E R G Q (.op o f) s := h

/-- a slot of which a key is known -/
theorem rg_loadKnown (hok : NamesOK E ix.name) {v : List Str} (hv : HasSeen E ix U s v) {i : Nat} {k : Str}
    (hi : v[i]? = some k) :
    RG E (RGrow E ix U) Still (fun r s' => r = .ok (some k) ∧ HasSeen E ix U s' v) (loadKey? E ix i) s := by
  have li := lt_of_getElem? hi
  have hb : i < 256 ^ 8 := by
    obtain ⟨n, h1, h2⟩ := hv.tidy
    have := h1.bound; omega
  refine rg_step fun s1 r1 => ⟨step_attach _ _, ?_⟩
  have v1 := hv.grow r1.2
  obtain ⟨hd, hn, hs⟩ := names_of_content (v1.key i k hi)
  have e : (Op.attach (keyAddr ix.name i)).step E s1 = (.ok hd, s1) := by
    simp [Op.step, hok.key i hb, hn]
  rw [e]
  refine rg_step fun s2 r2 => ⟨rfl, ?_⟩
  have v2 := v1.grow r2.2
  obtain ⟨n, h1, h2⟩ := v1.tidy
  obtain ⟨_, _, _, _, g4⟩ := r2.2 n h1
  have hn2 := g4 i hd (by omega) hn
  have c2 := v2.key i k hi
  rw [content_some hn2] at c2
  injection c2 with c2
  show RG E _ _ _ ((decodeUtf8 E (s2.segs hd)).bind _) s2
  rw [c2, decodeUtf8, E.utf8_roundtrip]
  exact fun s3 r3 => ⟨rfl, v2.grow r3.2⟩

/-- the first slot of which nothing is known -/
theorem rg_loadNext (hok : NamesOK E ix.name) {v : List Str} (hv : HasSeen E ix U s v) {n : Nat}
    (hT : ∃ m, Tidy E ix U s m ∧ n ≤ m) (hl : v.length < n) :
    RG E (RGrow E ix U) Still (SlotIs E ix U v n) (loadKey? E ix v.length) s := by
  obtain ⟨m, hT, hm⟩ := hT
  have hb : v.length < 256 ^ 8 := by have := hT.bound; omega
  refine rg_step fun s1 r1 => ⟨step_attach _ _, ?_⟩
  have v1 := hv.grow r1.2
  obtain ⟨m1, g1, t1, _, _⟩ := r1.2 m hT
  cases hn : s1.names (keyAddr ix.name v.length) with
  | none =>
    have e : (Op.attach (keyAddr ix.name v.length)).step E s1 = (.error .fileNotFound, s1) := by
      simp [Op.step, hok.key _ hb, hn]
    rw [e]
    refine fun s2 r2 => Or.inr ⟨?_, Or.inl rfl, v1.grow r2.2⟩
    by_contra hne
    obtain ⟨k, _, hc⟩ := t1.full v.length (by omega)
    rw [content_none.2 hn] at hc
    cases hc
  | some hd =>
    have e : (Op.attach (keyAddr ix.name v.length)).step E s1 = (.ok hd, s1) := by
      simp [Op.step, hok.key _ hb, hn]
    rw [e]
    refine rg_step fun s2 r2 => ⟨rfl, ?_⟩
    have v2 := v1.grow r2.2
    obtain ⟨m2, g2, t2, _, g4⟩ := r2.2 m1 t1
    have hn2 := g4 v.length hd (by omega) hn
    have found : ∀ k ∈ U, s2.content (keyAddr ix.name v.length) = some (E.utf8 k) →
        RG E (RGrow E ix U) Still (SlotIs E ix U v n) ((decodeUtf8 E (s2.segs hd)).bind fun k => .ret (some k)) s2 := by
      intro k hk hc
      have v3 := v2.cons_tail t2 (by omega) hk hc
      rw [content_some hn2] at hc
      injection hc with hc
      rw [hc, decodeUtf8, E.utf8_roundtrip]
      exact fun s3 r3 => Or.inl ⟨k, rfl, v3.grow r3.2⟩
    show RG E _ _ _ ((decodeUtf8 E (s2.segs hd)).bind fun k => .ret (some k)) s2
    by_cases hlast : v.length + 1 < m2
    · obtain ⟨k, hk, hc⟩ := t2.full v.length hlast
      exact found k hk hc
    · rcases t2.last v.length (by omega) with hc | ⟨z, hz, hc⟩ | ⟨k, hk, hc⟩
      · rw [content_some hn2] at hc; cases hc
      · rw [content_some hn2] at hc
        injection hc with hc
        rw [hc, decodeUtf8, E.utf8dec_zeros]
        exact fun s3 r3 => Or.inr ⟨by omega, Or.inr ⟨_, ⟨z, hz, rfl⟩, rfl⟩, v2.grow r3.2⟩
      · exact found k hk hc

/-- what a listing from slot `i` on gives -/
def ListIs (E : Env) (ix : Index) (U v : List Str) (i : Nat) (r : Except PyErr (List Str)) (s : Store) : Prop :=
  ∃ v', v <+: v' ∧ HasSeen E ix U s v' ∧ (r = .ok (v'.drop i) ∨ ∃ b, IsBlank b ∧ r = .ok (v'.drop i ++ [b]))

theorem rg_enumerate (hok : NamesOK E ix.name) {d : Nat} : ∀ {i : Nat} {v : List Str} {s : Store}, s.WF → HasSeen E ix U s v →
    i ≤ v.length → v.length ≤ i + d → (∃ m, Tidy E ix U s m ∧ i + d ≤ m) →
    RG E (RGrow E ix U) Still (ListIs E ix U v i) (enumerateKeys E ix i d) s := by
  have grown : ∀ {s s' : Store} {n : Nat}, Grow E ix U s s' → (∃ m, Tidy E ix U s m ∧ n ≤ m) → ∃ m, Tidy E ix U s' m ∧ n ≤ m := by
    rintro s s' n hg ⟨m, h1, h2⟩
    obtain ⟨m', g1, g2, _, _⟩ := hg m h1
    exact ⟨m', g2, by omega⟩
  induction d with
  | zero =>
    intro i v s w hv hi hl _
    refine fun s' hr => ⟨v, List.prefix_refl _, hv.grow hr.2, Or.inl ?_⟩
    rw [List.drop_of_length_le (by omega)]
  | succ d ih =>
    intro i v s w hv hi hl hT
    -- after the slot has been read, and `v1` is known
    have rest : ∀ (k : Str) (v1 : List Str) (s1 : Store), s1.WF → HasSeen E ix U s1 v1 → (∃ m, Tidy E ix U s1 m ∧ i + (d + 1) ≤ m) →
        v <+: v1 → v1.length ≤ i + (d + 1) → v1[i]? = some k → RG E (RGrow E ix U) Still (ListIs E ix U v i)
        ((enumerateKeys E ix (i + 1) d).bind fun rest => .ret ((some k).toList ++ rest)) s1 := by
      intro k v1 s1 w1 h1 hT1 hp hl1 hk
      have li := lt_of_getElem? hk
      refine rgw_bind w1 (ih w1 h1 (by omega) (by omega) (by
        obtain ⟨m, a, b⟩ := hT1; exact ⟨m, a, by omega⟩)) ?_ ?_
      · rintro l s2 w2 ⟨v2, p2, k2, h2⟩
        intro s3 r3
        have hd : v2.drop i = k :: v2.drop (i + 1) := by
          have hk2 : v2[i]? = some k := by
            obtain ⟨t, rfl⟩ := p2
            rw [List.getElem?_append_left li]; exact hk
          have := lt_of_getElem? hk2
          rw [List.drop_eq_getElem_cons this]
          rw [List.getElem?_eq_getElem this] at hk2
          injection hk2 with hk2
          rw [hk2]
        refine ⟨v2, hp.trans p2, k2.grow r3.2, ?_⟩
        rw [hd]
        rcases h2 with h2 | ⟨b, hb, h2⟩
        · injection h2 with h2
          rw [h2]; exact Or.inl rfl
        · injection h2 with h2
          rw [h2]; exact Or.inr ⟨b, hb, rfl⟩
      · rintro e s2 ⟨_, _, _, h2 | ⟨b, _, h2⟩⟩ <;> cases h2
    show RG E _ _ _ ((loadKey? E ix i).bind fun k => (enumerateKeys E ix (i + 1) d).bind fun rest => .ret (k.toList ++ rest)) s
    by_cases hlt : i < v.length
    · -- known already
      have hload := rg_loadKnown (U := U) hok hv (List.getElem?_eq_getElem hlt)
      have hload := rg_inv (R' := RGrow E ix U) (I := fun s => ∃ m, Tidy E ix U s m ∧ i + (d + 1) ≤ m)
        (fun a b ha hr => ⟨hr, grown hr.2 ha⟩) (fun a b ha hg => by rw [hg]; exact ha) hT hload
      refine rgw_bind w hload ?_ ?_
      · rintro k s1 w1 ⟨⟨h1, k1⟩, hT1⟩
        injection h1 with h1
        subst h1
        exact rest _ v s1 w1 k1 hT1 (List.prefix_refl _) hl (List.getElem?_eq_getElem hlt)
      · rintro e s1 ⟨⟨h1, _⟩, _⟩; cases h1
    · have hil : i = v.length := by omega
      subst hil
      have hload := rg_inv (R' := RGrow E ix U) (I := fun s => ∃ m, Tidy E ix U s m ∧ v.length + (d + 1) ≤ m)
        (fun a b ha hr => ⟨hr, grown hr.2 ha⟩) (fun a b ha hg => by rw [hg]; exact ha) hT
        (rg_loadNext hok hv hT (by omega))
      refine rgw_bind w hload ?_ ?_
      · rintro x s1 w1 ⟨⟨k, h1, k1⟩ | ⟨hd, h1, k1⟩, hT1⟩
        · injection h1 with h1
          subst h1
          exact rest k _ s1 w1 k1 hT1 (List.prefix_append _ _) (by simp) (by simp)
        · have hd0 : d = 0 := by omega
          subst hd0
          refine fun s2 r2 => ⟨v, List.prefix_refl _, k1.grow r2.2, ?_⟩
          rw [List.drop_of_length_le (Nat.le_refl _)]
          rcases h1 with h1 | ⟨b, hb, h1⟩
          · injection h1 with h1; subst h1; exact Or.inl rfl
          · injection h1 with h1; subst h1; exact Or.inr ⟨b, hb, rfl⟩
      · rintro e s1 ⟨⟨_, h1, _⟩ | ⟨_, h1 | ⟨_, _, h1⟩, _⟩, _⟩ <;> cases h1

/-- listing the keys -/
theorem rg_update (hok : NamesOK E ix.name) (w : s.WF) {v : List Str} (hv : HasSeen E ix U s v) :
    RG E (RGrow E ix U) Still (ListIs E ix U v 0) (indexUpdate E ix) s := by
  refine rg_step fun s1 r1 => ⟨rfl, ?_⟩
  have v1 := hv.grow r1.2
  obtain ⟨n, t1, l1⟩ := v1.tidy
  show RG E _ _ _ (enumerateKeys E ix 0 (fromLE (s1.segs ix.memory))) s1
  rw [t1.len, fromLE_toLE _ _ t1.bound]
  exact rg_enumerate hok r1.1 v1 (Nat.zero_le _) (by omega) ⟨n, t1, by omega⟩

end Verif.Lemmas
