import Verif.Lemmas.RG
/-! # Adding a key while others use the lock's blocks -/
namespace Verif.Lemmas
open Verif Verif.Model
variable {E : Env}

/-- the blocks of the index are outside `X` -/
def OffX (name : Str) (X : Str → Prop) : Prop := ∀ x, indexNames name x → ¬ X x

theorem offX_lock (name : Str) : OffX name (lockNames name) := fun _ => index_not_lock

theorem IxRep.rely {X : Str → Prop} {s s' : Store} {ix : Index} {keys : List Str} (h : IxRep E s ix keys)
    (hX : OffX ix.name X) (hr : RLock X s s') : IxRep E s' ix keys :=
  h.same hr.2 fun sl hsl => hX _ ⟨sl, hsl, rfl⟩

section
variable {X : Str → Prop}

theorem OffX.mem {name : Str} (h : OffX name X) : ¬ X name := h _ (indexNames_mem name)
theorem OffX.key {name : Str} (h : OffX name X) (i : Nat) : ¬ X (keyAddr name i) := h _ (indexNames_key name i)
theorem OffX.hash {name : Str} (h : OffX name X) (E : Env) (b : Bytes) : ¬ X (hashAddr E name b) :=
  h _ (indexNames_hash E name b)

theorem lrg_check_some {s : Store} (w : s.WF) {ix : Index} {keys : List Str} (h : IxRep E s ix keys)
    (hok : NamesOK E ix.name) (hX : OffX ix.name X) {k : Str} {i : Nat} (hi : keys[i]? = some k) :
    LRG E X (fun r s' => r = .ok (some i) ∧ RLock X s s') (check E ix (E.utf8 k)) s := by
  obtain ⟨j, hj, hs⟩ := names_of_content (h.hash i k hi)
  have li : i < keys.length := by
    by_contra hc
    rw [List.getElem?_eq_none (by omega)] at hi; simp at hi
  have hb := h.bound
  refine lrg_bind w (lrg_existsBlock w (hok.hash _) (hX.hash E _)) ?_ (fun e s' h => by simp at h)
  rintro r s1 w1 ⟨h1, r1⟩
  rw [hj] at h1
  injection h1 with h1
  subst h1
  have hj1 : s1.names (hashAddr E ix.name (E.utf8 k)) = some j := by rw [(r1.2 _ (hX.hash E _)).1]; exact hj
  show LRG E X _ (attach _ >>= _) s1
  refine lrg_bind w1 (lrg_attach_some (hok.hash _) (hX.hash E _) hj1) ?_ (fun e s' h => by simp at h)
  rintro r s2 w2 ⟨h2, r2⟩
  injection h2 with h2
  subst h2
  have hj2 : s2.names (hashAddr E ix.name (E.utf8 k)) = some r := by rw [(r2.2 _ (hX.hash E _)).1]; exact hj1
  refine lrg_bind w2 (lrg_read (hX.hash E _) hj2) ?_ (fun e s' h => by simp at h)
  rintro b s3 w3 ⟨h3, r3⟩
  injection h3 with h3
  have hc2 : s2.segs r = toLE 8 i := by
    have := ((h.rely hX r1).rely hX r2).hash i k hi
    rw [content_some hj2] at this
    injection this
  subst h3
  refine lrg_pure fun s' hr => ⟨by rw [hc2, fromLE_toLE _ _ (by omega)], ?_⟩
  exact RLock.trans _ _ _ r1 (RLock.trans _ _ _ r2 (RLock.trans _ _ _ r3 hr))

theorem lrg_check_none {s : Store} (w : s.WF) {ix : Index} (hok : NamesOK E ix.name) (hX : OffX ix.name X) {raw : Bytes}
    (h : s.content (hashAddr E ix.name raw) = none) :
    LRG E X (fun r s' => r = .ok none ∧ RLock X s s') (check E ix raw) s := by
  refine lrg_bind w (lrg_existsBlock w (hok.hash _) (hX.hash E _)) ?_ (fun e s' h => by simp at h)
  rintro r s1 w1 ⟨h1, r1⟩
  rw [content_none.1 h] at h1
  injection h1 with h1
  subst h1
  exact lrg_pure fun s' hr => ⟨rfl, RLock.trans _ _ _ r1 hr⟩

theorem lrg_readLength {s : Store} (w : s.WF) {ix : Index} {keys : List Str} (h : IxRep E s ix keys)
    (hX : OffX ix.name X) :
    LRG E X (fun r s' => r = .ok keys.length ∧ RLock X s s') (readLength ix) s := by
  refine lrg_bind w (lrg_read hX.mem h.mem) ?_ (fun e s' h => by simp at h)
  rintro b s1 w1 ⟨h1, r1⟩
  injection h1 with h1
  subst h1
  exact lrg_pure fun s' hr => ⟨by rw [h.len, fromLE_toLE _ _ h.bound], RLock.trans _ _ _ r1 hr⟩

theorem lrg_intBytes {s : Store} {wd n : Nat} (h : n < 256 ^ wd) :
    LRG E X (fun r s' => r = .ok (toLE wd n) ∧ RLock X s s') (intBytes wd n) s := by
  rw [intBytes, if_pos h]
  exact fun s' hr => ⟨rfl, hr⟩

/-- adding a key that is not listed -/
theorem lrg_indexAddNew {s : Store} (w : s.WF) {ix : Index} {keys : List Str} (h : IxRep E s ix keys)
    (hok : NamesOK E ix.name) (hX : OffX ix.name X) {key : Key} (hk : key.hashed E = E.utf8 key.text) (hne : key.text ≠ [])
    (hb : keys.length + 1 < 256 ^ 8) (habs : ∀ k' ∈ keys, E.sha (E.utf8 k') ≠ E.sha (E.utf8 key.text))
    (existsOk : Bool) :
    LRG E X (fun r s' => r = .ok keys.length ∧ s'.WF ∧ IxRep E s' ix (keys ++ [key.text]))
      (indexAdd_ E ix key existsOk) s := by
  rw [indexAdd_, hk]
  refine lrg_bind w (lrg_check_none w hok hX (h.absent habs)) ?_ (fun e s' h => by simp at h)
  rintro r s1 w1 ⟨h1, r1⟩
  injection h1 with h1
  subst h1
  have i1 := h.rely hX r1
  refine lrg_bind w1 (lrg_readLength w1 i1 hX) ?_ (fun e s' h => by simp at h)
  rintro n s2 w2 ⟨h2, r2⟩
  injection h2 with h2
  subst h2
  have i2 := i1.rely hX r2
  refine lrg_bind w2 (lrg_intBytes hb) ?_ (fun e s' h => by simp at h)
  rintro nb s3 w3 ⟨h3, r3⟩
  injection h3 with h3
  subst h3
  have i3 := i2.rely hX r3
  refine lrg_bind w3 (lrg_write hX.mem i3.mem (by rw [i3.len]; simp)) ?_ (fun e s' h => by simp at h)
  rintro _ s4 w4 ⟨_, m4, f4⟩
  have k4 : s4.names (keyAddr ix.name keys.length) = none := by
    rw [f4.names _ (hX.key _) (key_ne_mem _ _)]; exact content_none.1 (i3.nokey _ (Nat.le_refl _))
  refine lrg_bind w4 (lrg_openBlock_new w4 (by simp [utf8_ne_nil E hne]) (hok.key _ (by omega)) (hX.key _) k4)
    ?_ (fun e s' h => by simp at h)
  rintro kh s5 w5 ⟨i, h5, n5, f5⟩
  injection h5 with h5
  subst h5
  have c5 : s5.segs kh = List.replicate (E.utf8 key.text).length 0 := by
    have := f5.content _ (hX.key keys.length)
    rw [content_some n5, if_pos rfl] at this
    injection this
  refine lrg_bind w5 (lrg_write (hX.key _) n5 (by rw [c5]; simp)) ?_ (fun e s' h => by simp at h)
  rintro _ s6 w6 ⟨_, n6, f6⟩
  refine lrg_bind w6 (lrg_intBytes (show keys.length < 256 ^ 8 by omega)) ?_ (fun e s' h => by simp at h)
  rintro pb s7 w7 ⟨h7, r7⟩
  injection h7 with h7
  subst h7
  have kh' : hashAddr E ix.name (E.utf8 key.text) ≠ keyAddr ix.name keys.length := by
    rw [addr_hash]; exact (key_ne_hash _ _ _).symm
  have mh' : hashAddr E ix.name (E.utf8 key.text) ≠ ix.name := by rw [addr_hash]; exact hash_ne_mem _ _
  have hn7 : s7.names (hashAddr E ix.name (E.utf8 key.text)) = none := by
    rw [(r7.2 _ (hX.hash E _)).1, f6.names _ (hX.hash E _) kh', f5.names _ (hX.hash E _) kh',
      f4.names _ (hX.hash E _) mh']
    exact content_none.1 (i3.absent habs)
  refine lrg_bind w7 (lrg_openBlock_new w7 (by omega) (hok.hash _) (hX.hash E _) hn7) ?_
    (fun e s' h => by simp at h)
  rintro nh s8 w8 ⟨i, h8, n8, f8⟩
  injection h8 with h8
  subst h8
  have c8 : s8.segs nh = List.replicate 8 0 := by
    have := f8.content _ (hX.hash E (E.utf8 key.text))
    rw [content_some n8, if_pos rfl] at this
    injection this
  refine lrg_bind w8 (lrg_write (hX.hash E _) n8 (by rw [c8]; simp)) ?_ (fun e s' h => by simp at h)
  rintro _ s9 w9 ⟨_, n9, f9⟩
  refine lrg_pure fun s' hr => ⟨rfl, hr.1, IxRep.rely ?_ hX hr⟩
  refine i3.added hne hb habs ?_ (fun x hx0 => ?_)
  · rw [f9.names _ hX.mem mh'.symm, f8.names _ hX.mem mh'.symm, (r7.2 _ hX.mem).1,
      f6.names _ hX.mem (key_ne_mem _ _).symm, f5.names _ hX.mem (key_ne_mem _ _).symm]
    exact m4
  · have hx := hX x hx0
    rw [f9.content x hx, f8.content x hx, (r7.2 x hx).2, f6.content x hx, f5.content x hx, f4.content x hx]
    by_cases h1 : x = hashAddr E ix.name (E.utf8 key.text)
    · simp only [h1, if_true]
    · simp only [if_neg h1]
      by_cases h2 : x = keyAddr ix.name keys.length
      · simp only [h2, if_true]
      · simp only [if_neg h2]

/-- adding a key that is listed -/
theorem lrg_indexAddOld {s : Store} (w : s.WF) {ix : Index} {keys : List Str} (h : IxRep E s ix keys)
    (hok : NamesOK E ix.name) (hX : OffX ix.name X) {key : Key} (hk : key.hashed E = E.utf8 key.text) {i : Nat}
    (hi : keys[i]? = some key.text) :
    LRG E X (fun r s' => r = .ok i ∧ s'.WF ∧ IxRep E s' ix keys) (indexAdd_ E ix key true) s := by
  rw [indexAdd_, hk]
  refine lrg_bind w (lrg_check_some w h hok hX hi) ?_ (fun e s' h => by simp at h)
  rintro r s1 w1 ⟨h1, r1⟩
  injection h1 with h1
  subst h1
  exact lrg_pure fun s' hr => ⟨rfl, hr.1, (h.rely hX r1).rely hX hr⟩

end
end Verif.Lemmas
