import Verif.Lemmas.RGAdd
/-! # Removing a key from an index among users of its lock -/
namespace Verif.Lemmas
open Verif Verif.Model Verif.Spec
variable {E : Env} {X : Str → Prop} {s : Store}

theorem EffL.trans {s1 s2 s3 : Store} {a : Str} {v v' : Option Bytes} (h1 : EffL X s1 s2 a v) (h2 : EffL X s2 s3 a v') :
    EffL X s1 s3 a v' :=
  ⟨h2.wf, fun x hx => by rw [h2.content x hx, h1.content x hx]; split <;> rfl,
    fun x hx hxa => by rw [h2.names x hx hxa, h1.names x hx hxa]⟩

theorem EffL.relyBefore {s1 s2 s3 : Store} {a : Str} {v : Option Bytes} (hr : RLock X s1 s2) (h : EffL X s2 s3 a v) :
    EffL X s1 s3 a v :=
  ⟨h.wf, fun x hx => by rw [h.content x hx, (hr.2 x hx).2], fun x hx hxa => by rw [h.names x hx hxa, (hr.2 x hx).1]⟩

theorem EffL.names_none {s1 s2 : Store} {a : Str} (h : EffL X s1 s2 a none) (ha : ¬ X a) : s2.names a = none := by
  have := h.content a ha
  rw [if_pos rfl] at this
  exact content_none.1 this

theorem lrg_unlink {a : Str} {i : Nat} (ha : ¬ X a) (hn : s.names a = some i) :
    LRG E X (fun r s' => r = .ok () ∧ EffL X s s' a none) (unlink a) s := by
  intro s' hr
  have hn' : s'.names a = some i := by rw [(hr.2 a ha).1]; exact hn
  have e : (Op.unlink a).step E s' = (.ok (), s'.unlinked a) := by simp [Op.step, hn', Store.unlinked]
  rw [e]
  have f := eff_unlinked hr.1 a
  exact ⟨gLock_of_eff f ha, fun s2 h2 => ⟨rfl, EffL.of hr f h2⟩⟩

theorem lrg_create_exists {a : Str} {size i : Nat} (hz : size ≠ 0) (hok : E.okName a = true) (ha : ¬ X a)
    (hn : s.names a = some i) :
    LRG E X (fun r s' => r = .error .fileExists ∧ RLock X s s') (create a size) s := by
  intro s' hr
  have hn' : s'.names a = some i := by rw [(hr.2 a ha).1]; exact hn
  have e : (Op.create a size).step E s' = (.error .fileExists, s') := by
    simp [Op.step, hz, hok, hn']
  rw [e]
  exact ⟨gLock_refl _, fun s2 h2 => ⟨rfl, hr.trans _ _ _ h2⟩⟩

/-- `open_block(a, size, True, True)` -/
theorem lrg_openBlock_fresh {a : Str} {size : Nat} (w : s.WF) (hz : size ≠ 0) (hok : E.okName a = true) (ha : ¬ X a) :
    LRG E X (fun r s' => ∃ i, r = .ok i ∧ s'.names a = some i ∧ EffL X s s' a (some (List.replicate size 0)))
      (openBlock a size true true) s := by
  cases hn : s.names a with
  | none => exact lrg_openBlock_new w hz hok ha hn
  | some i =>
    refine lrg_bind w (lrg_attempt (Q := fun r s' => r = .ok (.error .fileExists) ∧ RLock X s s')
      (lrg_create_exists hz hok ha hn) fun r s' h => ⟨by rw [h.1], h.2⟩) ?_ (fun e s' h => by simp at h)
    rintro r s1 w1 ⟨h1, r1⟩
    injection h1 with h1
    subst h1
    have n1 : s1.names a = some i := by rw [(r1.2 a ha).1]; exact hn
    show LRG E X _ (attach a >>= _) s1
    refine lrg_bind w1 (lrg_attach_some hok ha n1) ?_ (fun e s' h => by simp at h)
    rintro j s2 w2 ⟨_, r2⟩
    have n2 : s2.names a = some i := by rw [(r2.2 a ha).1]; exact n1
    refine lrg_bind w2 (lrg_unlink ha n2) ?_ (fun e s' h => by simp at h)
    rintro _ s3 w3 ⟨_, f3⟩
    refine lrg_mono (lrg_create hz hok ha (f3.names_none ha)) ?_
    rintro r s4 ⟨k, e, n4, f4⟩
    exact ⟨k, e, n4, ((f3.relyBefore (r1.trans _ _ _ r2)).trans f4)⟩

theorem lrg_deleteBlock {a : Str} {i : Nat} {mk : Bool} (w : s.WF) (hok : E.okName a = true) (ha : ¬ X a)
    (hn : s.names a = some i) :
    LRG E X (fun r s' => r = .ok () ∧ EffL X s s' a none) (deleteBlock a mk) s := by
  refine lrg_bind w (lrg_attempt (Q := fun r s' => r = .ok (.ok ()) ∧ EffL X s s' a none)
    (Q' := fun r s' => r = .ok () ∧ EffL X s s' a none) ?_
    fun r s' h => ⟨by rw [h.1], h.2⟩) ?_ (fun e s' h => by simp at h)
  · refine lrg_bind w (lrg_attach_some hok ha hn) ?_ (fun e s' h => by simp at h)
    rintro j s2 w2 ⟨_, r2⟩
    have n2 : s2.names a = some i := by rw [(r2.2 a ha).1]; exact hn
    refine lrg_mono (lrg_unlink ha n2) ?_
    rintro r s4 ⟨e, f⟩
    exact ⟨e, f.relyBefore r2⟩
  · rintro r s1 w1 ⟨h1, f1⟩
    injection h1 with h1
    subst h1
    exact fun s2 h2 => ⟨rfl, f1.rely h2⟩

theorem EffL.names_some {s1 s2 : Store} {a : Str} {v : Option Bytes} (h : EffL X s1 s2 a v) {x : Str} {i : Nat}
    (hx : ¬ X x) (hxa : x ≠ a) (hn : s1.names x = some i) : s2.names x = some i := by
  rw [h.names x hx hxa]; exact hn

theorem RLock.names_some {s1 s2 : Store} (h : RLock X s1 s2) {x : Str} {i : Nat}
    (hx : ¬ X x) (hn : s1.names x = some i) : s2.names x = some i := by
  rw [(h.2 x hx).1]; exact hn

theorem hash_ne_key (E : Env) (name : Str) (b : Bytes) (i : Nat) : hashAddr E name b ≠ keyAddr name i := by
  rw [addr_hash]; exact (key_ne_hash _ _ _).symm
theorem hash_ne_memory (E : Env) (name : Str) (b : Bytes) : hashAddr E name b ≠ name := by
  rw [addr_hash]; exact hash_ne_mem _ _

/-- removing a key that is listed -/
theorem lrg_indexDelSome (w : s.WF) {ix : Index} {keys : List Str} (h : IxRep E s ix keys)
    (hok : NamesOK E ix.name) (hX : OffX ix.name X) {key : Key} (hk : key.hashed E = E.utf8 key.text) {i : Nat}
    (hi : keys[i]? = some key.text) :
    LRG E X (fun r s' => r = .ok (i, keys.length) ∧ s'.WF ∧ IxRep E s' ix (swapRemove keys i)) (indexDel_ E ix key) s := by
  have hbound := h.bound
  have li : i < keys.length := by
    by_contra hc
    rw [List.getElem?_eq_none (by omega)] at hi; simp at hi
  rw [indexDel_, hk]
  refine lrg_bind w (lrg_check_some w h hok hX hi) ?_ (fun e s' h => by simp at h)
  rintro r s1 w1 ⟨h1, r1⟩
  injection h1 with h1
  subst h1
  have i1 := h.rely hX r1
  refine lrg_bind w1 (lrg_readLength w1 i1 hX) ?_ (fun e s' h => by simp at h)
  rintro n s2 w2 ⟨h2, r2⟩
  injection h2 with h2
  subst h2
  have i2 := i1.rely hX r2
  obtain ⟨hj, hhj, _⟩ := names_of_content (i2.hash i _ hi)
  by_cases hlast : i + 1 = keys.length
  · rw [if_neg (by simpa using hlast)]
    obtain ⟨kj, hkj, _⟩ := names_of_content (i2.key i _ hi)
    refine lrg_bind w2 (lrg_deleteBlock w2 (hok.key _ (by omega)) (hX.key _) hkj) ?_ (fun e s' h => by simp at h)
    rintro _ s3 w3 ⟨_, f3⟩
    have n3 := f3.names_some (hX.hash E _) (hash_ne_key _ _ _ _) hhj
    have m3 := f3.names_some hX.mem (key_ne_mem _ _).symm i2.mem
    refine lrg_bind w3 (lrg_deleteBlock w3 (hok.hash _) (hX.hash E _) n3) ?_ (fun e s' h => by simp at h)
    rintro _ s4 w4 ⟨_, f4⟩
    have m4 := f4.names_some hX.mem (hash_ne_memory E _ _).symm m3
    refine lrg_bind w4 (lrg_intBytes (show keys.length - 1 < 256 ^ 8 by omega)) ?_ (fun e s' h => by simp at h)
    rintro nb s5 w5 ⟨h5, r5⟩
    injection h5 with h5
    subst h5
    have m5 := r5.names_some hX.mem m4
    have l5 : (s5.segs ix.memory).length = 8 := by
      have hcm := content_some m5
      rw [(r5.2 _ hX.mem).2, f4.content _ hX.mem, if_neg (hash_ne_memory E _ _).symm, f3.content _ hX.mem,
        if_neg (key_ne_mem _ _).symm, content_some i2.mem, i2.len] at hcm
      injection hcm with hcm
      rw [← hcm]; simp
    refine lrg_bind w5 (lrg_write hX.mem m5 (by rw [l5]; simp)) ?_ (fun e s' h => by simp at h)
    rintro _ s6 w6 ⟨_, m6, f6⟩
    refine lrg_pure fun s' hr => ⟨rfl, hr.1, IxRep.rely (i2.removed hi m6 fun x hx0 => ?_) hX hr⟩
    have hx := hX x hx0
    have hil : keys.length - 1 = i := by omega
    rw [f6.content x hx, (r5.2 x hx).2, f4.content x hx, f3.content x hx, hil, hi]
    simp only [Option.map_some, Option.some.injEq]
    by_cases h1 : x = ix.name
    · simp [h1]
    · rw [if_neg h1, if_neg h1]
      by_cases h2 : x = hashAddr E ix.name (E.utf8 key.text)
      · simp [h2]
      · rw [if_neg h2, if_neg h2]
        by_cases h3 : x = keyAddr ix.name i
        · simp [h3]
        · rw [if_neg h3, if_neg h3, if_neg h3, if_neg (fun e => h2 e.symm)]
  · rw [if_pos (by simpa using hlast)]
    obtain ⟨l, hl⟩ : ∃ l, keys[keys.length - 1]? = some l := ⟨_, List.getElem?_eq_getElem (by omega)⟩
    have hlne : l ≠ [] := h.nonempty l (List.mem_of_getElem? hl)
    have hshane : E.sha (E.utf8 l) ≠ E.sha (E.utf8 key.text) := fun he => by
      have := h.sha_inj hl hi he; omega
    have hhne : hashAddr E ix.name (E.utf8 key.text) ≠ hashAddr E ix.name (E.utf8 l) := by
      rw [addr_hash, addr_hash, Ne, addr_inj, Slot.hash.injEq]; exact fun e => hshane e.symm
    have hkne : keyAddr ix.name (keys.length - 1) ≠ keyAddr ix.name i := by rw [Ne, key_eq]; omega
    obtain ⟨lj, hlj, hls⟩ := names_of_content (i2.key _ _ hl)
    obtain ⟨nj, hnj, hns⟩ := names_of_content (i2.hash _ _ hl)
    refine lrg_bind w2 (lrg_attach_some (hok.key _ (by omega)) (hX.key _) hlj) ?_ (fun e s' h => by simp at h)
    rintro lh s3 w3 ⟨h3, r3⟩
    injection h3 with h3
    subst h3
    refine lrg_bind w3 (lrg_read (hX.key _) (r3.names_some (hX.key _) hlj)) ?_ (fun e s' h => by simp at h)
    rintro lk s4 w4 ⟨h4, r4⟩
    injection h4 with h4
    have hlk : lk = E.utf8 l := by
      have := content_some (r3.names_some (hX.key _) hlj)
      rw [(r3.2 _ (hX.key _)).2, content_some hlj, hls] at this
      injection this with this
      rw [h4, ← this]
    subst hlk
    have r24 : RLock X s2 s4 := r3.trans _ _ _ r4
    refine lrg_bind w4 (lrg_openBlock_fresh w4 (by simp [utf8_ne_nil E hlne]) (hok.key i (by omega)) (hX.key _)) ?_
      (fun e s' h => by simp at h)
    rintro mh s5 w5 ⟨mi, h5, n5, f5⟩
    injection h5 with h5
    subst h5
    have c5 : s5.segs mh = List.replicate (E.utf8 l).length 0 := by
      have := f5.content _ (hX.key i)
      rw [content_some n5, if_pos rfl] at this
      injection this
    refine lrg_bind w5 (lrg_write (hX.key _) n5 (by rw [c5]; simp)) ?_ (fun e s' h => by simp at h)
    rintro _ s6 w6 ⟨_, n6, f6⟩
    have f26 : EffL X s2 s6 (keyAddr ix.name i) (some (E.utf8 l)) := (f5.relyBefore r24).trans f6
    have hn6 := f26.names_some (hX.hash E _) (hash_ne_key _ _ _ _) hnj
    refine lrg_bind w6 (lrg_attach_some (hok.hash _) (hX.hash E _) hn6) ?_ (fun e s' h => by simp at h)
    rintro nh s7 w7 ⟨h7, r7⟩
    injection h7 with h7
    subst h7
    refine lrg_bind w7 (lrg_intBytes (show i < 256 ^ 8 by omega)) ?_ (fun e s' h => by simp at h)
    rintro fb s8 w8 ⟨h8, r8⟩
    injection h8 with h8
    subst h8
    have f28 : EffL X s2 s8 (keyAddr ix.name i) (some (E.utf8 l)) := f26.rely (r7.trans _ _ _ r8)
    have hn8 := f28.names_some (hX.hash E _) (hash_ne_key _ _ _ _) hnj
    have l8 : (s8.segs nh).length = 8 := by
      have hcm := content_some hn8
      rw [f28.content _ (hX.hash E _), if_neg (hash_ne_key _ _ _ _), content_some hnj, hns] at hcm
      injection hcm with hcm
      rw [← hcm]; simp
    refine lrg_bind w8 (lrg_write (hX.hash E _) hn8 (by rw [l8]; simp)) ?_ (fun e s' h => by simp at h)
    rintro _ s9 w9 ⟨_, n9, f9⟩
    have hk9 : s9.names (keyAddr ix.name (keys.length - 1)) = some lh := by
      rw [f9.names _ (hX.key _) (hash_ne_key _ _ _ _).symm]
      exact f28.names_some (hX.key _) hkne hlj
    refine lrg_bind w9 (lrg_unlink (hX.key _) hk9) ?_ (fun e s' h => by simp at h)
    rintro _ s10 w10 ⟨_, f10⟩
    have m3 := f10.names_some hX.mem (key_ne_mem _ _).symm (f9.names_some hX.mem (hash_ne_memory E _ _).symm
          (f28.names_some hX.mem (key_ne_mem _ _).symm i2.mem))
    have n3 := f10.names_some (hX.hash E _) (hash_ne_key _ _ _ _) (f9.names_some (hX.hash E _) hhne
          (f28.names_some (hX.hash E _) (hash_ne_key _ _ _ _) hhj))
    have c3 : ∀ x, ¬ X x → s10.content x =
        if x = keyAddr ix.name (keys.length - 1) then none
        else if x = hashAddr E ix.name (E.utf8 l) then some (toLE 8 i)
        else if x = keyAddr ix.name i then some (E.utf8 l) else s2.content x := fun x hx => by
      rw [f10.content x hx, f9.content x hx, f28.content x hx]
    refine lrg_bind w10 (lrg_deleteBlock w10 (hok.hash _) (hX.hash E _) n3) ?_ (fun e s' h => by simp at h)
    rintro _ t4 v4 ⟨_, g4⟩
    have m4 := g4.names_some hX.mem (hash_ne_memory E _ _).symm m3
    refine lrg_bind v4 (lrg_intBytes (show keys.length - 1 < 256 ^ 8 by omega)) ?_ (fun e s' h => by simp at h)
    rintro nb t5 v5 ⟨h5, q5⟩
    injection h5 with h5
    subst h5
    have m5 := q5.names_some hX.mem m4
    have l5 : (t5.segs ix.memory).length = 8 := by
      have hcm := content_some m5
      rw [(q5.2 _ hX.mem).2, g4.content _ hX.mem, if_neg (hash_ne_memory E _ _).symm, c3 _ hX.mem,
        if_neg (key_ne_mem _ _).symm, if_neg (hash_ne_memory E _ _).symm, if_neg (key_ne_mem _ _).symm,
        content_some i2.mem, i2.len] at hcm
      injection hcm with hcm
      rw [← hcm]; simp
    refine lrg_bind v5 (lrg_write hX.mem m5 (by rw [l5]; simp)) ?_ (fun e s' h => by simp at h)
    rintro _ t6 v6 ⟨_, m6, g6⟩
    refine lrg_pure fun s' hr => ⟨rfl, hr.1, IxRep.rely (i2.removed hi m6 fun x hx0 => ?_) hX hr⟩
    have hx := hX x hx0
    rw [g6.content x hx, (q5.2 x hx).2, g4.content x hx, c3 x hx, hl]
    simp only [Option.map_some, Option.some.injEq]
    by_cases h1 : x = ix.name
    · simp [h1]
    · rw [if_neg h1, if_neg h1]
      by_cases h2 : x = hashAddr E ix.name (E.utf8 key.text)
      · simp [h2]
      · rw [if_neg h2, if_neg h2]
        by_cases h3 : x = keyAddr ix.name (keys.length - 1)
        · simp [h3]
        · rw [if_neg h3, if_neg h3]
          by_cases h4 : x = keyAddr ix.name i
          · rw [if_neg (by rw [h4]; exact (hash_ne_key _ _ _ _).symm), if_pos h4, if_pos h4]
          · rw [if_neg h4, if_neg h4]
            by_cases h5 : x = hashAddr E ix.name (E.utf8 l)
            · rw [if_pos h5, if_pos h5.symm]
            · rw [if_neg h5, if_neg (fun e => h5 e.symm)]

/-- removing a key that is not listed -/
theorem lrg_indexDelNone (w : s.WF) {ix : Index} {keys : List Str} (h : IxRep E s ix keys)
    (hok : NamesOK E ix.name) (hX : OffX ix.name X) {key : Key} (hk : key.hashed E = E.utf8 key.text)
    (habs : ∀ k' ∈ keys, E.sha (E.utf8 k') ≠ E.sha (E.utf8 key.text)) :
    LRG E X (fun r s' => r = .error .keyError ∧ s'.WF ∧ IxRep E s' ix keys) (indexDel_ E ix key) s := by
  rw [indexDel_, hk]
  refine lrg_bind w (lrg_check_none w hok hX (h.absent habs)) ?_ (fun e s' h => by simp at h)
  rintro r s1 w1 ⟨h1, r1⟩
  injection h1 with h1
  subst h1
  exact fun s' hr => ⟨rfl, hr.1, (h.rely hX r1).rely hX hr⟩

/-- adding a key that is listed, when that is not allowed -/
theorem lrg_indexAddRefused (w : s.WF) {ix : Index} {keys : List Str} (h : IxRep E s ix keys)
    (hok : NamesOK E ix.name) (hX : OffX ix.name X) {key : Key} (hk : key.hashed E = E.utf8 key.text) {i : Nat}
    (hi : keys[i]? = some key.text) :
    LRG E X (fun r s' => r = .error .fileExists ∧ s'.WF ∧ IxRep E s' ix keys) (indexAdd_ E ix key false) s := by
  rw [indexAdd_, hk]
  refine lrg_bind w (lrg_check_some w h hok hX hi) ?_ (fun e s' h => by simp at h)
  rintro r s1 w1 ⟨h1, r1⟩
  injection h1 with h1
  subst h1
  exact fun s' hr => ⟨rfl, hr.1, (h.rely hX r1).rely hX hr⟩

end Verif.Lemmas
