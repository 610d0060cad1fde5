import Verif.Lemmas.ClaimRun
import Verif.Lemmas.Meta
/-!
# A critical section that leaves more alone than the others may touch

`WRG E X Y Q p s`: the others touch blocks in `X` only; `p` leaves the blocks in `Y` alone. Adding a key with a value to an
index touches the blocks of that key only, and the length.
-/
namespace Verif.Lemmas
open Verif Verif.Model Verif.Spec
variable {E : Env} {α β : Type} {X Y : Str → Prop} {s : Store}

abbrev WRG (E : Env) (X Y : Str → Prop) (Q : Except PyErr α → Store → Prop) (p : Prog α) (s : Store) : Prop :=
  RG E (RLock X) (GLock Y) Q p s

theorem wrg_bind {G : Store → Store → Prop} {Q' : Except PyErr α → Store → Prop} {Q : Except PyErr β → Store → Prop} {p : Prog α}
    {f : α → Prog β} (w : s.WF) (h : RG E (RLock X) G Q' p s)
    (hok : ∀ a s', s'.WF → Q' (.ok a) s' → RG E (RLock X) G Q (f a) s') (herr : ∀ e s', Q' (.error e) s' → Q (.error e) s') :
    RG E (RLock X) G Q (p >>= f) s := by
  show RG E (RLock X) G Q (p.bind f) s
  induction p generalizing s with
  | ret a => exact hok a s w (h s (RLock.refl w))
  | raise e => exact fun s' hr => herr e s' (h s' hr)
  | stuck => trivial
  | op o k ih =>
    intro s' hr
    exact ⟨(h s' hr).1, ih _ (step_wf E o s' hr.1) (h s' hr).2⟩

theorem wrg_attempt {G : Store → Store → Prop} {Q' : Except PyErr α → Store → Prop}
    {Q : Except PyErr (Except PyErr α) → Store → Prop} {R : Store → Store → Prop} {p : Prog α} (h : RG E R G Q' p s)
    (hq : ∀ r s', Q' r s' → Q (.ok r) s') : RG E R G Q p.attempt s := by
  show RG E R G Q (Prog.catch_ (p.bind fun a => .ret (.ok a)) fun e => .ret (.error e)) s
  induction p generalizing s with
  | ret a => exact fun s' hr => hq _ s' (h s' hr)
  | raise e => exact fun s' hr => hq _ s' (h s' hr)
  | stuck => trivial
  | op o k ih => exact fun s' hr => ⟨(h s' hr).1, ih _ (h s' hr).2⟩

/-- a program that only looks leaves everything alone -/
theorem rg_of_looks {R G : Store → Store → Prop} {Q : Except PyErr α → Store → Prop} {p : Prog α} (hp : Looks p)
    (h : RG E R G Q p s) : RG E R (GLock Y) Q p s := by
  induction p generalizing s with
  | ret a => exact h
  | raise e => exact h
  | stuck => trivial
  | op o k ih =>
    intro s2 h2
    have key : (o.step E s2).2 = s2 := by
      cases o with
      | attach n => simp only [Op.step]; split <;> first | rfl | (split <;> rfl)
      | read h => rfl
      | _ => exact hp.elim
    refine ⟨by rw [key]; exact gLock_refl _, ?_⟩
    cases o with
    | attach n => exact ih _ (hp _) (h s2 h2).2
    | read h' => exact ih _ (hp _) (h s2 h2).2
    | _ => exact hp.elim

/-- what is outside `X`, and in `Y`, is as it was, all along -/
theorem rg_frame {Q : Except PyErr α → Store → Prop} {p : Prog α} (w : s.WF) (h : WRG E X Y Q p s) :
    RG E (RLock X) (fun a b => GLock Y a b ∧ SameOff (fun x => X x ∨ ¬ Y x) s a)
      (fun r s' => Q r s' ∧ SameOff (fun x => X x ∨ ¬ Y x) s s') p s := by
  suffices key : ∀ s1, s1.WF → SameOff (fun x => X x ∨ ¬ Y x) s s1 → WRG E X Y Q p s1 →
      RG E (RLock X) (fun a b => GLock Y a b ∧ SameOff (fun x => X x ∨ ¬ Y x) s a)
      (fun r s' => Q r s' ∧ SameOff (fun x => X x ∨ ¬ Y x) s s') p s1 from key s w (SameOff.refl _ _) h
  have step : ∀ {s1 s2}, SameOff (fun x => X x ∨ ¬ Y x) s s1 → RLock X s1 s2 → SameOff (fun x => X x ∨ ¬ Y x) s s2 :=
    fun h1 h2 => h1.trans (h2.2.mono fun _ h => Or.inl h)
  clear h
  induction p with
  | ret a => exact fun s1 _ h1 h s2 h2 => ⟨h s2 h2, step h1 h2⟩
  | raise e => exact fun s1 _ h1 h s2 h2 => ⟨h s2 h2, step h1 h2⟩
  | stuck => intros; trivial
  | op o k ih =>
    intro s1 w1 h1 h s2 h2
    obtain ⟨g, h3⟩ := h s2 h2
    refine ⟨⟨g, step h1 h2⟩, ih _ _ (step_wf E o s2 h2.1) ((step h1 h2).trans (SameOff.mono g fun _ h => Or.inr h)) h3⟩

/-! ## single operations -/

theorem wrg_write {a : Str} {i : Nat} {b : Bytes} (ha : ¬ X a) (hy : ¬ Y a) (hn : s.names a = some i)
    (hl : b.length = (s.segs i).length) :
    WRG E X Y (fun r s' => r = .ok () ∧ s'.names a = some i ∧ EffL X s s' a (some b)) (write i b) s := by
  intro s' hr
  have hn' : s'.names a = some i := by rw [(hr.2 a ha).1]; exact hn
  have hc := (hr.2 a ha).2
  rw [content_some hn', content_some hn] at hc
  injection hc with hc
  have e : (Op.write i b).step E s' = (.ok (), s'.wrote i b) := by
    simp only [Op.step]; rw [hc, if_pos hl]; rfl
  rw [e]
  have f := eff_wrote hr.1 hn' b
  exact ⟨gLock_of_eff f hy, fun s2 h2 => ⟨rfl, by rw [(h2.2 a ha).1]; exact hn', EffL.of hr f h2⟩⟩

theorem wrg_create {a : Str} {size : Nat} (hz : size ≠ 0) (hok : E.okName a = true) (ha : ¬ X a) (hy : ¬ Y a)
    (hn : s.names a = none) :
    WRG E X Y (fun r s' => ∃ i, r = .ok i ∧ s'.names a = some i ∧ EffL X s s' a (some (List.replicate size 0)))
      (create a size) s := by
  intro s' hr
  have hn' : s'.names a = none := by rw [(hr.2 a ha).1]; exact hn
  have e : (Op.create a size).step E s' = (.ok s'.next, s'.created a size) := by
    simp [Op.step, hz, hok, hn', Store.created]
  rw [e]
  have f := eff_created hr.1 a size
  exact ⟨gLock_of_eff f hy, fun s2 h2 => ⟨s'.next, rfl, by rw [(h2.2 a ha).1]; simp, EffL.of hr f h2⟩⟩

theorem wrg_openBlock_new {a : Str} {size : Nat} {ow : Bool} (w : s.WF) (hz : size ≠ 0) (hok : E.okName a = true)
    (ha : ¬ X a) (hy : ¬ Y a) (hn : s.names a = none) :
    WRG E X Y (fun r s' => ∃ i, r = .ok i ∧ s'.names a = some i ∧ EffL X s s' a (some (List.replicate size 0)))
      (openBlock a size true ow) s := by
  refine wrg_bind w (wrg_attempt (Q := fun r s' => ∃ i, r = .ok (.ok i) ∧ s'.names a = some i ∧
      EffL X s s' a (some (List.replicate size 0)))
    (wrg_create hz hok ha hy hn) ?_) ?_ (fun e s' h => by simp at h)
  · rintro r s' ⟨i, h1, h2⟩
    exact ⟨i, by rw [h1], h2⟩
  · rintro r s' w' ⟨i, h1, h2, h3⟩
    injection h1 with h1
    subst h1
    refine fun s2 h4 => ⟨i, rfl, by rw [(h4.2 a ha).1]; exact h2, ⟨h4.1, fun x hx => ?_, fun x hx hxa => ?_⟩⟩
    · rw [(h4.2 x hx).2, h3.content x hx]
    · rw [(h4.2 x hx).1, h3.names x hx hxa]

theorem wrg_intBytes {wd n : Nat} (h : n < 256 ^ wd) :
    WRG E X Y (fun r s' => r = .ok (toLE wd n) ∧ RLock X s s') (intBytes wd n) s := by
  rw [intBytes, if_pos h]
  exact fun s' hr => ⟨rfl, hr⟩

/-- storing an object touches its block only -/
theorem wrg_memorize {V : Type} {c : Codec V} {a : Str} {v : V} (w : s.WF) (hok : E.okName a = true) (ha : ¬ X a) (hy : ¬ Y a)
    {b : Bytes} (hb : c.encode v = .ok b) (hne : b ≠ []) :
    WRG E X Y (fun r s' => r = .ok a ∧ EffL X s s' a (some b)) (memorize c v a true) s := by
  have h := lrg_memorize (E := E) (c := c) (v := v) (eo := true) (Y := fun x => x ≠ a) w hok (fun h => h rfl) (fun b' h' => by
    rw [hb] at h'; injection h' with h'; rw [← h']; exact hne)
  have h := rg_mono (R' := RLock X) (G' := GLock fun x => x ≠ a)
    (fun s s' (hr : RLock X s s') => ⟨hr.1, fun x hx => hr.2 x (by rw [not_not.1 hx]; exact ha)⟩) (fun _ _ h => h) (fun _ _ h => h) h
  refine rg_mono (fun _ _ h => h) (fun s s' (hg : GLock _ s s' ∧ _) x hx => hg.1 x fun hc => hc fun e => hx fun hy' => hy (e ▸ hy')) ?_
    (rg_frame w h)
  rintro r s' ⟨⟨rfl, _, b', hb', he⟩ | ⟨⟨e, _, h1 | h1⟩, _⟩, hs⟩
  · rw [hb] at hb'; injection hb' with hb'; subst hb'
    refine ⟨rfl, he.wf, fun x hx => ?_, fun x hx hxa => (hs x fun hc => hc.elim hx fun h => h hxa).1⟩
    by_cases hxa : x = a
    · subst hxa; rw [if_pos rfl, he.content x (fun h => h rfl), if_pos rfl]
    · rw [if_neg hxa]; exact (hs x fun hc => hc.elim hx fun h => h hxa).2
  · exact absurd hb (h1 b)
  · cases h1.1

/-! ## adding a key with a value -/

/-- the blocks of the index are outside `X`, and so are those of its values -/
def OffM (name : Str) (X : Str → Prop) : Prop := ∀ x, metaNames name x → ¬ X x

theorem OffM.ix {name : Str} (h : OffM name X) : OffX name X := fun x hx => h x (index_meta hx)

theorem MetaRep.rely {s s' : Store} {ix : Index} {keys : List Str} {f : Str → Option Bytes} (h : MetaRep E s ix keys f)
    (hX : OffM ix.name X) (hr : RLock X s s') : MetaRep E s' ix keys f :=
  h.same hr.2 fun sl hsl => hX _ ⟨sl, hsl, rfl⟩

/-- the blocks written when a key is listed in slot `n` -/
def atKey (E : Env) (name k : Str) (n : Nat) (x : Str) : Prop :=
  x = name ∨ x = keyAddr name n ∨ x = hashAddr E name (E.utf8 k)

/-- the blocks written when a key is set in slot `n` -/
def atSlot (E : Env) (name k : Str) (n : Nat) (x : Str) : Prop :=
  x = name ∨ x = keyAddr name n ∨ x = hashAddr E name (E.utf8 k) ∨ x = valAddr name n

theorem looks_existsBlock (a : Str) : Looks (existsBlock a) := by
  refine looks_bind (looks_attempt (looks_attach _)) fun r => ?_
  split <;> trivial

theorem looks_check (ix : Index) (raw : Bytes) : Looks (check E ix raw) := by
  refine looks_bind (looks_existsBlock _) fun b => ?_
  cases b
  · trivial
  · exact looks_bind (looks_attach _) fun _ => looks_bind (looks_read _) fun _ => trivial

theorem looks_readLength (ix : Index) : Looks (readLength ix) := looks_bind (looks_read _) fun _ => trivial

theorem wrg_indexAddNew (w : s.WF) {ix : Index} {keys : List Str} (h : IxRep E s ix keys)
    (hok : NamesOK E ix.name) (hX : OffX ix.name X) {key : Key} (hk : key.hashed E = E.utf8 key.text) (hne : key.text ≠ [])
    (hb : keys.length + 1 < 256 ^ 8) (habs : ∀ k' ∈ keys, E.sha (E.utf8 k') ≠ E.sha (E.utf8 key.text))
    (existsOk : Bool) :
    WRG E X (fun x => ¬ atKey E ix.name key.text keys.length x)
      (fun r s' => r = .ok keys.length ∧ s'.WF ∧ IxRep E s' ix (keys ++ [key.text])) (indexAdd_ E ix key existsOk) s := by
  have y1 : ¬ ¬ atKey E ix.name key.text keys.length ix.name := not_not.2 (Or.inl rfl)
  have y2 : ¬ ¬ atKey E ix.name key.text keys.length (keyAddr ix.name keys.length) := not_not.2 (Or.inr (Or.inl rfl))
  have y3 : ¬ ¬ atKey E ix.name key.text keys.length (hashAddr E ix.name (E.utf8 key.text)) :=
    not_not.2 (Or.inr (Or.inr rfl))
  rw [indexAdd_, hk]
  refine wrg_bind w (rg_of_looks (looks_check _ _) (lrg_check_none w hok hX (h.absent habs))) ?_ (fun e s' h => by simp at h)
  rintro r s1 w1 ⟨h1, r1⟩
  injection h1 with h1
  subst h1
  have i1 := h.rely hX r1
  refine wrg_bind w1 (rg_of_looks (looks_readLength _) (lrg_readLength w1 i1 hX)) ?_ (fun e s' h => by simp at h)
  rintro n s2 w2 ⟨h2, r2⟩
  injection h2 with h2
  subst h2
  have i2 := i1.rely hX r2
  refine wrg_bind w2 (wrg_intBytes hb) ?_ (fun e s' h => by simp at h)
  rintro nb s3 w3 ⟨h3, r3⟩
  injection h3 with h3
  subst h3
  have i3 := i2.rely hX r3
  refine wrg_bind w3 (wrg_write hX.mem y1 i3.mem (by rw [i3.len]; simp)) ?_ (fun e s' h => by simp at h)
  rintro _ s4 w4 ⟨_, m4, f4⟩
  have k4 : s4.names (keyAddr ix.name keys.length) = none := by
    rw [f4.names _ (hX.key _) (key_ne_mem _ _)]; exact content_none.1 (i3.nokey _ (Nat.le_refl _))
  refine wrg_bind w4 (wrg_openBlock_new w4 (by simp [utf8_ne_nil E hne]) (hok.key _ (by omega)) (hX.key _) y2 k4)
    ?_ (fun e s' h => by simp at h)
  rintro kh s5 w5 ⟨i, h5, n5, f5⟩
  injection h5 with h5
  subst h5
  have c5 : s5.segs kh = List.replicate (E.utf8 key.text).length 0 := by
    have := f5.content _ (hX.key keys.length)
    rw [content_some n5, if_pos rfl] at this
    injection this
  refine wrg_bind w5 (wrg_write (hX.key _) y2 n5 (by rw [c5]; simp)) ?_ (fun e s' h => by simp at h)
  rintro _ s6 w6 ⟨_, n6, f6⟩
  refine wrg_bind w6 (wrg_intBytes (show keys.length < 256 ^ 8 by omega)) ?_ (fun e s' h => by simp at h)
  rintro pb s7 w7 ⟨h7, r7⟩
  injection h7 with h7
  subst h7
  have kh' : hashAddr E ix.name (E.utf8 key.text) ≠ keyAddr ix.name keys.length := by
    rw [addr_hash]; exact (key_ne_hash _ _ _).symm
  have mh' : hashAddr E ix.name (E.utf8 key.text) ≠ ix.name := by rw [addr_hash]; exact hash_ne_mem _ _
  have hn7 : s7.names (hashAddr E ix.name (E.utf8 key.text)) = none := by
    rw [(r7.2 _ (hX.hash E _)).1, f6.names _ (hX.hash E _) kh', f5.names _ (hX.hash E _) kh',
      f4.names _ (hX.hash E _) mh']
    exact content_none.1 (i3.absent habs)
  refine wrg_bind w7 (wrg_openBlock_new w7 (by omega) (hok.hash _) (hX.hash E _) y3 hn7) ?_
    (fun e s' h => by simp at h)
  rintro nh s8 w8 ⟨i, h8, n8, f8⟩
  injection h8 with h8
  subst h8
  have c8 : s8.segs nh = List.replicate 8 0 := by
    have := f8.content _ (hX.hash E (E.utf8 key.text))
    rw [content_some n8, if_pos rfl] at this
    injection this
  refine wrg_bind w8 (wrg_write (hX.hash E _) y3 n8 (by rw [c8]; simp)) ?_ (fun e s' h => by simp at h)
  rintro _ s9 w9 ⟨_, n9, f9⟩
  show WRG E X _ _ (.ret _) s9
  refine fun s' hr => ⟨rfl, hr.1, IxRep.rely ?_ hX hr⟩
  refine i3.added hne hb habs ?_ (fun x hx0 => ?_)
  · rw [f9.names _ hX.mem mh'.symm, f8.names _ hX.mem mh'.symm, (r7.2 _ hX.mem).1,
      f6.names _ hX.mem (key_ne_mem _ _).symm, f5.names _ hX.mem (key_ne_mem _ _).symm]
    exact m4
  · have hx := hX x hx0
    rw [f9.content x hx, f8.content x hx, (r7.2 x hx).2, f6.content x hx, f5.content x hx, f4.content x hx]
    by_cases h1 : x = hashAddr E ix.name (E.utf8 key.text)
    · simp only [h1, if_true]
    · simp only [if_neg h1]
      by_cases h2 : x = keyAddr ix.name keys.length
      · simp only [h2, if_true]
      · simp only [if_neg h2]

/-- the value of a key is replaced, while others touch blocks in `X` -/
theorem MetaRep.storedL {s s' : Store} {ix : Index} {keys : List Str} {f : Str → Option Bytes} (h : MetaRep E s ix keys f)
    (hX : OffM ix.name X) {i : Nat} {k : Str} (hi : keys[i]? = some k) {o : Option Bytes}
    (hf : EffL X s s' (valAddr ix.name i) o) : MetaRep E s' ix keys (upd f k o) := by
  have li := lt_of_getElem? hi
  have hm : ∀ j, ¬ X (valAddr ix.name j) := fun j => hX _ (metaNames_val _ j)
  refine ⟨h.rep.same (P := fun x => X x ∨ x = valAddr ix.name i) (fun x hx => ?_) ?_, ?_, ?_⟩
  · have h1 : ¬ X x := fun h => hx (Or.inl h)
    have h2 : x ≠ valAddr ix.name i := fun h => hx (Or.inr h)
    exact ⟨hf.names x h1 h2, by rw [hf.content x h1, if_neg h2]⟩
  · rintro sl hsl (he | he)
    · exact hX.ix _ ⟨sl, hsl, rfl⟩ he
    · exact val_not_index ix.name i (he ▸ ⟨sl, hsl, rfl⟩)
  · intro j k' hj
    rw [hf.content _ (hm j), upd]
    by_cases hij : j = i
    · subst hij
      rw [hi] at hj
      injection hj with hj
      rw [if_pos rfl, if_pos hj.symm]
    · rw [if_neg (by rw [val_eq]; exact hij), if_neg, h.val j k' hj]
      rintro rfl
      exact hij (h.rep.sha_inj hj hi rfl)
  · intro j hj
    rw [hf.content _ (hm j), if_neg (by rw [val_eq]; omega)]
    exact h.noval j hj

/-- a key is listed without a value, while others touch blocks in `X` -/
theorem MetaRep.listedL {s s' : Store} {ix : Index} {keys : List Str} {f : Str → Option Bytes} (h : MetaRep E s ix keys f)
    (hX : OffM ix.name X) {k : Str} (hr : IxRep E s' ix (keys ++ [k]))
    (hs : ∀ i, s'.content (valAddr ix.name i) = s.content (valAddr ix.name i)) :
    MetaRep E s' ix (keys ++ [k]) (upd f k none) := by
  have hnd := hr.nodup
  refine ⟨hr, ?_, ?_⟩
  · intro i k' hi
    rw [hs, upd]
    by_cases hl : i < keys.length
    · rw [List.getElem?_append_left hl] at hi
      rw [if_neg, h.val i k' hi]
      rintro rfl
      have := List.mem_of_getElem? hi
      rw [List.nodup_append] at hnd
      exact hnd.2.2 _ this _ List.mem_cons_self rfl
    · rw [List.getElem?_append_right (by omega)] at hi
      have : k' = k := by
        have := List.mem_of_getElem? hi
        simpa using this
      rw [if_pos this]
      exact h.noval i (by omega)
  · intro i hi
    rw [List.length_append, List.length_singleton] at hi
    rw [hs]
    exact h.noval i (by omega)

/-- what happens inside the lock when a key is set with a value (implements.py:571-574) -/
def metaBody {M : Type} (E : Env) (c : Codec M) (ix : Index) (key : Key) (v : M) : Prog Nat := do
  let w ← indexAdd_ E ix key true
  let _ ← memorize c v (valAddr ix.name w) true
  pure w

/-- the slot of a key, once it is set -/
def metaPlace (keys : List Str) (k : Str) : Nat := (position k keys).getD keys.length

theorem wrg_metaBody {M : Type} {c : Codec M} (w : s.WF) {ix : Index} {keys : List Str} {f : Str → Option Bytes}
    (h : MetaRep E s ix keys f) (hok : NamesOK E ix.name) (hX : OffM ix.name X) {key : Key} (hk : key.hashed E = E.utf8 key.text)
    (hne : key.text ≠ []) (hb : key.text ∉ keys → keys.length + 1 < 256 ^ 8)
    (hinj : ∀ k' ∈ keys, E.sha (E.utf8 k') = E.sha (E.utf8 key.text) → k' = key.text) {v : M} {b : Bytes}
    (he : c.encode v = .ok b) (hbne : b ≠ []) :
    WRG E X (fun x => ¬ atSlot E ix.name key.text (metaPlace keys key.text) x)
      (fun r s' => r = .ok (metaPlace keys key.text) ∧ MetaRep E s' ix (ixAdd keys key.text true).2 (upd f key.text (some b)))
      (metaBody E c ix key v) s := by
  have hval : ∀ i, ¬ X (valAddr ix.name i) := fun i => hX _ (metaNames_val _ i)
  have tail : ∀ keys' f' n s1, n < 256 ^ 8 → s1.WF → MetaRep E s1 ix keys' f' → keys'[n]? = some key.text → n = metaPlace keys key.text →
      keys' = (ixAdd keys key.text true).2 → upd f' key.text (some b) = upd f key.text (some b) →
      WRG E X (fun x => ¬ atSlot E ix.name key.text (metaPlace keys key.text) x)
        (fun r s' => r = .ok (metaPlace keys key.text) ∧ MetaRep E s' ix (ixAdd keys key.text true).2 (upd f key.text (some b)))
        (memorize c v (valAddr ix.name n) true >>= fun _ => (pure n : Prog Nat)) s1 := by
    intro keys' f' n s1 hn w1 h1 hi e1 e2 e3
    refine wrg_bind w1 (wrg_memorize w1 (hok.val _ hn) (hval n) (not_not.2 (Or.inr (Or.inr (Or.inr (by rw [e1]))))) he hbne) ?_
      (fun e s' h => by cases h.1)
    rintro _ s2 w2 ⟨_, f2⟩
    intro s3 h3
    refine ⟨by rw [← e1], ?_⟩
    rw [← e2, ← e3]
    exact (h1.storedL hX hi f2).rely hX h3
  unfold metaBody
  cases hp : position key.text keys with
  | some i =>
    have hi := position_some hp
    have li := lt_of_getElem? hi
    have es : metaPlace keys key.text = i := by simp [metaPlace, hp]
    refine wrg_bind (Q' := fun r s' => r = .ok i ∧ RLock X s s') w ?_ ?_ (fun e s' h => by cases h.1)
    · rw [indexAdd_, hk]
      refine wrg_bind w (rg_of_looks (looks_check _ _) (lrg_check_some w h.rep hok hX.ix hi)) ?_ (fun e s' h => by simp at h)
      rintro r s1 w1 ⟨h1, r1⟩
      injection h1 with h1
      subst h1
      exact fun s' hr => ⟨rfl, r1.trans _ _ _ hr⟩
    · rintro n s1 w1 ⟨h1, r1⟩
      injection h1 with h1
      subst h1
      exact tail keys f n s1 (by have := h.rep.bound; omega) w1 (h.rely hX r1) hi es.symm (by simp [ixAdd, hp]) rfl
  | none =>
    have hmem := position_none.1 hp
    have hb := hb hmem
    have es : metaPlace keys key.text = keys.length := by simp [metaPlace, hp]
    have hadd := wrg_indexAddNew w h.rep hok hX.ix hk hne hb
      (fun k' hk' e => hmem (hinj k' hk' e ▸ hk')) true
    refine wrg_bind w (rg_mono (fun _ _ h => h) ?_ (fun _ _ h => h) (rg_frame w hadd)) ?_ (fun e s' h => by cases h.1.1)
    · rintro a a' ⟨hg, _⟩ x hx
      refine hg x fun hc => hx fun ha => hc ?_
      rw [es] at ha
      exact fun hk' => ha (hk'.elim Or.inl fun h => h.elim (fun h => Or.inr (Or.inl h)) fun h => Or.inr (Or.inr (Or.inl h)))
    · rintro n s1 w1 ⟨⟨h1, _, h2⟩, hs⟩
      injection h1 with h1
      subst h1
      refine tail _ _ _ s1 (by omega) w1 (h.listedL hX h2 fun i => ?_) (by simp) es.symm (by simp [ixAdd, hp]) (by rw [upd_upd])
      refine (hs _ fun hc => hc.elim (hval i) fun h => h fun hk' => val_not_index ix.name i ?_).2
      rcases hk' with h | h | h
      · rw [h]; exact indexNames_mem _
      · rw [h]; exact indexNames_key _ _
      · rw [h]; exact indexNames_hash _ _ _

end Verif.Lemmas
