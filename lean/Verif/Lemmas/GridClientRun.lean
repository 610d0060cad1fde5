import Verif.Lemmas.GridClients
/-!
# Processes that share a GridPaper, whatever the others do
-/
namespace Verif.Lemmas
open Verif Verif.Model Verif.Spec
variable {E : Env} {α β ρ : Type} {c : Codec ArrMeta} {nbytes : Str → List Nat → Nat}

/-! ## reading -/

section
variable {X : Str → Prop} {s : Store}

/-- a block is opened and read, and something is done with what is there -/
theorem lrg_fetch {Q : Except PyErr β → Store → Prop} {a : Str} {b : Bytes} {f : Bytes → Prog β} (w : s.WF)
    (hok : E.okName a = true) (ha : ¬ X a) (hb : s.content a = some b)
    (hf : ∀ s', RLock X s s' → LRG E X Q (f b) s') : LRG E X Q (attach a >>= fun h => read h >>= f) s := by
  obtain ⟨i, hi, his⟩ := names_of_content hb
  refine lrg_bind w (lrg_attach_some hok ha hi) ?_ (fun e s' h => by cases h.1)
  rintro j s1 w1 ⟨h1, r1⟩
  injection h1 with h1
  subst h1
  have hi1 : s1.names a = some j := by rw [(r1.2 a ha).1]; exact hi
  refine lrg_bind w1 (lrg_read ha hi1) ?_ (fun e s' h => by cases h.1)
  rintro b' s2 w2 ⟨h2, r2⟩
  injection h2 with h2
  have e := (r1.2 a ha).2
  rw [hb, content_some hi1] at e
  injection e with e
  subst h2
  rw [e]
  exact hf s2 (r1.trans _ _ _ r2)

theorem lrg_check_at (w : s.WF) {ix : Index} (hok : NamesOK E ix.name) {raw : Bytes} (hX : ¬ X (hashAddr E ix.name raw)) {n : Nat}
    (hn : n < 256 ^ 8) (h : s.content (hashAddr E ix.name raw) = some (toLE 8 n)) :
    LRG E X (fun r s' => r = .ok (some n) ∧ RLock X s s') (check E ix raw) s := by
  obtain ⟨i, hi, _⟩ := names_of_content h
  refine lrg_bind w (lrg_existsBlock w (hok.hash _) hX) ?_ (fun e s' h => by simp at h)
  rintro r s1 w1 ⟨h1, r1⟩
  rw [hi] at h1
  injection h1 with h1
  subst h1
  show LRG E X _ (attach _ >>= fun h => read h >>= _) s1
  refine lrg_fetch w1 (hok.hash _) hX (by rw [(r1.2 _ hX).2]; exact h) fun s2 r2 s3 r3 => ?_
  exact ⟨by rw [fromLE_toLE _ _ hn], r1.trans _ _ _ (r2.trans _ _ _ r3)⟩

theorem lrg_check_out (w : s.WF) {ix : Index} (hok : NamesOK E ix.name) {raw : Bytes} (hX : ¬ X (hashAddr E ix.name raw))
    (h : s.content (hashAddr E ix.name raw) = none) :
    LRG E X (fun r s' => r = .ok none ∧ RLock X s s') (check E ix raw) s := by
  refine lrg_bind w (lrg_existsBlock w (hok.hash _) hX) ?_ (fun e s' h => by simp at h)
  rintro r s1 w1 ⟨h1, r1⟩
  rw [content_none.1 h] at h1
  injection h1 with h1
  subst h1
  exact lrg_pure fun s' hr => ⟨rfl, RLock.trans _ _ _ r1 hr⟩

theorem lrg_gridGet_some (w : s.WF) {g : Grid} (hok : NamesOK E g.index.name) {key : Key} (hk : key.hashed E = E.utf8 key.text)
    {pre : Str} (hokp : E.okName (padAddr pre key.text) = true)
    (hX1 : ¬ X (hashAddr E g.index.name (E.utf8 key.text))) {n : Nat} (hn : n < 256 ^ 8)
    (h1 : s.content (hashAddr E g.index.name (E.utf8 key.text)) = some (toLE 8 n)) (hX2 : ¬ X (valAddr g.index.name n)) {b : Bytes}
    (h2 : s.content (valAddr g.index.name n) = some b) {a : Arr} (hd : c.decode b = .ok (metaOf pre key.text a))
    (hX3 : ¬ X (padAddr pre key.text)) {rest : Bytes} (h3 : s.content (padAddr pre key.text) = some (a.data ++ rest))
    (hsz : nbytes a.dtype a.shape = a.data.length) :
    LRG E X (fun r s' => r = .ok (.val a) ∧ RLock X s s') ((GpCall.get key).run E c nbytes g) s := by
  show LRG E X _ (gridGet E c nbytes g key >>= fun a => .ret (GpOut.val a)) s
  refine lrg_bind (Q' := fun r s' => r = .ok a ∧ RLock X s s') w ?_ ?_ (fun e s' h => by cases h.1)
  · unfold gridGet
    refine lrg_bind (Q' := fun r s' => r = .ok (.ok a) ∧ RLock X s s') w (lrg_attempt
      (Q' := fun r s' => r = .ok a ∧ RLock X s s') ?_ fun r s' h => ⟨by rw [h.1], h.2⟩) ?_ (fun e s' h => by cases h.1)
    · refine lrg_bind (Q' := fun r s' => r = .ok b ∧ RLock X s s') w ?_ ?_ (fun e s' h => by cases h.1)
      · unfold metaGet
        rw [hk]
        refine lrg_bind w (lrg_check_at w hok hX1 hn h1) ?_ (fun e s' h => by cases h.1)
        rintro r s1 w1 ⟨e1, r1⟩
        injection e1 with e1
        subst e1
        have h2' : s1.content (valAddr g.index.name n) = some b := by rw [(r1.2 _ hX2).2]; exact h2
        obtain ⟨j, hj, hjs⟩ := names_of_content h2'
        refine lrg_bind w1 (lrg_attach_some (hok.val _ hn) hX2 hj) ?_ (fun e s' h => by cases h.1)
        rintro j' s2 w2 ⟨e2, r2⟩
        injection e2 with e2
        subst e2
        have hj2 : s2.names (valAddr g.index.name n) = some j' := by rw [(r2.2 _ hX2).1]; exact hj
        have hc2 : s2.content (valAddr g.index.name n) = some b := by rw [(r2.2 _ hX2).2]; exact h2'
        rw [content_some hj2] at hc2
        injection hc2 with hc2
        exact lrg_mono (lrg_read hX2 hj2) fun r s3 h3 => ⟨by rw [h3.1, hc2], r1.trans _ _ _ (r2.trans _ _ _ h3.2)⟩
      · rintro b' s1 w1 ⟨e1, r1⟩
        injection e1 with e1
        subst e1
        unfold rememberArray
        rw [hd]
        show LRG E X _ (attach (padAddr pre key.text) >>= fun h => read h >>= _) s1
        refine lrg_fetch w1 hokp hX3 (by rw [(r1.2 _ hX3).2]; exact h3) fun s2 r2 => ?_
        have hsz' : nbytes (metaOf pre key.text a).dtype (metaOf pre key.text a).shape = a.data.length := hsz
        rw [hsz', if_neg (by rw [List.length_append]; omega)]
        exact fun s3 h3 => ⟨by simp [metaOf], r1.trans _ _ _ (r2.trans _ _ _ h3)⟩
    · rintro r s1 w1 ⟨e1, r1⟩
      injection e1 with e1
      subst e1
      exact fun s2 h2 => ⟨rfl, r1.trans _ _ _ h2⟩
  · rintro a' s1 w1 ⟨e1, r1⟩
    injection e1 with e1
    subst e1
    exact fun s2 h2 => ⟨rfl, r1.trans _ _ _ h2⟩

theorem lrg_gridGet_none (w : s.WF) {g : Grid} (hok : NamesOK E g.index.name) {key : Key} (hk : key.hashed E = E.utf8 key.text)
    (hX1 : ¬ X (hashAddr E g.index.name (E.utf8 key.text))) (h1 : s.content (hashAddr E g.index.name (E.utf8 key.text)) = none) :
    LRG E X (fun r s' => r = .error .keyError ∧ RLock X s s') ((GpCall.get key).run E c nbytes g) s := by
  show LRG E X _ (gridGet E c nbytes g key >>= fun a => .ret (GpOut.val a)) s
  refine lrg_bind (Q' := fun r s' => r = .error .keyError ∧ RLock X s s') w ?_ (fun a s' _ h => by cases h.1)
    (fun e s' h => ⟨by injection h.1 with h1; rw [h1], h.2⟩)
  unfold gridGet
  refine lrg_bind (Q' := fun r s' => r = .ok (.error .keyError) ∧ RLock X s s') w (lrg_attempt
    (Q' := fun r s' => r = .error .keyError ∧ RLock X s s') ?_ fun r s' h => ⟨by rw [h.1], h.2⟩) ?_ (fun e s' h => by cases h.1)
  · refine lrg_bind (Q' := fun r s' => r = .error .keyError ∧ RLock X s s') w ?_ (fun a s' _ h => by cases h.1)
      (fun e s' h => ⟨by injection h.1 with h1; rw [h1], h.2⟩)
    unfold metaGet
    rw [hk]
    refine lrg_bind w (lrg_check_out w hok hX1 h1) ?_ (fun e s' h => by cases h.1)
    rintro r s1 w1 ⟨e1, r1⟩
    injection e1 with e1
    subst e1
    exact fun s2 h2 => ⟨rfl, r1.trans _ _ _ h2⟩
  · rintro r s1 w1 ⟨e1, r1⟩
    injection e1 with e1
    subst e1
    exact fun s2 h2 => ⟨rfl, r1.trans _ _ _ h2⟩

theorem looks_gridGet (g : Grid) (k : Key) : Looks ((GpCall.get k).run E c nbytes g) := by
  show Looks (gridGet E c nbytes g k >>= fun a => .ret (GpOut.val a))
  refine looks_bind ?_ fun _ => trivial
  unfold gridGet metaGet rememberArray
  refine looks_bind (looks_attempt (looks_bind (looks_bind (looks_check _ _) fun r => ?_) fun b => ?_)) fun r => ?_
  · cases r with
    | none => trivial
    | some i => exact looks_bind (looks_attach _) fun _ => looks_read _
  · refine looks_bind (looks_ofExcept _) fun m => looks_bind (looks_attach _) fun _ => looks_bind (looks_read _) fun buf => ?_
    split <;> trivial
  · split <;> trivial

theorem looks_gridKeys (g : Grid) : Looks (GpCall.keys.run E c nbytes g) := by
  show Looks (indexUpdate E g.index >>= fun l => .ret (GpOut.keys l))
  refine looks_bind ?_ fun _ => trivial
  refine looks_bind (looks_bind (looks_read _) fun _ => trivial) fun n => ?_
  generalize 0 = i
  induction n generalizing i with
  | zero => trivial
  | succ n ih => exact looks_bind (looks_loadKey _ _) fun _ => looks_bind (ih _) fun _ => trivial

/-! ## writing an array -/

theorem lrg_writeFront {a : Str} {i : Nat} {b : Bytes} (ha : ¬ X a) (hn : s.names a = some i) :
    LRG E X (fun r s' => r = .ok () ∧ EffL X s s' a (some (b ++ (s.segs i).drop b.length))) (writeFront i b) s := by
  intro s' hr
  have hn' : s'.names a = some i := by rw [(hr.2 a ha).1]; exact hn
  have hc := (hr.2 a ha).2
  rw [content_some hn', content_some hn] at hc
  injection hc with hc
  have e : (Op.writeFront i b).step E s' = (.ok (), s'.wrote i (b ++ (s.segs i).drop b.length)) := by
    simp only [Op.step, hc]; rfl
  rw [e]
  have f := eff_wrote hr.1 hn' (b ++ (s.segs i).drop b.length)
  exact ⟨gLock_of_eff f ha, fun s2 h2 => ⟨rfl, EffL.of hr f h2⟩⟩

theorem lrg_openBlock_attach {a : Str} {size : Nat} (w : s.WF) (hz : size ≠ 0) (hok : E.okName a = true)
    (ha : ¬ X a) {i : Nat} (hn : s.names a = some i) :
    LRG E X (fun r s' => r = .ok i ∧ RLock X s s') (openBlock a size true false) s := by
  refine lrg_bind w (lrg_attempt (Q := fun r s' => r = .ok (.error .fileExists) ∧ RLock X s s')
    (Q' := fun r s' => r = .error .fileExists ∧ RLock X s s') ?_ fun r s' h => ⟨by rw [h.1], h.2⟩) ?_ (fun e s' h => by cases h.1)
  · intro s' hr
    have hn' : s'.names a = some i := by rw [(hr.2 a ha).1]; exact hn
    have e : (Op.create a size).step E s' = (.error .fileExists, s') := by simp [Op.step, hz, hok, hn']
    rw [e]
    exact ⟨gLock_refl _, fun s2 h2 => ⟨rfl, hr.trans _ _ _ h2⟩⟩
  · rintro r s1 w1 ⟨h1, r1⟩
    injection h1 with h1
    subst h1
    exact lrg_mono (lrg_attach_some hok ha (by rw [(r1.2 a ha).1]; exact hn)) fun r s2 h2 => ⟨h2.1, r1.trans _ _ _ h2.2⟩

/-- what `memorize_array` does to a block: `o` is what was there -/
def arrInto (a : Arr) : Option Bytes → Option Bytes
  | none => some a.data
  | some b => if a.data.length ≤ b.length then some (a.data ++ b.drop a.data.length) else some b

/-- how it ends -/
def arrEnds (a : Arr) : Option Bytes → Except PyErr GpOut
  | none => .ok .done
  | some b => if a.data.length ≤ b.length then .ok .done else .error .typeError

theorem lrg_memorizeArray {a : Arr} {addr : Str} (w : s.WF) (hok : E.okName addr = true) (hX : ¬ X addr) (hd : a.data ≠ [])
    (hdim : a.shape ≠ []) :
    LRG E X (fun r s' => r = arrEnds a (s.content addr) ∧ EffL X s s' addr (arrInto a (s.content addr)))
      ((memorizeArray a addr true).bind fun _ => .ret .done) s := by
  have hz : a.data.length ≠ 0 := by simpa using hd
  show LRG E X _ (memorizeArray a addr true >>= fun _ => .ret GpOut.done) s
  have tail : ∀ i s1 o, s1.WF → s1.names addr = some i → a.data.length ≤ (s1.segs i).length →
      (∀ s2, EffL X s1 s2 addr (some (a.data ++ (s1.segs i).drop a.data.length)) → EffL X s s2 addr (arrInto a o)) →
      LRG E X (fun r s' => r = .ok (ArrMeta.mk addr a.dtype a.shape a.data.length) ∧ EffL X s s' addr (arrInto a o))
        (read i >>= fun buf => if buf.length < a.data.length then .raise .typeError else if a.shape = [] then .raise .indexError
          else writeFront i a.data >>= fun _ => pure (ArrMeta.mk addr a.dtype a.shape a.data.length)) s1 := by
    intro i s1 o w1 hn hl hq
    refine lrg_bind w1 (lrg_read hX hn) ?_ (fun e s' h => by cases h.1)
    rintro buf s2 w2 ⟨h2, r2⟩
    injection h2 with h2
    subst h2
    rw [if_neg (by omega), if_neg hdim]
    have hn2 : s2.names addr = some i := by rw [(r2.2 _ hX).1]; exact hn
    have hc2 := (r2.2 addr hX).2
    rw [content_some hn2, content_some hn] at hc2
    injection hc2 with hc2
    refine lrg_bind w2 (lrg_writeFront hX hn2) ?_ (fun e s' h => by cases h.1)
    rintro _ s3 w3 ⟨_, f3⟩
    rw [hc2] at f3
    exact fun s4 h4 => ⟨rfl, hq s4 ((f3.relyBefore r2).rely h4)⟩
  cases hc : s.content addr with
  | none =>
    refine lrg_bind (Q' := fun r s' => r = .ok (ArrMeta.mk addr a.dtype a.shape a.data.length) ∧ EffL X s s' addr (arrInto a none)) w ?_
      (fun m s1 w1 h1 s2 h2 => ⟨rfl, h1.2.rely h2⟩) (fun e s' h => by cases h.1)
    unfold memorizeArray
    refine lrg_bind w (lrg_openBlock_new w hz hok hX (content_none.1 hc)) ?_ (fun e s' h => by obtain ⟨i, h, _⟩ := h; cases h)
    rintro j s1 w1 ⟨i, h1, n1, f1⟩
    injection h1 with h1
    subst h1
    have g1 : s1.segs j = List.replicate a.data.length 0 := by
      have := f1.content addr hX
      rw [if_pos rfl, content_some n1] at this
      injection this
    refine tail j s1 none w1 n1 (by rw [g1]; simp) fun s2 f2 => ?_
    rw [g1] at f2
    have := f1.trans f2
    simpa [arrInto] using this
  | some b =>
    obtain ⟨i, hi, his⟩ := names_of_content hc
    by_cases hfit : a.data.length ≤ b.length
    · refine lrg_bind (Q' := fun r s' => r = .ok (ArrMeta.mk addr a.dtype a.shape a.data.length) ∧ EffL X s s' addr (arrInto a (some b))) w ?_
        (fun m s1 w1 h1 s2 h2 => ⟨by simp [arrEnds, hfit], h1.2.rely h2⟩) (fun e s' h => by cases h.1)
      unfold memorizeArray
      refine lrg_bind w (lrg_openBlock_attach w hz hok hX hi) ?_ (fun e s' h => by cases h.1)
      rintro j s1 w1 ⟨h1, r1⟩
      injection h1 with h1
      subst h1
      have hi1 : s1.names addr = some j := by rw [(r1.2 _ hX).1]; exact hi
      have hc1 := (r1.2 addr hX).2
      rw [content_some hi1, content_some hi, his] at hc1
      injection hc1 with hc1
      refine tail j s1 (some b) w1 hi1 (by rw [hc1]; exact hfit) fun s2 f2 => ?_
      rw [hc1] at f2
      simpa [arrInto, hfit] using f2.relyBefore r1
    · refine lrg_bind (Q' := fun r s' => r = .error .typeError ∧ RLock X s s') w ?_
        (fun m s1 w1 h1 => by cases h1.1) (fun e s' h => ?_)
      · unfold memorizeArray
        refine lrg_bind w (lrg_openBlock_attach w hz hok hX hi) ?_ (fun e s' h => by cases h.1)
        rintro j s1 w1 ⟨h1, r1⟩
        injection h1 with h1
        subst h1
        have hi1 : s1.names addr = some j := by rw [(r1.2 _ hX).1]; exact hi
        have hc1 := (r1.2 addr hX).2
        rw [content_some hi1, content_some hi, his] at hc1
        injection hc1 with hc1
        refine lrg_bind w1 (lrg_read hX hi1) ?_ (fun e s' h => by cases h.1)
        rintro buf s2 w2 ⟨h2, r2⟩
        injection h2 with h2
        subst h2
        rw [if_pos (by rw [hc1]; omega)]
        exact fun s3 h3 => ⟨rfl, r1.trans _ _ _ (r2.trans _ _ _ h3)⟩
      · obtain ⟨h1, hr⟩ := h
        injection h1 with h1
        subst h1
        refine ⟨by simp [arrEnds, hfit], hr.1, fun x hx => ?_, fun x hx _ => (hr.2 x hx).1⟩
        rw [(hr.2 x hx).2]
        split
        · rename_i e; rw [e, hc]; simp [arrInto, hfit]
        · rfl

end

/-! ## relying on more, as long as something holds -/

theorem rg_inv {R R' G : Store → Store → Prop} {I : Store → Prop} {Q : Except PyErr α → Store → Prop} {p : Prog α} {s : Store}
    (hR : ∀ a b, I a → R' a b → R a b ∧ I b) (hG : ∀ a b, I a → G a b → I b) (hI : I s) (h : RG E R G Q p s) :
    RG E R' G (fun r s' => Q r s' ∧ I s') p s := by
  induction p generalizing s with
  | ret a => exact fun s' hr => ⟨h s' (hR _ _ hI hr).1, (hR _ _ hI hr).2⟩
  | raise e => exact fun s' hr => ⟨h s' (hR _ _ hI hr).1, (hR _ _ hI hr).2⟩
  | stuck => trivial
  | op o k ih =>
    intro s' hr
    obtain ⟨h1, h2⟩ := hR _ _ hI hr
    exact ⟨(h s' h1).1, ih _ (hG _ _ h2 (h s' h1).1) (h s' h1).2⟩

/-! ## what a process knows -/

/-- the block of a key holds this array, and has this size -/
def PadIs (pre : Str) (s : Store) (k : Str) : Option (Arr × Nat) → Prop
  | none => s.content (padAddr pre k) = none
  | some (a, room) => ∃ rest, s.content (padAddr pre k) = some (a.data ++ rest) ∧ a.data.length + rest.length = room

theorem PadIs.same {pre : Str} {s s' : Store} {k : Str} {o : Option (Arr × Nat)} (h : PadIs pre s k o)
    (e : s'.content (padAddr pre k) = s.content (padAddr pre k)) : PadIs pre s' k o := by
  cases o with
  | none => exact e.trans h
  | some p => obtain ⟨rest, h1, h2⟩ := h; exact ⟨rest, e.trans h1, h2⟩

variable {ix : Index} {pre : Str} {U : List Str} {owner : Str → Option Nat} {keys0 : List Str} {f0 : Str → Option Bytes}
  {m0 st : Str → Option (Arr × Nat)} {i : Nat} {s s' : Store}

/-- the entries of the readable keys in the index, and the arrays that are nobody's -/
def GpFixed (E : Env) (ix : Index) (pre : Str) (U : List Str) (owner : Str → Option Nat) (i : Nat)
    (st : Str → Option (Arr × Nat)) (vals : Str → Option Bytes) (s : Store) : Prop :=
  ∀ k, readable U owner i k →
    (st k = none → s.content (hashAddr E ix.name (E.utf8 k)) = none) ∧
    (st k ≠ none → ∃ n, n < 256 ^ 8 ∧ s.content (hashAddr E ix.name (E.utf8 k)) = some (toLE 8 n) ∧
      s.content (valAddr ix.name n) = vals k) ∧
    (owner k = none → PadIs pre s k (st k))

theorem GpFixed.rel {vals : Str → Option Bytes} (h : GpFixed E ix pre U owner i st vals s) (hr : gRel E ix pre U owner i s s') :
    GpFixed E ix pre U owner i st vals s' := by
  intro k hk
  obtain ⟨h1, h2, h3⟩ := h k hk
  obtain ⟨r1, r2, r3⟩ := hr k hk
  refine ⟨fun hn => r2 (h1 hn), fun hn => ?_, fun ho => (h3 ho).same (r3 ho).2⟩
  obtain ⟨n, e1, e2, e3⟩ := h2 hn
  obtain ⟨q1, q2⟩ := r1 n e1 e2
  exact ⟨n, e1, by rw [q1.2]; exact e2, by rw [q2.2]; exact e3⟩

theorem GpFixed.own {vals : Str → Option Bytes} (h : GpFixed E ix pre U owner i st vals s) (hU : PlayOK E pre U)
    (hix : ix.name = indexName pre) (hs : SameOff (gOwned pre U owner i) s s') : GpFixed E ix pre U owner i st vals s' := by
  have hm : ∀ x, metaNames ix.name x → s'.content x = s.content x := fun x hx => (hs x fun ⟨k, h1, _, e⟩ =>
    pad_not_meta (hU.free k h1) hix (e ▸ hx)).2
  intro k hk
  obtain ⟨h1, h2, h3⟩ := h k hk
  refine ⟨fun hn => by rw [hm _ (index_meta (indexNames_hash _ _ _))]; exact h1 hn, fun hn => ?_, fun ho => (h3 ho).same (hs _ ?_).2⟩
  · obtain ⟨n, e1, e2, e3⟩ := h2 hn
    exact ⟨n, e1, by rw [hm _ (index_meta (indexNames_hash _ _ _))]; exact e2, by rw [hm _ (metaNames_val _ _)]; exact e3⟩
  · rintro ⟨k', _, h5, e⟩
    rw [← pad_inj e, ho] at h5
    cases h5

/-- where a process is: what it takes the GridPaper to hold, its calls on the index, its calls -/
structure GpNow (E : Env) (c : Codec ArrMeta) (nbytes : Str → List Nat → Nat) (ix : Index) (pre : Str) (U : List Str)
    (owner : Str → Option Nat) (keys0 : List Str) (f0 : Str → Option Bytes) (m0 : Str → Option (Arr × Nat)) (i : Nat)
    (st : Str → Option (Arr × Nat)) (h : Hist GpLab Nat) (calls : List (GpCall × Except PyErr GpOut)) (s : Store) : Prop where
  listed : ∀ k, readable U owner i k → (k ∈ gKeys keys0 h ↔ st k ≠ none)
  info : ∀ k a room, readable U owner i k → st k = some (a, room) →
    ∃ b, gVals c f0 h k = some b ∧ c.decode b = .ok (metaOf pre k a)
  size : ∀ k a room, readable U owner i k → st k = some (a, room) → nbytes a.dtype a.shape = a.data.length
  free : ∀ k, owner k = none → st k = m0 k
  fixed : GpFixed E ix pre U owner i st (gVals c f0 h) s
  own : ∀ k, k ∈ U → owner k = some i → PadIs pre s k (st k)
  legal : GpLegal (fun a => a.data.length) (readable U owner i) m0 calls st

theorem GpNow.rely {h : Hist GpLab Nat} {calls : List (GpCall × Except PyErr GpOut)}
    (hn : GpNow E c nbytes ix pre U owner keys0 f0 m0 i st h calls s)
    (h1 : SameOff (fun x => ¬ gOwned pre U owner i x) s s') (h2 : gRel E ix pre U owner i s s') :
    GpNow E c nbytes ix pre U owner keys0 f0 m0 i st h calls s' :=
  ⟨hn.listed, hn.info, hn.size, hn.free, hn.fixed.rel h2, fun k hk ho => (hn.own k hk ho).same (h1 _ (not_not.2 ⟨k, hk, ho, rfl⟩)).2,
    hn.legal⟩

theorem gpLegal_snoc {size : Arr → Nat} {reads : Str → Prop} {st0 st st1 : Str → Option (Arr × Nat)}
    {calls : List (GpCall × Except PyErr GpOut)} (h : GpLegal size reads st0 calls st) {o : GpCall} {out : Except PyErr GpOut}
    (hs : GpStep size reads st o out st1) : GpLegal size reads st0 (calls ++ [(o, out)]) st1 := by
  induction calls generalizing st0 with
  | nil => cases h; exact ⟨st1, hs, rfl⟩
  | cons x t ih =>
    obtain ⟨o', out'⟩ := x
    obtain ⟨st2, h1, h2⟩ := h
    exact ⟨st2, h1, ih h2⟩

/-- what the index says between the calls -/
theorem GpFixed.of_J {s0 : Store} {H : Hist GpLab Nat} (hU : PlayOK E pre U) (h0 : keys0 ⊆ U)
    (hJ : GpJ E c ix pre U owner keys0 f0 s0 H s)
    (hl : ∀ k, readable U owner i k → (k ∈ gKeys keys0 H ↔ st k ≠ none))
    (hfree : ∀ k, k ∈ U → owner k = none → PadIs pre s0 k (st k)) :
    GpFixed E ix pre U owner i st (gVals c f0 H) s := by
  have hsub := gKeys_sub (fun y hy => (hJ.calls y hy).1) h0
  have hrep := hJ.rep.rep
  intro k hk
  refine ⟨fun hn => ?_, fun hn => ?_, fun ho => (hfree k hk.1 ho).same (hJ.still _ ⟨k, hU.free k hk.1, fun _ => ho, rfl⟩)⟩
  · have : k ∉ gKeys keys0 H := fun h => (hl k hk).1 h hn
    exact hrep.absent fun k' hk' e => this (hU.univ.inj k' (hsub hk') k hk.1 e ▸ hk')
  · obtain ⟨n, hn'⟩ := List.mem_iff_getElem?.1 ((hl k hk).2 hn)
    exact ⟨n, by have := lt_of_getElem? hn'; have := hrep.bound; omega, hrep.hash n k hn', hJ.rep.val n k hn'⟩

/-- what process `i` may set -/
structure GpSetOK (E : Env) (c : Codec ArrMeta) (nbytes : Str → List Nat → Nat) (pre : Str) (U : List Str)
    (owner : Str → Option Nat) (i : Nat) (k : Key) (a : Arr) : Prop where
  hashed : k.hashed E = E.utf8 k.text
  mem : k.text ∈ U
  own : owner k.text = some i
  arr : ArrOK c nbytes pre k.text a

/-- how a process ends -/
def GpEnd (E : Env) (c : Codec ArrMeta) (nbytes : Str → List Nat → Nat) (ix : Index) (pre : Str) (U : List Str)
    (owner : Str → Option Nat) (keys0 : List Str) (f0 : Str → Option Bytes) (m0 : Str → Option (Arr × Nat)) (i : Nat)
    (sc0 : GpScript ρ) (h _ : Hist GpLab Nat) (r : ρ) (s : Store) : Prop :=
  ∃ calls st, sc0.Follows calls r ∧ GpNow E c nbytes ix pre U owner keys0 f0 m0 i st h calls s

variable {g : Grid} {fuel : Nat} {hU : PlayOK E g.pre U} {s0 : Store}

theorem grid_crg {hok : NamesOK E g.index.name} {hix : g.index.name = indexName g.pre} {h0 : keys0 ⊆ U} (hf : fuel + 256 ^ 5 < 256 ^ 8)
    (hfree : ∀ k, k ∈ U → owner k = none → PadIs g.pre s0 k (m0 k)) (i : Nat) (sc0 sc : GpScript ρ) :
    ∀ (st : Str → Option (Arr × Nat)) (h L : Hist GpLab Nat) (calls : List (GpCall × Except PyErr GpOut)) (s : Store),
      s.WF → sc.Uses (fun k => k.hashed E = E.utf8 k.text) (GpSetOK E c nbytes g.pre U owner i) →
      GpNow E c nbytes g.index g.pre U owner keys0 f0 m0 i st h calls s →
      (∀ t r, sc.Follows t r → sc0.Follows (calls ++ t) r) →
      CRG (gridSetup c hok hU hix owner keys0 f0 s0 h0) (fun _ _ => True) (fun _ => gOwned g.pre U owner i) (fun _ _ => none) i
        (GpEnd E c nbytes g.index g.pre U owner keys0 f0 m0 i sc0) (gridCl E c nbytes g fuel i sc) h L s := by
  induction sc with
  | ret r =>
    intro st h L calls s w _ hn hfol s' hr
    exact ⟨calls, st, by simpa using hfol [] r rfl, hn.rely hr.1.2 hr.2.1⟩
  | raise e => intros; trivial
  | call o K ih =>
    intro st h L calls s w hpl hn hfol
    have fol : ∀ r t x, (K r).Follows t x → sc0.Follows ((calls ++ [(o, r)]) ++ t) x := fun r t x ht => by
      have := hfol ((o, r) :: t) x ⟨rfl, ht⟩
      simpa using this
    -- calls that only look
    have look : ∀ (p : Prog GpOut) (X : Str → Prop) (I : Store → Prop) (Q : Except PyErr GpOut → Prop), Looks p →
        LRG E X (fun r s' => Q r ∧ RLock X s s') p s → I s →
        (∀ a b, I a → SameOff (fun x => ¬ gOwned g.pre U owner i x) a b → gRel E g.index g.pre U owner i a b → SameOff X a b ∧ I b) →
        (∀ a b, I a → (∀ x, SameAt a b x) → I b) →
        (∀ r, Q r → GpStep (fun a => a.data.length) (readable U owner i) st o r st) →
        (∀ r, (K r).Uses (fun k => k.hashed E = E.utf8 k.text) (GpSetOK E c nbytes g.pre U owner i)) →
        CRG (gridSetup c hok hU hix owner keys0 f0 s0 h0) (fun _ _ => True) (fun _ => gOwned g.pre U owner i) (fun _ _ => none) i
          (GpEnd E c nbytes g.index g.pre U owner keys0 f0 m0 i sc0)
          (.free p (clAfter fun r => gridCl E c nbytes g fuel i (K r))) h L s := by
      intro p X I Q hp hrg hI hR hG hQ hpl
      have h1 := rg_of_looks (Y := fun _ => True) hp hrg
      have h2 := rg_inv (R' := RC (gridSetup c hok hU hix owner keys0 f0 s0 h0) (fun _ => gOwned g.pre U owner i) i h)
        (I := fun a => I a ∧ GpNow E c nbytes g.index g.pre U owner keys0 f0 m0 i st h calls a) ?_ ?_ ⟨hI, hn⟩ h1
      · refine rg_mono (fun _ _ h => h) (fun a b hg => SameOff.mono hg fun _ h => absurd trivial h) ?_ h2
        rintro r s' ⟨⟨hq, w', _⟩, _, hn'⟩
        refine crg_after fun _ => ih r st h L (calls ++ [(o, r)]) s' w' (hpl r) ⟨hn'.listed, hn'.info, hn'.size, hn'.free, hn'.fixed, hn'.own,
          gpLegal_snoc hn'.legal (hQ r hq)⟩ (fol r)
      · rintro a b ⟨a1, a3⟩ hr
        obtain ⟨q1, q2⟩ := hR a b a1 hr.1.2 hr.2.1
        exact ⟨⟨hr.1.1, q1⟩, q2, a3.rely hr.1.2 hr.2.1⟩
      · rintro a b ⟨a1, a3⟩ hg
        have hs : ∀ x, SameAt a b x := fun x => hg x (not_not.2 trivial)
        refine ⟨hG a b a1 hs, a3.rely (fun x _ => hs x) fun k _ => ⟨fun n _ _ => ⟨hs _, hs _⟩, fun hc => ?_, fun _ => hs _⟩⟩
        rw [(hs _).2]; exact hc
    cases o with
    | keys =>
      exact look _ (fun _ => True) (fun _ => True) (fun _ => True) (looks_gridKeys g)
        (rg_mono (fun _ _ h => h) (fun _ _ h => h) (fun _ _ h => ⟨trivial, h⟩) (lrg_looks (looks_gridKeys g) w)) trivial
        (fun _ _ _ _ _ => ⟨fun _ hx => absurd trivial hx, trivial⟩) (fun _ _ _ _ => trivial) (fun _ _ => rfl) hpl
    | get k =>
      by_cases hk : readable U owner i k.text
      · obtain ⟨f1, f2, f3⟩ := hn.fixed k.text hk
        cases hst : st k.text with
        | none =>
          exact look _ (fun x => x ≠ hashAddr E g.index.name (E.utf8 k.text))
            (fun a => a.content (hashAddr E g.index.name (E.utf8 k.text)) = none ∧ a.names (hashAddr E g.index.name (E.utf8 k.text)) = none)
            (fun r => r = .error .keyError)
            (looks_gridGet g k) (lrg_gridGet_none w hok hpl.1 (not_not.2 rfl) (f1 hst)) ⟨f1 hst, content_none.1 (f1 hst)⟩
            (fun a b ha _ hr => by
              have h1 := (hr k.text hk).2.1 ha.1
              refine ⟨fun x hx => ?_, h1, content_none.1 h1⟩
              rw [not_not.1 hx]
              exact ⟨(content_none.1 h1).trans ha.2.symm, h1.trans ha.1.symm⟩)
            (fun a b ha hs => ⟨(hs _).2.trans ha.1, (hs _).1.trans ha.2⟩)
            (fun r hr => ⟨rfl, fun _ => by rw [hr, hst]⟩) hpl.2
        | some p =>
          obtain ⟨a, room⟩ := p
          obtain ⟨n, hnb, e1, e2⟩ := f2 (by rw [hst]; nofun)
          obtain ⟨b, hb1, hb2⟩ := hn.info _ a room hk hst
          have hpad : PadIs g.pre s k.text (st k.text) := hk.2.elim (hn.own _ hk.1) f3
          rw [hst] at hpad
          obtain ⟨rest, hp1, hp2⟩ := hpad
          exact look _ (fun x => ¬ (x = hashAddr E g.index.name (E.utf8 k.text) ∨ x = valAddr g.index.name n ∨ x = padAddr g.pre k.text))
            (fun a => a.content (hashAddr E g.index.name (E.utf8 k.text)) = some (toLE 8 n))
            (fun r => r = .ok (.val a)) (looks_gridGet g k)
            (lrg_gridGet_some w hok hpl.1 (hU.ok _ hk.1) (not_not.2 (Or.inl rfl)) hnb e1 (not_not.2 (Or.inr (Or.inl rfl))) (e2.trans hb1) hb2
              (not_not.2 (Or.inr (Or.inr rfl))) hp1 (hn.size _ a room hk hst)) e1
            (fun a b ha ho hr => by
              obtain ⟨q1, q2⟩ := (hr k.text hk).1 n hnb ha
              refine ⟨fun x hx => ?_, by rw [q1.2]; exact ha⟩
              rcases not_not.1 hx with rfl | rfl | rfl
              · exact q1
              · exact q2
              · rcases hk.2 with h | h
                · exact ho _ (not_not.2 ⟨_, hk.1, h, rfl⟩)
                · exact (hr k.text hk).2.2 h)
            (fun a b ha hs => (hs _).2.trans ha)
            (fun r hr => ⟨rfl, fun _ => by rw [hr, hst]⟩) hpl.2
      · exact look _ (fun _ => True) (fun _ => True) (fun _ => True) (looks_gridGet g k)
          (rg_mono (fun _ _ h => h) (fun _ _ h => h) (fun _ _ h => ⟨trivial, h⟩) (lrg_looks (looks_gridGet g k) w)) trivial
          (fun _ _ _ _ _ => ⟨fun _ hx => absurd trivial hx, trivial⟩) (fun _ _ _ _ => trivial)
          (fun _ _ => ⟨rfl, fun h => absurd h hk⟩) hpl.2
    | set k a =>
      obtain ⟨hset, hpl⟩ := hpl
      have hread : readable U owner i k.text := ⟨hset.mem, Or.inl hset.own⟩
      have hPk : gOwned g.pre U owner i (padAddr g.pre k.text) := ⟨_, hset.mem, hset.own, rfl⟩
      have h1 := lrg_memorizeArray (E := E) (X := fun x => ¬ gOwned g.pre U owner i x) w (hU.ok _ hset.mem) (not_not.2 hPk)
        hset.arr.data hset.arr.dim
      have h2 := rg_inv (R' := RC (gridSetup c hok hU hix owner keys0 f0 s0 h0) (fun _ => gOwned g.pre U owner i) i h)
        (I := GpFixed E g.index g.pre U owner i st (gVals c f0 h)) (fun a b ha hr => ⟨hr.1, ha.rel hr.2.1⟩)
        (fun a b ha hg => ha.own hU hix (SameOff.mono hg fun _ h => not_not.1 h)) hn.fixed h1
      refine rg_mono (fun _ _ h => h) (fun _ _ h => h) ?_ h2
      rintro r s1 ⟨⟨hr1, heff⟩, hfix⟩
      have hpad := hn.own _ hset.mem hset.own
      have own1 : ∀ k', k' ∈ U → owner k' = some i → k' ≠ k.text → PadIs g.pre s1 k' (st k') := fun k' h1 h2 h3 =>
        (hn.own k' h1 h2).same (by rw [heff.content _ (not_not.2 ⟨k', h1, h2, rfl⟩), if_neg fun e => h3 (pad_inj e)])
      -- the block holds the array
      have good : ∀ room, PadIs g.pre s1 k.text (some (a, room)) → r = .ok .done →
          gridStore (fun a => a.data.length) st k.text a = (.ok (), upd st k.text (some (a, room))) →
          CRG (gridSetup c hok hU hix owner keys0 f0 s0 h0) (fun _ _ => True) (fun _ => gOwned g.pre U owner i) (fun _ _ => none) i
            (GpEnd E c nbytes g.index g.pre U owner keys0 f0 m0 i sc0)
            (.call fuel (i, k, metaOf g.pre k.text a) fun r => match r with
              | .ok _ => clAfter (fun r => gridCl E c nbytes g fuel i (K r)) (.ok .done)
              | .error e => clAfter (fun r => gridCl E c nbytes g fuel i (K r)) (.error e)) h L s1 := by
        intro room hp1 hr2 hstore
        refine ⟨rfl, hf, fun r2 s2 H hr _ ha he0 _ _ hJ => ⟨trivial, fun x hx hx' => absurd hx hx', fun _ => ?_⟩⟩
        obtain ⟨hcall, n, hn2⟩ := ha ((i, k, metaOf g.pre k.text a), r2) (by simp)
        simp only at hn2
        subst hn2
        have hres : (H ++ [((i, k, metaOf g.pre k.text a), Except.ok n)]).filter (fun x => x.1.1 == i) =
            h ++ [((i, k, metaOf g.pre k.text a), Except.ok n)] := by
          rw [List.filter_append]
          have : H.filter (fun x => x.1.1 == i) = h := he0
          rw [this]; simp
        have hall := fun x hx => (hJ.calls x hx).1
        obtain ⟨b, hb1, hb2, hb3⟩ := hset.arr.codec
        have listed : ∀ k', readable U owner i k' → (k' ∈ gKeys keys0 (h ++ [((i, k, metaOf g.pre k.text a), Except.ok n)]) ↔
            upd st k.text (some (a, room)) k' ≠ none) := by
          intro k' hk'
          rw [gKeys_snoc, mem_added, upd]
          by_cases e : k' = k.text
          · simp [e]
          · simp only [e, false_or, if_false]; exact hn.listed k' hk'
        refine crg_after fun _ => ih (.ok .done) (upd st k.text (some (a, room))) _ _ (calls ++ [(.set k a, .ok .done)]) s2 hr.1 (hpl _)
          ⟨listed, ?_, ?_, ?_, ?_, ?_, gpLegal_snoc hn.legal ?_⟩ (fol _)
        · intro k' a' room' hk' hs
          rw [gVals_snoc]
          by_cases e : k' = k.text
          · subst e
            simp only [upd, if_true, Option.some.injEq, Prod.mk.injEq] at hs ⊢
            obtain ⟨rfl, rfl⟩ := hs
            exact ⟨b, by simp [encOf, hb1], hb3⟩
          · simp only [upd, e, if_false] at hs ⊢
            exact hn.info k' a' room' hk' hs
        · intro k' a' room' hk' hs
          by_cases e : k' = k.text
          · subst e
            simp only [upd, if_true, Option.some.injEq, Prod.mk.injEq] at hs
            obtain ⟨rfl, rfl⟩ := hs
            exact hset.arr.size
          · simp only [upd, e, if_false] at hs
            exact hn.size k' a' room' hk' hs
        · intro k' ho
          rw [upd, if_neg fun (e : k' = _) => by rw [e, hset.own] at ho; cases ho]
          exact hn.free k' ho
        · have hfx : GpFixed E g.index g.pre U owner i (upd st k.text (some (a, room))) (gVals c f0 (H ++ [((i, k, metaOf g.pre k.text a), Except.ok n)])) s2 :=
            GpFixed.of_J hU h0 hJ (fun k' hk' => by
              have := (gHist_own (keys0 := keys0) (f0 := f0) hall hk').1
              rw [hres] at this
              exact this.trans (listed k' hk')) fun k' hk' ho => by
                have hne : k' ≠ k.text := fun e => by rw [e, hset.own] at ho; cases ho
                rw [upd, if_neg hne, hn.free k' ho]
                exact hfree k' hk' ho
          intro k' hk'
          have hv : gVals c f0 (h ++ [((i, k, metaOf g.pre k.text a), Except.ok n)]) k' =
              gVals c f0 (H ++ [((i, k, metaOf g.pre k.text a), Except.ok n)]) k' := by
            rw [(gHist_own (keys0 := keys0) hall hk').2, hres]
          obtain ⟨q1, q2, q3⟩ := hfx k' hk'
          exact ⟨q1, fun h => by rw [hv]; exact q2 h, q3⟩
        · intro k' hk' ho
          have : PadIs g.pre s1 k' (upd st k.text (some (a, room)) k') := by
            by_cases e : k' = k.text
            · subst e; simpa [upd] using hp1
            · simpa [upd, e] using own1 k' hk' ho e
          exact this.same (hr.2 _ (not_not.2 ⟨k', hk', ho, rfl⟩)).2
        · exact ⟨by rw [hstore], by rw [hstore]⟩
      cases hst : st k.text with
      | none =>
        rw [hst] at hpad
        have hc : s.content (padAddr g.pre k.text) = none := hpad
        rw [hc] at hr1 heff
        subst hr1
        refine good a.data.length ⟨[], ?_, by simp⟩ rfl (by simp [gridStore, hst])
        rw [heff.content _ (not_not.2 hPk), if_pos rfl]
        simp [arrInto]
      | some p =>
        obtain ⟨a0, room⟩ := p
        rw [hst] at hpad
        obtain ⟨rest, hc, hlen⟩ := hpad
        rw [hc] at hr1 heff
        have hl : (a0.data ++ rest).length = room := by rw [List.length_append]; exact hlen
        have hat := heff.content _ (not_not.2 hPk)
        rw [if_pos rfl] at hat
        by_cases hfit : a.data.length ≤ room
        · rw [arrEnds, if_pos (hl.symm ▸ hfit)] at hr1
          rw [arrInto, if_pos (hl.symm ▸ hfit)] at hat
          subst hr1
          exact good room ⟨_, hat, by rw [List.length_drop, hl]; omega⟩ rfl (by simp [gridStore, hst, hfit])
        · rw [arrEnds, if_neg (hl.symm ▸ hfit)] at hr1
          rw [arrInto, if_neg (hl.symm ▸ hfit)] at hat
          subst hr1
          refine crg_after fun _ => ih (.error .typeError) st h L (calls ++ [(.set k a, .error .typeError)]) s1 heff.wf (hpl _)
            ⟨hn.listed, hn.info, hn.size, hn.free, hfix, fun k' hk' ho => ?_, gpLegal_snoc hn.legal ?_⟩ (fol _)
          · by_cases e : k' = k.text
            · subst e
              rw [hst]
              exact ⟨rest, hat, hlen⟩
            · exact own1 k' hk' ho e
          · exact ⟨by simp [gridStore, hst, hfit], by simp [gridStore, hst, hfit]⟩

/-! ## all processes -/

theorem GridRep.padIs {keys : List Str} {f : Str → Option Bytes} {fl : Nat} {m : Str → Option (Arr × Nat)}
    (hU : PlayOK E pre U) (hrep : GridRep E c nbytes pre (· ∈ U) s ix m keys f fl) {k : Str} (hk : k ∈ U) : PadIs pre s k (m k) := by
  cases h : m k with
  | none => exact hrep.noval k (hU.free k hk) h
  | some p => exact hrep.val k p.1 p.2 h

open Classical in
/-- what the GridPaper holds in the end: under each key what its owner takes it to hold -/
noncomputable def gMerge (U : List Str) (owner : Str → Option Nat) (m0 : Str → Option (Arr × Nat))
    (sts : Nat → Str → Option (Arr × Nat)) (k : Str) : Option (Arr × Nat) :=
  if k ∈ U then match owner k with
    | some i => sts i k
    | none => m0 k
  else m0 k

theorem gridClients (hm : g.mode = .sliding fuel) (hok : NamesOK E g.index.name) (hU : PlayOK E g.pre U) {s : Store} (w : s.WF)
    {fl : Nat} (hrep : GridRep E c nbytes g.pre (· ∈ U) s g.index m0 keys0 f0 fl) (hfl : fl < 256 ^ 5)
    (hf : fuel + 256 ^ 5 < 256 ^ 8) (scripts : List (GpScript ρ)) (howner : ∀ k i, owner k = some i → i < scripts.length)
    (hs : ∀ (i : Nat) sc, scripts[i]? = some sc →
      sc.Uses (fun k => k.hashed E = E.utf8 k.text) (GpSetOK E c nbytes g.pre U owner i))
    (sched : List Nat) (hq : CodeQuietRun E g.index.name sched (scripts.map (GpScript.run E c nbytes g)) s) :
    ∃ sts : Nat → Str → Option (Arr × Nat),
      (∀ (i : Nat) sc r, scripts[i]? = some sc →
        (interleave E sched (scripts.map (GpScript.run E c nbytes g)) s).1[i]? = some (.ret r) →
        ∃ calls, sc.Follows calls r ∧ GpLegal (fun a => a.data.length) (readable U owner i) m0 calls (sts i)) ∧
      ((∀ q ∈ (interleave E sched (scripts.map (GpScript.run E c nbytes g)) s).1, ∃ a, q = .ret a) →
        ∃ keys f fl', fl' < 256 ^ 5 ∧ GridRep E c nbytes g.pre (· ∈ U)
          (interleave E sched (scripts.map (GpScript.run E c nbytes g)) s).2 g.index (gMerge U owner m0 sts) keys f fl') := by
  have hix := hrep.name
  have h0 : keys0 ⊆ U := hrep.used
  let S := gridSetup c hok hU hix owner keys0 f0 s h0
  let cls := scripts.mapIdx fun i sc => gridCl E c nbytes g fuel i sc
  have hprog : cls.map (Cl.prog S.name S.bodies) = scripts.map (GpScript.run E c nbytes g) := by
    have : cls.map (Cl.prog S.name S.bodies) = scripts.mapIdx fun i sc => (gridCl E c nbytes g fuel i sc).prog S.name S.bodies := by
      apply List.ext_getElem?
      intro i
      simp only [cls, List.getElem?_map, List.getElem?_mapIdx, Option.map_map]
      rfl
    rw [this]
    exact mapIdx_eq_map _ _ _ fun i sc hi => gridCl_prog (ok := GpSetOK E c nbytes g.pre U owner i) rfl hm i (fun k a hk => hU.free _ hk.mem)
      (fun k a hk => by
        obtain ⟨b, b1, b2, _⟩ := hk.arr.codec
        exact if_pos ⟨hk.hashed, hk.mem, hk.own, b, b1, b2⟩) sc (hs i sc hi)
  have : Inhabited GpLab := ⟨(0, .str [], ⟨[], [], [], 0⟩)⟩
  let Q : Nat → Hist GpLab Nat → Hist GpLab Nat → ρ → Store → Prop := fun i h L r s' =>
    ∀ sc, scripts[i]? = some sc → GpEnd E c nbytes g.index g.pre U owner keys0 f0 m0 i sc h L r s'
  rw [← hprog] at hq
  have hJ0 : GpJ E c g.index g.pre U owner keys0 f0 s [] s := ⟨hrep.rep, by simp, fun _ _ => rfl⟩
  have hpriv : Priv S (fun _ _ => True) (fun i _ => gOwned g.pre U owner i) (fun _ _ => none) (gManaged g.pre U owner) := by
    refine ⟨fun i h x ⟨k, h1, h2, e⟩ => ⟨k, i, h1, h2, e⟩, fun x hx => ⟨Or.inr hx, ?_⟩, ?_, fun _ _ _ _ _ _ _ _ => rfl⟩
    · obtain ⟨k, _, h1, _, rfl⟩ := hx
      exact pad_not_lockName (hU.free k h1) hix
    · rintro H _ _ i j x hij ⟨k, _, h3, e⟩ ⟨k', _, h3', e'⟩
      rw [← pad_inj (e.symm.trans e'), h3] at h3'
      injection h3' with h3'
      exact hij h3'
  obtain ⟨H, hadm, hw, hord, hout, hown, hJ, _, _⟩ := clients (D := fun _ _ => True)
    (P := fun i _ => gOwned g.pre U owner i) (ex := fun _ _ => none) (M := gManaged g.pre U owner) (Q := Q) S hpriv w
    (show LockClean s g.index.name fl by rw [hix]; exact hrep.lock) hfl hJ0 (fun _ => trivial)
    (by
      rintro x ⟨k, i, h1, h2, rfl⟩ hno
      exact absurd ⟨k, h1, h2, rfl⟩ (hno i)) cls (by
      intro i cl hi
      simp only [cls, List.getElem?_mapIdx] at hi
      cases hsc : scripts[i]? with
      | none => rw [hsc] at hi; simp at hi
      | some sc =>
        rw [hsc] at hi
        simp only [Option.map_some, Option.some.injEq] at hi
        subst hi
        have := grid_crg (nbytes := nbytes) (owner := owner) (hok := hok) (hU := hU) (hix := hix) (h0 := h0) (f0 := f0) (s0 := s) (c := c) (m0 := m0) hf
          (fun k hk _ => hrep.padIs hU hk) i sc sc m0 [] [] [] s w (hs i sc hsc)
          ⟨fun k _ => hrep.live k, fun k a room _ => hrep.info k a room, fun k a room _ => hrep.size k a room, fun _ _ => rfl,
            GpFixed.of_J hU h0 hJ0 (fun k _ => hrep.live k) fun k hk _ => hrep.padIs hU hk, fun k hk _ => hrep.padIs hU hk, rfl⟩
          (fun t r ht => ht)
        have e : Q i = GpEnd E c nbytes g.index g.pre U owner keys0 f0 m0 i sc := by
          funext h L r s
          simp only [Q, hsc, Option.some.injEq, forall_eq']
        rw [e]
        exact this) sched hq
  rw [hprog] at hown hJ
  have hlen : cls.length = scripts.length := by simp [cls]
  generalize hend : interleave E sched (scripts.map (GpScript.run E c nbytes g)) s = fin at hown hJ ⊢
  have each : ∀ i, ∃ st, ∀ sc r, scripts[i]? = some sc → fin.1[i]? = some (.ret r) → ∃ calls, sc.Follows calls r ∧
      GpNow E c nbytes g.index g.pre U owner keys0 f0 m0 i st (S.restrict i H) calls fin.2 := by
    intro i
    by_cases h : ∃ sc r, scripts[i]? = some sc ∧ fin.1[i]? = some (.ret r)
    · obtain ⟨sc, r, h1, h2⟩ := h
      obtain ⟨_, _, _, hq'⟩ := hown i r h2
      obtain ⟨calls, st, f1, f2⟩ := hq' sc h1
      refine ⟨st, fun sc' r' h1' h2' => ⟨calls, ?_, f2⟩⟩
      rw [h1] at h1'; rw [h2] at h2'
      injection h1' with h1'; injection h2' with h2'; injection h2' with h2'
      rw [← h1', ← h2']; exact f1
    · exact ⟨m0, fun sc r h1 h2 => absurd ⟨sc, r, h1, h2⟩ h⟩
  choose sts hsts using each
  refine ⟨sts, fun i sc r h1 h2 => ?_, fun hret => ?_⟩
  · obtain ⟨calls, c1, c2⟩ := hsts i sc r h1 h2
    exact ⟨calls, c1, c2.legal⟩
  · obtain ⟨hJ', fl', hcl', hfl'⟩ := hJ hret
    have hJ' : GpJ E c g.index g.pre U owner keys0 f0 s H fin.2 := hJ'
    have hall := fun x hx => (hJ'.calls x hx).1
    have hsub := gKeys_sub hall h0
    -- a key that is nobody's
    have nob : ∀ k, k ∈ U → owner k = none → (k ∈ gKeys keys0 H ↔ k ∈ keys0) ∧ gVals c f0 H k = f0 k := by
      intro k hk ho
      have h1 := gHist_own (keys0 := keys0) (f0 := f0) hall (i := scripts.length) ⟨hk, Or.inr ho⟩
      have h2 : H.filter (fun x => x.1.1 == scripts.length) = [] := hout scripts.length (Nat.le_of_eq hlen)
      rwa [h2] at h1
    have ownd : ∀ k i, k ∈ U → owner k = some i → ∃ calls,
        GpNow E c nbytes g.index g.pre U owner keys0 f0 m0 i (sts i) (H.filter fun x => x.1.1 == i) calls fin.2 := by
      intro k i hk ho
      have hi := howner k i ho
      have hl : i < fin.1.length := by rw [← hend, interleave_length]; simpa using hi
      obtain ⟨r, hr⟩ := hret _ (List.getElem_mem hl)
      obtain ⟨calls, _, c2⟩ := hsts i _ r (List.getElem?_eq_getElem hi) (by rw [List.getElem?_eq_getElem hl, hr])
      exact ⟨calls, c2⟩
    have m0out : ∀ k, k ∉ U → m0 k = none := fun k hk => by
      by_contra h
      exact hk (hrep.used k ((hrep.live k).2 h))
    have cases' : ∀ (C : Option (Arr × Nat) → Str → Prop), (∀ k i, k ∈ U → owner k = some i → C (sts i k) k) →
        (∀ k, k ∈ U → owner k = none → C (m0 k) k) → (∀ k, k ∉ U → C none k) → ∀ k, C (gMerge U owner m0 sts k) k := by
      intro C h1 h2 h3 k
      unfold gMerge
      by_cases hk : k ∈ U
      · rw [if_pos hk]
        cases ho : owner k with
        | none => exact h2 k hk ho
        | some i => exact h1 k i hk ho
      · rw [if_neg hk, m0out k hk]; exact h3 k hk
    have pads : ∀ k, ¬ indexWord <+: k → PadIs g.pre fin.2 k (gMerge U owner m0 sts k) := by
      refine cases' (fun o k => ¬ indexWord <+: k → PadIs g.pre fin.2 k o) ?_ ?_ ?_
      · intro k i hk ho _
        obtain ⟨_, hn⟩ := ownd k i hk ho
        exact hn.own k hk ho
      · intro k hk ho hw
        exact (hrep.padIs hU hk).same (hJ'.still _ ⟨k, hw, fun _ => ho, rfl⟩)
      · intro k hk hw
        exact (hJ'.still _ ⟨k, hw, fun h => absurd h hk, rfl⟩).trans (hrep.noval k hw (m0out k hk))
    have live : ∀ k, k ∈ gKeys keys0 H ↔ gMerge U owner m0 sts k ≠ none := by
      refine cases' (fun o k => k ∈ gKeys keys0 H ↔ o ≠ none) ?_ ?_ ?_
      · intro k i hk ho
        obtain ⟨_, hn⟩ := ownd k i hk ho
        exact (gHist_own (f0 := f0) hall ⟨hk, Or.inl ho⟩).1.trans (hn.listed k ⟨hk, Or.inl ho⟩)
      · intro k hk ho
        exact (nob k hk ho).1.trans (hrep.live k)
      · intro k hk
        simp only [ne_eq, not_true_eq_false, iff_false]
        exact fun h => hk (hsub h)
    refine ⟨gKeys keys0 H, gVals c f0 H, fl', hfl', hix, hJ'.rep, by rw [← hix]; exact hcl', live, ?_, ?_, ?_, ?_, fun k hk => hsub hk,
      gVals_ne hall hrep.coded⟩
    · refine cases' (fun o k => ∀ a room, o = some (a, room) → ∃ b, gVals c f0 H k = some b ∧ c.decode b = .ok (metaOf g.pre k a)) ?_ ?_
        fun _ _ _ _ h => nomatch h
      · intro k i hk ho a room hs
        obtain ⟨_, hn⟩ := ownd k i hk ho
        rw [(gHist_own (keys0 := keys0) hall ⟨hk, Or.inl ho⟩).2]
        exact hn.info k a room ⟨hk, Or.inl ho⟩ hs
      · intro k hk ho a room hs
        rw [(nob k hk ho).2]
        exact hrep.info k a room hs
    · intro k a room hs
      have hk : k ∈ U := hsub ((live k).2 (by rw [hs]; nofun))
      have := pads k (hU.free k hk)
      rw [hs] at this
      exact this
    · refine cases' (fun o k => ∀ a room, o = some (a, room) → nbytes a.dtype a.shape = a.data.length) ?_ ?_ fun _ _ _ _ h => nomatch h
      · intro k i hk ho a room hs
        obtain ⟨_, hn⟩ := ownd k i hk ho
        exact hn.size k a room ⟨hk, Or.inl ho⟩ hs
      · intro k hk ho a room hs
        exact hrep.size k a room hs
    · intro k hw hs
      have := pads k hw
      rw [hs] at this
      exact this

end Verif.Lemmas
