import Verif.Lemmas.CrashIndex
import Verif.Lemmas.GridHist
/-! # Which blocks a program may change at any moment -/
namespace Verif.Lemmas
open Verif Verif.Model
variable {α β : Type} {E : Env}

/-- blocks in `T` may have changed, those in `D` may be gone, all others are as before -/
def Mod (T D : Str → Prop) (s s' : Store) : Prop :=
  ∀ x, ¬ T x → (s'.names x = s.names x ∧ s'.content x = s.content x) ∨ (D x ∧ s'.content x = none)

theorem Mod.refl (T D : Str → Prop) (s : Store) : Mod T D s s := fun _ _ => Or.inl ⟨rfl, rfl⟩

theorem Mod.trans {T D : Str → Prop} {s s' s'' : Store} (h1 : Mod T D s s') (h2 : Mod T D s' s'') : Mod T D s s'' := by
  intro x hx
  rcases h2 x hx with ⟨a, b⟩ | h
  · rcases h1 x hx with ⟨a', b'⟩ | ⟨d, h⟩
    · exact Or.inl ⟨a.trans a', b.trans b'⟩
    · exact Or.inr ⟨d, b.trans h⟩
  · exact Or.inr h

theorem Mod.mono {T D T' D' : Str → Prop} {s s' : Store} (h : Mod T D s s') (hT : ∀ x, T x → T' x)
    (hD : ∀ x, D x → T' x ∨ D' x) : Mod T' D' s s' := by
  intro x hx
  rcases h x (fun ht => hx (hT x ht)) with h | ⟨d, h⟩
  · exact Or.inl h
  · rcases hD x d with h' | h'
    · exact absurd h' hx
    · exact Or.inr ⟨h', h⟩

theorem SameOff.mod {T D : Str → Prop} {s s' : Store} (h : SameOff T s s') : Mod T D s s' := fun x hx => Or.inl (h x hx)

/-- the program, started in `s`, changes at every moment only blocks in `T`, and removes at most those in `D` -/
def Foot (E : Env) (T D : Str → Prop) (p : Prog α) (s : Store) : Prop := Always E (fun s' => s'.WF ∧ Mod T D s s') p s

variable {T D : Str → Prop} {s : Store}

theorem foot_bind {p : Prog α} {f : α → Prog β} (h : Foot E T D p s)
    (hf : ∀ a s', p.run E s = (.ok a, s') → s'.WF → Mod T D s s' → Foot E T D (f a) s') : Foot E T D (p >>= f) s := by
  refine always_bind h fun a s' hr => ?_
  have he := always_end h
  rw [hr] at he
  exact always_mono (hf a s' hr he.1 he.2) fun s2 h2 => ⟨h2.1, he.2.trans h2.2⟩

theorem foot_attempt {p : Prog α} (h : Foot E T D p s) : Foot E T D p.attempt s := always_attempt h

theorem foot_look {p : Prog α} (h : p.ReadOnly) (w : s.WF) : Foot E T D p s := ReadOnly.always h ⟨w, Mod.refl _ _ _⟩

theorem foot_pure {a : α} (w : s.WF) : Foot E T D (pure a : Prog α) s := ⟨w, Mod.refl _ _ _⟩
theorem foot_raise {e : PyErr} (w : s.WF) : Foot E T D (Prog.raise e : Prog α) s := ⟨w, Mod.refl _ _ _⟩

theorem foot_openBlock {a : Str} {size : Nat} {cr ow : Bool} (w : s.WF) (ha : T a) :
    Foot E T D (openBlock a size cr ow) s := by
  have f1 := eff_unlinked w a
  refine always_openBlock ⟨w, Mod.refl _ _ _⟩ (fun _ => ?_) (fun _ _ => ?_) (fun _ _ => ?_)
  · exact ⟨wf_created w _ _, ((eff_created w a size).sameOff ha).mod⟩
  · exact ⟨f1.wf, (f1.sameOff ha).mod⟩
  · exact ⟨wf_created f1.wf _ _, ((f1.sameOff ha).trans ((eff_created f1.wf a size).sameOff ha)).mod⟩

/-- an opened block has its address -/
theorem run_openBlock_names {a : Str} {size i : Nat} {cr ow : Bool} {s' : Store}
    (h : (openBlock a size cr ow).run E s = (.ok i, s')) : s'.names a = some i := by
  cases hok : E.okName a with
  | false =>
    by_cases hz : size = 0
    · subst hz
      cases cr with
      | true => rw [run_openBlock_zero] at h; simp at h
      | false =>
        rw [openBlock, run_bind, run_attempt] at h
        simp only [if_false, Bool.false_eq_true] at h
        rw [run_attach_bad s hok] at h
        simp at h
    · rw [run_openBlock_bad s hz hok] at h; simp at h
  | true =>
    cases cr with
    | false =>
      cases hn : s.names a with
      | none => rw [run_openBlock_nocreate_none hok hn] at h; simp at h
      | some j =>
        rw [run_openBlock_nocreate hok hn] at h
        simp at h; obtain ⟨rfl, rfl⟩ := h; exact hn
    | true =>
      by_cases hz : size = 0
      · subst hz; rw [run_openBlock_zero] at h; simp at h
      · cases hn : s.names a with
        | none =>
          rw [run_openBlock_new hz hok hn] at h
          simp at h; obtain ⟨rfl, rfl⟩ := h; simp
        | some j =>
          cases ow with
          | false =>
            rw [run_openBlock_attach hz hok hn] at h
            simp at h; obtain ⟨rfl, rfl⟩ := h; exact hn
          | true =>
            rw [run_openBlock_over hz hok hn] at h
            simp at h; obtain ⟨rfl, rfl⟩ := h; simp [Store.unlinked]

theorem run_attach_names {a : Str} {i : Nat} {s' : Store} (h : (attach a).run E s = (.ok i, s')) :
    s' = s ∧ s.names a = some i := by
  cases hok : E.okName a with
  | false => rw [run_attach_bad s hok] at h; simp at h
  | true =>
    cases hn : s.names a with
    | none => rw [run_attach_none hok hn] at h; simp at h
    | some j => rw [run_attach hok hn] at h; simp at h; exact ⟨h.2.symm, by rw [h.1]⟩

theorem foot_write {a : Str} {i : Nat} {b : Bytes} (w : s.WF) (ha : T a) (hn : s.names a = some i) :
    Foot E T D (write i b) s :=
  always_write ⟨w, Mod.refl _ _ _⟩ fun _ => ⟨wf_wrote w _ _, ((eff_wrote w hn b).sameOff ha).mod⟩

theorem foot_writeFront {a : Str} {i : Nat} {b : Bytes} (w : s.WF) (ha : T a) (hn : s.names a = some i) :
    Foot E T D (writeFront i b) s :=
  always_prim_run ⟨w, Mod.refl _ _ _⟩ (run_writeFront i b s)
    ⟨wf_wrote w _ _, ((eff_wrote w hn (b ++ (s.segs i).drop b.length)).sameOff ha).mod⟩

theorem mod_unlinked {a : Str} (w : s.WF) (ha : T a ∨ D a) : Mod T D s (s.unlinked a) := by
  intro x hx
  have f := eff_unlinked w a
  by_cases hxa : x = a
  · subst hxa
    rcases ha with h | h
    · exact absurd h hx
    · exact Or.inr ⟨h, by rw [f.content, if_pos rfl]⟩
  · exact Or.inl ⟨f.names x hxa, by rw [f.content, if_neg hxa]⟩

theorem foot_unlink {a : Str} (w : s.WF) (ha : T a ∨ D a) : Foot E T D (unlink a) s :=
  always_unlink ⟨w, Mod.refl _ _ _⟩ ⟨wf_unlinked w _, mod_unlinked w ha⟩

theorem foot_deleteBlock {a : Str} {mo : Bool} (w : s.WF) (ha : T a ∨ D a) : Foot E T D (deleteBlock a mo) s :=
  always_deleteBlock ⟨w, Mod.refl _ _ _⟩ ⟨wf_unlinked w _, mod_unlinked w ha⟩

theorem foot_intBytes {wd n : Nat} (w : s.WF) : Foot E T D (intBytes wd n) s := always_intBytes ⟨w, Mod.refl _ _ _⟩

/-- `open_block` and a write to it -/
theorem foot_put {a : Str} {size : Nat} {cr ow : Bool} {b : Bytes} {g : Prog β} (w : s.WF) (ha : T a)
    (hg : ∀ s', s'.WF → Mod T D s s' → Foot E T D g s') :
    Foot E T D (do let h ← openBlock a size cr ow; write h b; g) s :=
  foot_bind (foot_openBlock w ha) fun i s1 hr w1 m1 =>
    foot_bind (foot_write w1 ha (run_openBlock_names hr)) fun _ s2 _ w2 m2 => by
      exact always_mono (hg s2 w2 (m1.trans m2)) fun _ h => h

theorem mod_names {a : Str} {i : Nat} {s' : Store} (hn : s.names a = some i) (hm : Mod T D s s') (h1 : ¬ T a) (h2 : ¬ D a) :
    s'.names a = some i := by
  rcases hm a h1 with h | h
  · rw [h.1]; exact hn
  · exact absurd h.1 h2

theorem foot_names {p : Prog α} {a x : Str} {r : Outcome α} {s' : Store} (hp : Foot E (fun y => y = a) (fun _ => False) p s)
    (hr : p.run E s = (r, s')) (hx : x ≠ a) : s'.names x = s.names x := by
  have := (always_end hp).2
  rw [hr] at this
  rcases this x hx with h | h
  · exact h.1
  · exact absurd h.1 id

/-! ## index operations -/

theorem run_readOnly_same {p : Prog α} (h : p.ReadOnly) {r : Outcome α} {s' : Store} (hr : p.run E s = (r, s')) : s' = s := by
  have := ReadOnly.run (E := E) h s; rw [hr] at this; exact this

theorem foot_indexAdd_ (w : s.WF) {ix : Index} {keys : List Str} (h : IxRep E s ix keys) (hmem : T ix.name)
    {key : Key} {eo : Bool} (hkey : T (keyAddr ix.name keys.length)) (hhash : T (hashAddr E ix.name (key.hashed E))) :
    Foot E T D (indexAdd_ E ix key eo) s := by
  unfold indexAdd_
  refine foot_bind (foot_look (readOnly_check _ _ _) w) fun r s' hr _ _ => ?_
  have := run_readOnly_same (readOnly_check _ _ _) hr
  subst this
  cases r with
  | some i => cases eo <;> first | exact foot_pure w | exact foot_raise w
  | none =>
    refine foot_bind (foot_look (readOnly_readLength _) w) fun n s1 hr _ _ => ?_
    rw [run_readLength h] at hr
    injection hr with hr1 hr2; injection hr1 with hr1; subst hr1; subst hr2
    refine foot_bind (foot_intBytes w) fun nb s1 hr _ _ => ?_
    have : s1 = s' := by unfold intBytes at hr; split at hr <;> simp at hr; exact hr.2.symm
    subst this
    refine foot_bind (foot_write w hmem h.mem) fun _ s2 _ w2 _ => ?_
    refine foot_put w2 hkey fun s3 w3 _ => ?_
    refine foot_bind (foot_intBytes w3) fun pb s4 hr w4 _ => ?_
    exact foot_put w4 hhash fun s5 w5 _ => foot_pure w5

theorem foot_memorize {M : Type} {c : Codec M} {v : M} {a : Str} {eo : Bool} (w : s.WF) (ha : T a) :
    Foot E T D (memorize c v a eo) s := by
  have tail : ∀ s', s'.WF → Foot E T D (do
      let encoded ← Prog.ofExcept (c.encode v)
      let block ← openBlock a encoded.length true true
      write block encoded
      pure a : Prog Str) s' := fun s' w' =>
    foot_bind (foot_look (readOnly_ofExcept _) w') fun enc s1 hr w1 _ => foot_put w1 ha fun s2 w2 _ => foot_pure w2
  unfold memorize
  cases eo with
  | true => simp only [Bool.true_eq_false, if_false]; exact tail s w
  | false =>
    simp only [if_true]
    refine foot_bind (foot_look (readOnly_existsBlock a) w) fun b s1 hr w1 _ => ?_
    cases b with
    | true => exact foot_raise w1
    | false => exact tail s1 w1

theorem foot_memorizeArray {ar : Arr} {a : Str} {eo : Bool} (w : s.WF) (ha : T a) :
    Foot E T D (memorizeArray ar a eo) s := by
  unfold memorizeArray
  refine foot_bind (foot_openBlock w ha) fun i s1 hr w1 _ => ?_
  have hi := run_openBlock_names hr
  refine foot_bind (foot_look (readOnly_read i) w1) fun buf s2 hr w2 _ => ?_
  have := run_readOnly_same (readOnly_read i) hr
  subst this
  by_cases h1 : buf.length < ar.data.length
  · rw [if_pos h1]; exact foot_raise w2
  · rw [if_neg h1]
    by_cases h2 : ar.shape = []
    · rw [if_pos h2]; exact foot_raise w2
    · rw [if_neg h2]
      exact foot_bind (foot_writeFront w2 ha hi) fun _ s3 _ w3 _ => foot_pure w3

theorem foot_indexDel_ (w : s.WF) {ix : Index} {keys : List Str} (h : IxRep E s ix keys) (hok : NamesOK E ix.name) {key : Key}
    (hk : key.hashed E = E.utf8 key.text) {i : Nat} (hi : keys[i]? = some key.text) {l : Str}
    (hl : keys[keys.length - 1]? = some l) (hmem : T ix.name) (hki : T (keyAddr ix.name i))
    (hkl : T (keyAddr ix.name (keys.length - 1))) (hhl : l ≠ key.text → T (hashAddr E ix.name (E.utf8 l)))
    (hh : T (hashAddr E ix.name (E.utf8 key.text)) ∨ D (hashAddr E ix.name (E.utf8 key.text))) :
    Foot E T D (indexDel_ E ix key) s := by
  unfold indexDel_
  rw [hk]
  refine foot_bind (foot_look (readOnly_check _ _ _) w) fun r s' hr _ _ => ?_
  rw [run_check_some h hok hi] at hr
  injection hr with hr1 hr2; injection hr1 with hr1; subst hr1; subst hr2
  refine foot_bind (foot_look (readOnly_readLength _) w) fun n s1 hr _ _ => ?_
  rw [run_readLength h] at hr
  injection hr with hr1 hr2; injection hr1 with hr1; subst hr1; subst hr2
  -- what follows the moving
  have tail : ∀ s3, s3.WF → s3.names ix.name = some ix.memory → Foot E T D (do
      deleteBlock (hashAddr E ix.name (E.utf8 key.text))
      let nb ← intBytes 8 (keys.length - 1)
      write ix.memory nb
      pure (i, keys.length) : Prog (Nat × Nat)) s3 := by
    intro s3 w3 m3
    refine foot_bind (foot_deleteBlock w3 hh) fun _ s4 hr w4 m4 => ?_
    have n4 : s4.names ix.name = some ix.memory := by
      have hr' : (deleteBlock (hashAddr E ix.name (E.utf8 key.text))).run E s3 = (.ok (), s4) := hr
      cases hn : s3.names (hashAddr E ix.name (E.utf8 key.text)) with
      | none => rw [run_deleteBlock_none (hok.hash _) hn] at hr'; simp at hr'
      | some j =>
        rw [run_deleteBlock (hok.hash _) hn] at hr'
        simp at hr'
        subst hr'
        rw [names_unlinked, if_neg (by rw [addr_hash]; exact (hash_ne_mem _ _).symm)]; exact m3
    refine foot_bind (foot_intBytes w4) fun nb s5 hr w5 _ => ?_
    have : s5 = s4 := by unfold intBytes at hr; split at hr <;> simp at hr; exact hr.2.symm
    subst this
    exact foot_bind (foot_write w5 hmem n4) fun _ s6 _ w6 _ => foot_pure w6
  by_cases hlast : i + 1 = keys.length
  · rw [if_neg (by simpa using hlast)]
    refine foot_bind (foot_deleteBlock w (Or.inl hki)) fun _ s3 hr w3 _ => tail s3 w3 ?_
    rw [foot_names (foot_deleteBlock w (Or.inl rfl)) hr (key_ne_mem _ _).symm]; exact h.mem
  · rw [if_pos hlast]
    have hne : l ≠ key.text := by
      rintro rfl
      have li : i < keys.length := by
        by_contra hc; rw [List.getElem?_eq_none (by omega)] at hi; simp at hi
      have := (List.getElem?_inj li h.nodup).1 (hi.trans hl.symm)
      omega
    refine foot_bind (foot_look (readOnly_attach _) w) fun lh s1 hr w1 _ => ?_
    obtain ⟨rfl, hlh⟩ := run_attach_names hr
    refine foot_bind (foot_look (readOnly_read _) w) fun lk s2 hr _ _ => ?_
    rw [run_read] at hr
    injection hr with hr1 hr2; injection hr1 with hr1; subst hr1; subst hr2
    have hlk : s1.segs lh = E.utf8 l := by
      have := h.key _ _ hl
      rw [content_some hlh] at this
      injection this
    rw [hlk]
    refine foot_bind (foot_openBlock w hki) fun mh s2 hr w2 _ => ?_
    have n2 : s2.names ix.name = some ix.memory := by
      rw [foot_names (foot_openBlock w rfl) hr (key_ne_mem _ _).symm]; exact h.mem
    have hmh := run_openBlock_names hr
    refine foot_bind (foot_write w2 hki hmh) fun _ s3 hr w3 _ => ?_
    have n3 : s3.names ix.name = some ix.memory := by
      rw [foot_names (foot_write w2 rfl hmh) hr (key_ne_mem _ i).symm]; exact n2
    refine foot_bind (foot_look (readOnly_attach _) w3) fun nh s4 hr w4 _ => ?_
    obtain ⟨rfl, hnh⟩ := run_attach_names hr
    refine foot_bind (foot_intBytes w4) fun fb s5 hr w5 _ => ?_
    have : s5 = s4 := by unfold intBytes at hr; split at hr <;> simp at hr; exact hr.2.symm
    subst this
    refine foot_bind (foot_write w5 (hhl hne) hnh) fun _ s6 hr w6 _ => ?_
    have n6 : s6.names ix.name = some ix.memory := by
      rw [foot_names (foot_write w5 rfl hnh) hr (by rw [addr_hash]; exact (hash_ne_mem _ _).symm)]; exact n3
    refine foot_bind (foot_unlink w6 (Or.inl hkl)) fun _ s7 hr w7 _ => tail s7 w7 ?_
    rw [foot_names (foot_unlink w6 (Or.inl rfl)) hr (key_ne_mem _ _).symm]; exact n6

/-- `with lock: body`, uncontended; the body leaves the lock's blocks alone -/
theorem foot_withLock {T' D' : Str → Prop} {name : Str} {fl : Nat} {mode : LockMode} {body : Prog α} (w : s.WF)
    (hok : NamesOK E name) (hc : LockClean s name fl) (hb : fl + 1 < 256 ^ 5)
    (hbody : ∀ s1, s1.WF → SameOff (lockNames name) s s1 → Foot E T' D' body s1)
    (hl : ∀ x, lockNames name x → T x) (hT : ∀ x, T' x → T x) (hD : ∀ x, D' x → T x ∨ D x)
    (hn : ∀ x, T' x ∨ D' x → ¬ lockNames name x) : Foot E T D (withLock mode name body) s := by
  refine always_withLock w hok hc hb (P := fun s' => s'.WF ∧ Mod T D s s') ?_ ⟨w, Mod.refl _ _ _⟩ ?_
  · intro s1 s2 w2 h1 h12
    exact ⟨w2, h1.2.trans (h12.mono hl).mod⟩
  · intro s1 w1 h1 hP
    have hf := hbody s1 w1 h1
    refine ⟨always_mono hf fun s2 h2 => ⟨h2.1, hP.2.trans (h2.2.mono hT hD)⟩, ?_⟩
    have he := (always_end hf).2
    intro x hx
    have hx' : lockNames name x := Classical.not_not.1 hx
    rcases he x (fun h => hn x (Or.inl h) hx') with h | ⟨h, _⟩
    · exact h
    · exact absurd hx' (hn x (Or.inr h))

end Verif.Lemmas
