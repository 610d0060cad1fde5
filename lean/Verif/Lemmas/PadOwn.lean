import Verif.Lemmas.Private
import Verif.Spec.Own
/-!
# A process and its own blocks, whatever the others do
-/
namespace Verif.Lemmas
open Verif Verif.Model Verif.Spec
variable {α β V ρ : Type} {E : Env} {X D : Str → Prop} {s : Store} {H : Nat → Prop}

/-- the handles are of segments that no name in `X` has, or will ever have -/
def Good (X : Str → Prop) (H : Nat → Prop) (s : Store) : Prop := ∀ h, H h → h < s.next ∧ ∀ x, X x → s.names x ≠ some h

/-- what the others do: they leave the blocks in `X` alone -/
structure RPriv (X : Str → Prop) (s s' : Store) : Prop where
  wf : s'.WF
  next : s.next ≤ s'.next
  same : SameOff (fun x => ¬ X x) s s'

theorem RPriv.refl (w : s.WF) : RPriv X s s := ⟨w, Nat.le_refl _, SameOff.refl _ _⟩

theorem RPriv.trans (a b c : Store) (h1 : RPriv X a b) (h2 : RPriv X b c) : RPriv X a c :=
  ⟨h2.wf, Nat.le_trans h1.next h2.next, h1.same.trans h2.same⟩

theorem RPriv.lock {s' : Store} (h : RPriv X s s') : RLock (fun x => ¬ X x) s s' := ⟨h.wf, h.same⟩

theorem Good.rely {s' : Store} (hg : Good X H s) (hr : RPriv X s s') : Good X H s' := fun h hh =>
  ⟨Nat.lt_of_lt_of_le (hg h hh).1 hr.next, fun x hx => by rw [(hr.same x (not_not.2 hx)).1]; exact (hg h hh).2 x hx⟩

theorem step_next (E : Env) (o : Op) (s : Store) : s.next ≤ (o.step E s).2.next := by
  cases o with
  | create n z =>
    simp only [Op.step]
    split
    · exact Nat.le_refl _
    · split
      · exact Nat.le_refl _
      · split
        · exact Nat.le_refl _
        · exact Nat.le_succ _
  | attach n =>
    simp only [Op.step]
    split
    · exact Nat.le_refl _
    · split <;> exact Nat.le_refl _
  | unlink n => simp only [Op.step]; split <;> exact Nat.le_refl _
  | read h => exact Nat.le_refl _
  | write h b => simp only [Op.step]; split <;> exact Nat.le_refl _
  | writeFront h b => exact Nat.le_refl _

/-- a step of anybody keeps handles good -/
theorem Good.step (hg : Good X H s) (o : Op) : Good X H (o.step E s).2 := by
  intro h hh
  refine ⟨Nat.lt_of_lt_of_le (hg h hh).1 (step_next E o s), fun x hx => ?_⟩
  have h0 := (hg h hh).2 x hx
  cases o with
  | create n z =>
    simp only [Op.step]
    split
    · exact h0
    · split
      · exact h0
      · split
        · exact h0
        · simp only
          split
          · intro e
            injection e with e
            have := (hg h hh).1
            omega
          · exact h0
  | attach n =>
    simp only [Op.step]
    split
    · exact h0
    · split <;> exact h0
  | unlink n =>
    simp only [Op.step]
    split
    · simp only; split
      · simp
      · exact h0
    · exact h0
  | read h => exact h0
  | write h b => simp only [Op.step]; split <;> exact h0
  | writeFront h b => exact h0

/-- a step of a program that keeps off `X` -/
theorem uses_step {Q : Except PyErr α → (Nat → Prop) → Prop} {o : Op} {k : Except PyErr o.Res → Prog α}
    (hDX : ∀ x, D x → ¬ X x) (h : Uses D Q (.op o k) H) (w : s.WF) (hg : Good X H s) :
    RPriv X s (o.step E s).2 ∧ ∃ H', Uses D Q (k (o.step E s).1) H' ∧ Good X H' (o.step E s).2 := by
  have w' := step_wf E o s w
  have hn := step_next E o s
  have hg' := hg.step (E := E) o
  cases o with
  | create n z =>
    have hXn := hDX n h.1
    refine ⟨⟨w', hn, ?_⟩, _, h.2 _, ?_⟩
    · simp only [Op.step]
      split
      · exact SameOff.refl _ _
      · split
        · exact SameOff.refl _ _
        · split
          · exact SameOff.refl _ _
          · exact (eff_created w n z).sameOff hXn
    · intro j hj
      rcases hj with hj | hj
      · exact hg' j hj
      · revert hj
        simp only [Op.step]
        split
        · intro hj; cases hj
        · split
          · intro hj; cases hj
          · split
            · intro hj; cases hj
            · intro hj
              injection hj with hj
              subst hj
              refine ⟨Nat.lt_succ_self _, fun x hx => ?_⟩
              have : x ≠ n := fun e => hXn (e ▸ hx)
              simp only [if_neg this]
              intro e
              exact absurd (w.lt e) (Nat.lt_irrefl _)
  | attach n =>
    have hXn := hDX n h.1
    have hs : (((Op.attach n).step E s).2) = s := by
      simp only [Op.step]
      split
      · rfl
      · split <;> rfl
    refine ⟨⟨w', hn, ?_⟩, _, h.2 _, ?_⟩
    · rw [hs]; exact SameOff.refl _ _
    · intro j hj
      rcases hj with hj | hj
      · exact hg' j hj
      · rw [hs]
        revert hj
        simp only [Op.step]
        split
        · intro hj; cases hj
        · split
          · rename_i i hi
            intro hj
            injection hj with hj
            subst hj
            exact ⟨w.lt hi, fun x hx e => hXn (w.inj e hi ▸ hx)⟩
          · intro hj; cases hj
  | unlink n =>
    have hXn := hDX n h.1
    refine ⟨⟨w', hn, ?_⟩, _, h.2 _, hg'⟩
    simp only [Op.step]
    split
    · exact (eff_unlinked w n).sameOff hXn
    · exact SameOff.refl _ _
  | read i => exact ⟨⟨w', hn, SameOff.refl _ _⟩, _, h.2 _, hg'⟩
  | write i b =>
    refine ⟨⟨w', hn, ?_⟩, _, h.2 _, hg'⟩
    simp only [Op.step]
    split
    · intro x hx
      refine ⟨rfl, ?_⟩
      have := (hg i h.1).2 x (not_not.1 hx)
      simp only [Store.content]
      cases hnx : s.names x with
      | none => rfl
      | some j =>
        have : j ≠ i := fun e => this (by rw [hnx, e])
        simp [this]
    · exact SameOff.refl _ _
  | writeFront i b =>
    refine ⟨⟨w', hn, ?_⟩, _, h.2 _, hg'⟩
    intro x hx
    refine ⟨rfl, ?_⟩
    have := (hg i h.1).2 x (not_not.1 hx)
    simp only [Op.step, Store.content]
    cases hnx : s.names x with
    | none => rfl
    | some j =>
      have : j ≠ i := fun e => this (by rw [hnx, e])
      simp [this]

/-! ## the process itself -/

/-- `RG` for a process to which the others leave `X`; it may do anything -/
abbrev PRG (E : Env) (X : Str → Prop) (Q : Except PyErr α → Store → Prop) (p : Prog α) (s : Store) : Prop :=
  RG E (RPriv X) (fun _ _ => True) Q p s

theorem prg_bind {Q' : Except PyErr α → Store → Prop} {Q : Except PyErr β → Store → Prop} {p : Prog α}
    {f : α → Prog β} (w : s.WF) (h : PRG E X Q' p s)
    (hok : ∀ a s', s'.WF → Q' (.ok a) s' → PRG E X Q (f a) s') (herr : ∀ e s', Q' (.error e) s' → Q (.error e) s') :
    PRG E X Q (p >>= f) s := by
  show PRG E X Q (p.bind f) s
  induction p generalizing s with
  | ret a => exact hok a s w (h s (RPriv.refl w))
  | raise e => exact fun s' hr => herr e s' (h s' hr)
  | stuck => trivial
  | op o k ih =>
    intro s' hr
    exact ⟨trivial, ih _ (step_wf E o s' hr.wf) (h s' hr).2⟩

theorem prg_attempt {Q' : Except PyErr α → Store → Prop} {Q : Except PyErr (Except PyErr α) → Store → Prop}
    {p : Prog α} (h : PRG E X Q' p s) (hq : ∀ r s', Q' r s' → Q (.ok r) s') : PRG E X Q p.attempt s := by
  show PRG E X Q (Prog.catch_ (p.bind fun a => .ret (.ok a)) fun e => .ret (.error e)) s
  induction p generalizing s with
  | ret a => exact fun s' hr => hq _ s' (h s' hr)
  | raise e => exact fun s' hr => hq _ s' (h s' hr)
  | stuck => trivial
  | op o k ih => exact fun s' hr => ⟨trivial, ih _ (h s' hr).2⟩

theorem prg_mono {Q' Q : Except PyErr α → Store → Prop} {p : Prog α}
    (h : PRG E X Q' p s) (hq : ∀ r s', Q' r s' → Q r s') : PRG E X Q p s := by
  induction p generalizing s with
  | ret a => exact fun s' hr => hq _ s' (h s' hr)
  | raise e => exact fun s' hr => hq _ s' (h s' hr)
  | stuck => trivial
  | op o k ih => exact fun s' hr => ⟨trivial, ih _ (h s' hr).2⟩

theorem prg_of_lrg {Q : Except PyErr α → Store → Prop} {p : Prog α} (h : LRG E (fun x => ¬ X x) Q p s) : PRG E X Q p s := by
  induction p generalizing s with
  | ret a => exact fun s' hr => h s' hr.lock
  | raise e => exact fun s' hr => h s' hr.lock
  | stuck => trivial
  | op o k ih => exact fun s' hr => ⟨trivial, ih _ (h s' hr.lock).2⟩

/-- a program of the process itself that keeps off `X` -/
theorem prg_uses {Q : Except PyErr α → (Nat → Prop) → Prop} {p : Prog α} (hDX : ∀ x, D x → ¬ X x) (h : Uses D Q p H)
    (hg : Good X H s) : PRG E X (fun _ s' => RPriv X s s') p s := by
  suffices hs : ∀ s0, RPriv X s0 s ∨ s0 = s → PRG E X (fun _ s' => RPriv X s0 s') p s from hs s (Or.inr rfl)
  induction p generalizing s H with
  | ret a => intro s0 h0 s' hr; exact h0.elim (fun h0 => h0.trans _ _ _ hr) fun h0 => h0 ▸ hr
  | raise e => intro s0 h0 s' hr; exact h0.elim (fun h0 => h0.trans _ _ _ hr) fun h0 => h0 ▸ hr
  | stuck => intros; trivial
  | op o k ih =>
    intro s0 h0 s' hr
    obtain ⟨h1, H', h2, h3⟩ := uses_step (E := E) hDX h hr.wf (hg.rely hr)
    refine ⟨trivial, ih _ h2 h3 s0 (Or.inl ?_)⟩
    rcases h0 with h0 | rfl
    · exact (h0.trans _ _ _ hr).trans _ _ _ h1
    · exact hr.trans _ _ _ h1

/-! ## processes together -/

/-- process `i` proceeds as `PRG` says when the others keep off its blocks -/
theorem private_run {γ : Type} {Q : Except PyErr γ → Store → Prop} (hDX : ∀ x, D x → ¬ X x) (i : Nat) (sched : List Nat)
    (ps : List (Prog γ)) (s : Store) (w : s.WF) (p : Prog γ) (hi : ps[i]? = some p) (hp : PRG E X Q p s)
    (ho : ∀ j q, ps[j]? = some q → j ≠ i → ∃ H, Uses D anyEnd q H ∧ Good X H s) :
    ∃ p', (interleave E sched ps s).1[i]? = some p' ∧ PRG E X Q p' (interleave E sched ps s).2 ∧
      (interleave E sched ps s).2.WF := by
  induction sched generalizing ps s p with
  | nil => exact ⟨p, hi, hp, w⟩
  | cons j sched ih =>
    rw [interleave]
    cases hj : ps[j]? with
    | none => exact ih ps s w p hi hp ho
    | some q =>
      cases q with
      | ret a => exact ih ps s w p hi hp ho
      | raise e => exact ih ps s w p hi hp ho
      | stuck => exact ih ps s w p hi hp ho
      | op o k =>
        have hlt : j < ps.length := by
          by_contra hc
          rw [List.getElem?_eq_none (by omega)] at hj
          cases hj
        simp only [Prog.step]
        by_cases hji : j = i
        · subst hji
          rw [hi] at hj
          cases hj
          refine ih _ _ (step_wf E o s w) (k (o.step E s).1) (by rw [List.getElem?_set_self hlt]) (hp s (RPriv.refl w)).2 ?_
          intro j' q' hq' hne
          rw [List.getElem?_set_ne (Ne.symm hne)] at hq'
          obtain ⟨H, h1, h2⟩ := ho j' q' hq' hne
          exact ⟨H, h1, h2.step o⟩
        · obtain ⟨H, h1, h2⟩ := ho j _ hj hji
          obtain ⟨hr, H', h3, h4⟩ := uses_step (E := E) hDX h1 w h2
          refine ih _ _ hr.wf p (by rw [List.getElem?_set_ne hji]; exact hi) (rg_rely RPriv.trans hp hr) ?_
          intro j' q' hq' hne
          by_cases hjj : j = j'
          · subst hjj
            rw [List.getElem?_set_self hlt] at hq'
            cases hq'
            exact ⟨H', h3, h4⟩
          · rw [List.getElem?_set_ne hjj] at hq'
            obtain ⟨H, h1, h2⟩ := ho j' q' hq' hne
            exact ⟨H, h1, h2.step o⟩

/-! ## calls of the others -/

variable {c : Codec V} {isNone : V → Bool} {p : Pad}

/-- the notepad's index, if any, has the usual name, and its block is the one the object has open -/
def PadOpen (p : Pad) (s : Store) : Prop := ∀ ix, p.index = .tag ix → ix.name = indexName p.pre ∧ s.names ix.name = some ix.memory

/-- the handle of the index block -/
def memHandle (p : Pad) : Nat → Prop := fun h => ∃ ix, p.index = .tag ix ∧ h = ix.memory

theorem uses_memorize {v : V} {a : Str} {eo : Bool} (ha : D a) : Uses D anyEnd (memorize c v a eo) H := by
  have tail : ∀ H' : Nat → Prop, Uses D anyEnd (do
      let encoded ← Prog.ofExcept (c.encode v)
      let block ← openBlock a encoded.length true true
      write block encoded
      pure a) H' := fun H' =>
    uses_then uses_ofExcept fun b H1 _ => uses_handle (uses_openBlock ha) fun h H2 _ hh =>
      uses_then (uses_write hh) fun _ _ _ => trivial
  unfold memorize
  simp only
  split
  · refine uses_then (uses_existsBlock ha) fun b H1 _ => ?_
    cases b
    · exact tail H1
    · trivial
  · exact tail H

theorem uses_remember {a : Str} (ha : D a) : Uses D anyEnd (remember c a) H := by
  unfold remember fetchBlockBytes
  refine uses_then (uses_handle (uses_attach ha) fun h H1 _ hh => uses_read hh) fun _ _ _ => uses_ofExcept

theorem uses_call (hs : ∀ sl : Slot, D (sl.addr (indexName p.pre))) (hn : ∀ ix, p.index = .tag ix → ix.name = indexName p.pre)
    {own : Str → Prop} (hk : ∀ k, own k → D (padAddr p.pre k)) (hm : ∀ j, memHandle p j → H j) (o : PadCall V) (ho : o.On own) :
    Uses D anyEnd (o.run E c isNone p) H := by
  cases o with
  | get k =>
    refine uses_then ?_ fun _ _ _ => trivial
    unfold padGet
    refine uses_then (uses_remember (hk _ ho)) fun v H1 _ => ?_
    split <;> trivial
  | set k v eo =>
    refine uses_then ?_ fun _ _ _ => trivial
    unfold padSet
    split
    · trivial
    · refine uses_try (uses_then ?_ fun _ H1 _ => uses_then (uses_memorize (hk _ ho)) fun _ _ _ => trivial) fun r H1 _ => ?_
      · unfold padIndexAdd
        cases hp : p.index with
        | fake => trivial
        | tag ix =>
          simp only [Bool.false_eq_true, if_false]
          exact uses_then (uses_indexAdd hs (hn ix hp) (hm _ ⟨ix, hp, rfl⟩) _ _ _) fun _ _ _ => trivial
      · rcases r with e | u
        · cases e <;> trivial
        · trivial
  | del k =>
    refine uses_then ?_ fun _ _ _ => trivial
    unfold padDel
    split
    · trivial
    · refine uses_try (uses_then (uses_deleteBlock (hk _ ho)) fun _ H1 s1 => ?_) fun r H1 _ => ?_
      · unfold padIndexDel
        cases hp : p.index with
        | fake => trivial
        | tag ix =>
          exact uses_then (uses_indexDel hs (hn ix hp) (s1 _ (hm _ ⟨ix, hp, rfl⟩)) _ _) fun _ _ _ => trivial
      · rcases r with e | u
        · cases e <;> trivial
        · trivial
  | keys =>
    refine uses_then ?_ fun _ _ _ => trivial
    unfold padKeys
    cases hp : p.index with
    | fake => trivial
    | tag ix => exact uses_then (uses_indexUpdate hs (hn ix hp) (hm _ ⟨ix, hp, rfl⟩)) fun _ _ _ => trivial

theorem uses_script (hs : ∀ sl : Slot, D (sl.addr (indexName p.pre))) (hn : ∀ ix, p.index = .tag ix → ix.name = indexName p.pre)
    {own : Str → Prop} (hk : ∀ k, own k → D (padAddr p.pre k)) (hm : ∀ j, memHandle p j → H j) (sc : PadScript V ρ) (ho : sc.On own) :
    Uses D anyEnd (sc.prog E c isNone p) H := by
  induction sc generalizing H with
  | ret r => trivial
  | raise e => trivial
  | call o k ih => exact uses_try (uses_call hs hn hk hm o ho.1) fun r H' hs' => ih r (fun j hj => hs' _ (hm j hj)) (ho.2 r)

/-! ## the calls of the process itself -/

theorem lrg_remember {Y : Str → Prop} {a : Str} (w : s.WF) (hok : E.okName a = true) (ha : ¬ Y a) :
    LRG E Y (fun r s' => r = (match s.content a with | none => .error .fileNotFound | some b => c.decode b) ∧ RLock Y s s')
      (remember c a) s := by
  unfold remember fetchBlockBytes
  cases hc : s.content a with
  | none =>
    refine lrg_bind (Q' := fun r s' => r = .error .fileNotFound ∧ RLock Y s s') w ?_ (fun a s' _ h => by cases h.1) ?_
    · exact lrg_bind w (lrg_attach_none hok ha (content_none.1 hc)) (fun a s' _ h => by cases h.1) fun e s' h =>
        ⟨by injection h.1 with h1; rw [h1], h.2⟩
    · exact fun e s' h => ⟨by injection h.1 with h1; rw [h1], h.2⟩
  | some b =>
    obtain ⟨i, hn, hb⟩ : ∃ i, s.names a = some i ∧ s.segs i = b := by
      unfold Store.content at hc
      cases hn : s.names a with
      | none => rw [hn] at hc; cases hc
      | some i => rw [hn] at hc; injection hc with hc; exact ⟨i, rfl, hc⟩
    refine lrg_bind (Q' := fun r s' => r = .ok b ∧ RLock Y s s') w ?_ ?_ (fun e s' h => by cases h.1)
    · refine lrg_bind w (lrg_attach_some hok ha hn) ?_ (fun e s' h => by cases h.1)
      rintro j s1 w1 ⟨h1, r1⟩
      injection h1 with h1
      subst h1
      refine lrg_mono (lrg_read ha (r1.names_some ha hn)) fun r s2 h2 => ⟨?_, r1.trans _ _ _ h2.2⟩
      have e := (r1.2 a ha).2
      rw [content_some hn, content_some (r1.names_some ha hn)] at e
      injection e with e
      rw [h2.1, e, hb]
    · rintro b' s1 w1 ⟨h1, r1⟩
      injection h1 with h1
      subst h1
      simp only
      cases c.decode b' with
      | ok v => exact fun s2 h2 => ⟨rfl, r1.trans _ _ _ h2⟩
      | error e => exact fun s2 h2 => ⟨rfl, r1.trans _ _ _ h2⟩

theorem lrg_memorize {Y : Str → Prop} {a : Str} {v : V} {eo : Bool} (w : s.WF) (hok : E.okName a = true) (ha : ¬ Y a)
    (henc : ∀ b, c.encode v = .ok b → b ≠ []) :
    LRG E Y (fun r s' => (r = .ok a ∧ (eo = true ∨ s.content a = none) ∧ ∃ b, c.encode v = .ok b ∧ EffL Y s s' a (some b)) ∨
      ((∃ e, r = .error e ∧ ((∀ b, c.encode v ≠ .ok b) ∨ (eo = false ∧ s.content a ≠ none))) ∧ RLock Y s s')) (memorize c v a eo) s := by
  have tail : ∀ s1, RLock Y s s1 → (eo = true ∨ s.content a = none) → LRG E Y (fun r s' =>
      (r = .ok a ∧ (eo = true ∨ s.content a = none) ∧ ∃ b, c.encode v = .ok b ∧ EffL Y s s' a (some b)) ∨
        ((∃ e, r = .error e ∧ ((∀ b, c.encode v ≠ .ok b) ∨ (eo = false ∧ s.content a ≠ none))) ∧ RLock Y s s')) (do
      let encoded ← Prog.ofExcept (c.encode v)
      let block ← openBlock a encoded.length true true
      write block encoded
      pure a) s1 := by
    intro s1 r1 hfree
    cases he : c.encode v with
    | error e => exact fun s2 h2 => Or.inr ⟨⟨e, rfl, Or.inl fun b => by simp⟩, r1.trans _ _ _ h2⟩
    | ok b =>
      have hb := henc b he
      have hl : b.length ≠ 0 := fun h => hb (List.eq_nil_of_length_eq_zero h)
      show LRG E Y _ (openBlock a b.length true true >>= fun block => write block b >>= fun _ => pure a) s1
      refine lrg_bind r1.1 (lrg_openBlock_fresh r1.1 hl hok ha) ?_ (fun e s' h => by obtain ⟨i, h, _⟩ := h; cases h)
      rintro j s2 w2 ⟨i, h1, h2, h3⟩
      injection h1 with h1
      subst h1
      have hlen : b.length = (s2.segs j).length := by
        have := h3.content a ha
        rw [if_pos rfl, content_some h2] at this
        injection this with this
        rw [this]; simp
      refine lrg_bind w2 (lrg_write ha h2 hlen) ?_ (fun e s' h => by cases h.1)
      rintro _ s3 w3 ⟨_, _, h4⟩
      exact fun s4 h5 => Or.inl ⟨rfl, hfree, b, rfl, ((h3.relyBefore r1).trans h4).rely h5⟩
  unfold memorize
  simp only
  split
  · rename_i heo
    refine lrg_bind w (lrg_existsBlock w hok ha) ?_ (fun e s' h => by cases h.1)
    rintro b s1 w1 ⟨h1, r1⟩
    injection h1 with h1
    subst h1
    cases hn : s.names a with
    | none => exact tail s1 r1 (Or.inr (content_none.2 hn))
    | some i => exact fun s2 h2 => Or.inr ⟨⟨_, rfl, Or.inr ⟨heo, fun hc => by rw [content_none.1 hc] at hn; cases hn⟩⟩, r1.trans _ _ _ h2⟩
  · rename_i heo
    refine tail s (RLock.refl w) (Or.inl ?_)
    cases eo
    · exact absurd rfl heo
    · rfl

theorem lrg_deleteBlock_none {Y : Str → Prop} {a : Str} {mk : Bool} (w : s.WF) (hok : E.okName a = true) (ha : ¬ Y a)
    (hn : s.names a = none) :
    LRG E Y (fun r s' => r = .error .fileNotFound ∧ RLock Y s s') (deleteBlock a mk) s := by
  unfold deleteBlock
  refine lrg_bind w (lrg_attempt (Q := fun r s' => r = .ok (.error .fileNotFound) ∧ RLock Y s s')
    (Q' := fun r s' => r = .error .fileNotFound ∧ RLock Y s s') ?_ fun r s' h => ⟨by rw [h.1], h.2⟩) ?_
    (fun e s' h => by cases h.1)
  · exact lrg_bind w (lrg_attach_none hok ha hn) (fun a s' _ h => by cases h.1) fun e s' h =>
      ⟨by injection h.1 with h1; rw [h1], h.2⟩
  · rintro r s1 w1 ⟨h1, r1⟩
    injection h1 with h1
    subst h1
    exact fun s2 h2 => ⟨rfl, r1.trans _ _ _ h2⟩

/-- the blocks of the keys `own` -/
def ownBlocks (pre : Str) (own : Str → Prop) (x : Str) : Prop := ∃ k, own k ∧ x = padAddr pre k

/-- the keys `own` have the values `st` -/
def Holds (c : Codec V) (pre : Str) (own : Str → Prop) (s : Store) (st : Str → Option V) : Prop :=
  ∀ k, own k → match st k with
    | none => s.content (padAddr pre k) = none
    | some v => ∃ b, c.encode v = .ok b ∧ s.content (padAddr pre k) = some b

/-- the keys in play: not beginning with "index", with names the system accepts -/
structure OwnOK (E : Env) (pre : Str) (own : Str → Prop) : Prop where
  free : ∀ k, own k → ¬ indexWord <+: k
  ok : ∀ k, own k → E.okName (padAddr pre k) = true

/-- the codec gives back what it encodes, in at least one byte -/
def CodecOK (c : Codec V) : Prop := ∀ v b, c.encode v = .ok b → b ≠ [] ∧ c.decode b = .ok v

variable {own : Str → Prop}

theorem Holds.rely {s' : Store} {st : Str → Option V} (h : Holds c p.pre own s st) (hr : RPriv (ownBlocks p.pre own) s s') :
    Holds c p.pre own s' st := by
  intro k hk
  have e := (hr.same _ (not_not.2 ⟨k, hk, rfl⟩)).2
  rw [e]
  exact h k hk

theorem Holds.eff {s' : Store} {st : Str → Option V} (h : Holds c p.pre own s st) {k : Str} {x : Option V} {b : Option Bytes}
    (he : EffL (fun x => ¬ ownBlocks p.pre own x) s s' (padAddr p.pre k) b)
    (hx : match x with | none => b = none | some v => ∃ b', c.encode v = .ok b' ∧ b = some b') :
    Holds c p.pre own s' (ownPut st k x) := by
  intro k' hk'
  have e := he.content (padAddr p.pre k') (not_not.2 ⟨k', hk', rfl⟩)
  rw [e]
  by_cases hkk : k' = k
  · subst hkk
    simp only [ownPut, if_pos]
    cases x with
    | none => exact hx
    | some v => exact hx
  · rw [if_neg fun e => hkk (pad_inj e)]
    simp only [ownPut, if_neg hkk]
    exact h k' hk'

/-- handles stay good whatever happens -/
theorem prg_good {Q : Except PyErr α → Store → Prop} {q : Prog α} (h : PRG E X Q q s) (hg : Good X H s) :
    PRG E X (fun r s' => Q r s' ∧ Good X H s') q s := by
  induction q generalizing s with
  | ret a => exact fun s' hr => ⟨h s' hr, hg.rely hr⟩
  | raise e => exact fun s' hr => ⟨h s' hr, hg.rely hr⟩
  | stuck => trivial
  | op o k ih => exact fun s' hr => ⟨trivial, ih _ (h s' hr).2 ((hg.rely hr).step o)⟩

theorem slots_off (hU : OwnOK E p.pre own) (sl : Slot) : ¬ ownBlocks p.pre own (sl.addr (indexName p.pre)) := by
  rintro ⟨k, hk, e⟩
  exact slot_ne_pad (hU.free k hk) sl e

theorem prg_raise {Q : Except PyErr α → Store → Prop} {e : PyErr} (h : ∀ s', RPriv X s s' → Q (.error e) s') :
    PRG E X Q (.raise e) s := h

theorem prg_call (hc : CodecOK c) (hU : OwnOK E p.pre own) (w : s.WF) (hn : ∀ ix, p.index = .tag ix → ix.name = indexName p.pre)
    {st : Str → Option V} (h : Holds c p.pre own s st) (hg : Good (ownBlocks p.pre own) (memHandle p) s) (o : PadCall V)
    (ho : o.On own) :
    PRG E (ownBlocks p.pre own) (fun r s' => (∃ st', OwnStep isNone st o r st' ∧ Holds c p.pre own s' st') ∧
      Good (ownBlocks p.pre own) (memHandle p) s') (o.run E c isNone p) s := by
  refine prg_good ?_ hg
  cases o with
  | get k =>
    refine prg_bind (Q' := fun r s' => r.map PadOut.val = ownGet isNone (st k.text) ∧ Holds c p.pre own s' st) w ?_ ?_ ?_
    · unfold padGet
      have hk := h k.text ho
      refine prg_bind w (prg_of_lrg (lrg_remember (c := c) w (hU.ok _ ho) (not_not.2 ⟨_, ho, rfl⟩))) ?_ ?_
      · rintro v s1 w1 ⟨h1, r1⟩
        have h1' : Holds c p.pre own s1 st := fun k' hk' => by
          rw [(r1.2 _ (not_not.2 ⟨k', hk', rfl⟩)).2]; exact h k' hk'
        cases hst : st k.text with
        | none => rw [hst] at hk; simp only at hk; rw [hk] at h1; cases h1
        | some v' =>
          rw [hst] at hk
          obtain ⟨b, hb, hcb⟩ := hk
          rw [hcb] at h1
          simp only at h1
          rw [(hc v' b hb).2] at h1
          cases h1
          split
          · rename_i hnil
            exact fun s2 h2 => ⟨by simp [ownGet, hnil, Except.map], h1'.rely h2⟩
          · rename_i hnil
            exact fun s2 h2 => ⟨by simp [ownGet, hnil, Except.map], h1'.rely h2⟩
      · rintro e s1 ⟨h1, r1⟩
        have h1' : Holds c p.pre own s1 st := fun k' hk' => by
          rw [(r1.2 _ (not_not.2 ⟨k', hk', rfl⟩)).2]; exact h k' hk'
        cases hst : st k.text with
        | none =>
          rw [hst] at hk; simp only at hk; rw [hk] at h1
          cases h1
          exact ⟨rfl, h1'⟩
        | some v' =>
          rw [hst] at hk
          obtain ⟨b, hb, hcb⟩ := hk
          rw [hcb] at h1
          simp only at h1
          rw [(hc v' b hb).2] at h1
          cases h1
    · rintro v s1 w1 ⟨h1, h2⟩
      exact fun s2 r2 => ⟨st, ⟨rfl, h1⟩, h2.rely r2⟩
    · rintro e s1 ⟨h1, h2⟩
      exact ⟨st, ⟨rfl, h1⟩, h2⟩
  | set k v eo =>
    refine prg_bind (Q' := fun r s' => (r = .ok () ∧ (eo = true ∨ st k.text = none) ∧
        Holds c p.pre own s' (ownPut st k.text (some v))) ∨ ((∃ e, r = .error e) ∧ Holds c p.pre own s' st)) w ?_ ?_ ?_
    · unfold padSet
      rw [not_reserved (hU.free _ ho)]
      simp only [Bool.false_eq_true, if_false]
      refine prg_bind w (prg_attempt (Q := fun r s' => (r = .ok (.ok ()) ∧ (eo = true ∨ st k.text = none) ∧
          Holds c p.pre own s' (ownPut st k.text (some v))) ∨ ((∃ e, r = .ok (.error e)) ∧ Holds c p.pre own s' st))
        (Q' := fun r s' => (r = .ok () ∧ (eo = true ∨ st k.text = none) ∧
          Holds c p.pre own s' (ownPut st k.text (some v))) ∨ ((∃ e, r = .error e) ∧ Holds c p.pre own s' st)) ?_ ?_) ?_ ?_
      · refine prg_bind (Q' := fun _ s' => RPriv (ownBlocks p.pre own) s s') w ?_ ?_ ?_
        · unfold padIndexAdd
          cases hp : p.index with
          | fake => exact fun s' hr => hr
          | tag ix =>
            simp only [Bool.false_eq_true, if_false]
            refine prg_uses (D := fun x => ¬ ownBlocks p.pre own x) (H := memHandle p) (Q := anyEnd) (fun _ h => h) ?_ hg
            exact uses_then (uses_indexAdd (slots_off hU) (hn ix hp) ⟨ix, hp, rfl⟩ _ _ _) fun _ _ _ => trivial
        · intro _ s1 w1 r1
          have h1 := h.rely r1
          have hcont : s1.content (padAddr p.pre k.text) = s.content (padAddr p.pre k.text) :=
            (r1.same _ (not_not.2 ⟨_, ho, rfl⟩)).2
          refine prg_bind w1 (prg_of_lrg (lrg_memorize w1 (hU.ok _ ho) (not_not.2 ⟨_, ho, rfl⟩) fun b hb => (hc v b hb).1)) ?_ ?_
          · rintro a s2 w2 (⟨_, h2, b, hb, he⟩ | ⟨⟨e, he, _⟩, _⟩)
            · intro s3 r3
              refine Or.inl ⟨rfl, h2.imp_right fun h2 => ?_, (h1.eff (x := some v) he ⟨b, hb, rfl⟩).rely r3⟩
              have hk := h k.text ho
              cases hst : st k.text with
              | none => rfl
              | some v' =>
                rw [hst] at hk
                obtain ⟨b', _, hb'⟩ := hk
                rw [hcont, hb'] at h2
                cases h2
            · cases he
          · rintro e s2 (⟨he, _⟩ | ⟨_, r2⟩)
            · cases he
            · exact Or.inr ⟨⟨e, rfl⟩, fun k' hk' => by
                rw [(r2.2 _ (not_not.2 ⟨k', hk', rfl⟩)).2]; exact h1 k' hk'⟩
        · intro e s1 r1
          exact Or.inr ⟨⟨e, rfl⟩, h.rely r1⟩
      · rintro r s1 (⟨h1, h2⟩ | ⟨⟨e, h1⟩, h2⟩)
        · exact Or.inl ⟨by rw [h1], h2⟩
        · exact Or.inr ⟨⟨e, by rw [h1]⟩, h2⟩
      · rintro r s1 w1 (⟨h1, h2, h3⟩ | ⟨⟨e, h1⟩, h2⟩)
        · injection h1 with h1
          subst h1
          exact fun s2 r2 => Or.inl ⟨rfl, h2, h3.rely r2⟩
        · injection h1 with h1
          subst h1
          cases e <;> exact fun s2 r2 => Or.inr ⟨⟨_, rfl⟩, h2.rely r2⟩
      · rintro e s1 (⟨h1, _⟩ | ⟨⟨e, h1⟩, _⟩) <;> cases h1
    · rintro _ s1 w1 (⟨_, h1, h2⟩ | ⟨⟨e, h1⟩, _⟩)
      · exact fun s2 r2 => ⟨_, Or.inl ⟨rfl, h1, rfl⟩, h2.rely r2⟩
      · cases h1
    · rintro e s1 (⟨h1, _⟩ | ⟨_, h2⟩)
      · cases h1
      · exact ⟨st, Or.inr ⟨⟨e, rfl⟩, rfl⟩, h2⟩
  | del k =>
    refine prg_bind (Q' := fun r s' => (st k.text = none ∧ r = .error .keyError ∧ Holds c p.pre own s' st) ∨
        (st k.text ≠ none ∧ r ≠ .error .fileNotFound ∧ Holds c p.pre own s' (ownPut st k.text none))) w ?_ ?_ ?_
    · unfold padDel
      rw [not_reservedExact (hU.free _ ho)]
      simp only [Bool.false_eq_true, if_false]
      refine prg_bind w (prg_attempt (Q := fun r s' => (st k.text = none ∧ r = .ok (.error .fileNotFound) ∧
          Holds c p.pre own s' st) ∨ (st k.text ≠ none ∧ (∃ x, r = .ok x) ∧ Holds c p.pre own s' (ownPut st k.text none)))
        (Q' := fun r s' => (st k.text = none ∧ r = .error .fileNotFound ∧ Holds c p.pre own s' st) ∨
          (st k.text ≠ none ∧ Holds c p.pre own s' (ownPut st k.text none))) ?_ ?_) ?_ ?_
      · have hk := h k.text ho
        cases hst : st k.text with
        | none =>
          rw [hst] at hk
          refine prg_bind w (prg_of_lrg (lrg_deleteBlock_none w (hU.ok _ ho) (not_not.2 ⟨_, ho, rfl⟩) (content_none.1 hk))) ?_ ?_
          · rintro _ s1 _ ⟨h1, _⟩; cases h1
          · rintro e s1 ⟨h1, r1⟩
            exact Or.inl ⟨rfl, h1, fun k' hk' => by
              rw [(r1.2 _ (not_not.2 ⟨k', hk', rfl⟩)).2]; exact h k' hk'⟩
        | some v =>
          rw [hst] at hk
          obtain ⟨b, _, hb⟩ := hk
          obtain ⟨i, hi⟩ : ∃ i, s.names (padAddr p.pre k.text) = some i := by
            cases hnm : s.names (padAddr p.pre k.text) with
            | none => rw [content_none.2 hnm] at hb; cases hb
            | some i => exact ⟨i, rfl⟩
          refine prg_bind (Q' := fun r s' => r = .ok () ∧ Holds c p.pre own s' (ownPut st k.text none) ∧
              Good (ownBlocks p.pre own) (memHandle p) s') w
            (prg_mono (prg_good (prg_of_lrg (lrg_deleteBlock w (hU.ok _ ho) (not_not.2 ⟨_, ho, rfl⟩) hi)) hg)
              fun r s' hq => ⟨hq.1.1, h.eff (x := none) hq.1.2 rfl, hq.2⟩) ?_ ?_
          · rintro _ s1 w1 ⟨_, h1, hg1⟩
            refine prg_mono (Q' := fun _ s' => RPriv (ownBlocks p.pre own) s1 s') ?_ fun r s2 r2 =>
              Or.inr ⟨by simp, h1.rely r2⟩
            unfold padIndexDel
            cases hp : p.index with
            | fake => exact fun s' hr => hr
            | tag ix =>
              refine prg_uses (D := fun x => ¬ ownBlocks p.pre own x) (H := memHandle p) (Q := anyEnd) (fun _ h => h) ?_ hg1
              exact uses_then (uses_indexDel (slots_off hU) (hn ix hp) ⟨ix, hp, rfl⟩ _ _) fun _ _ _ => trivial
          · rintro e s1 ⟨h1, _⟩; cases h1
      · rintro r s1 (⟨h0, h1, h2⟩ | ⟨h0, h2⟩)
        · exact Or.inl ⟨h0, by rw [h1], h2⟩
        · exact Or.inr ⟨h0, ⟨r, rfl⟩, h2⟩
      · rintro r s1 w1 (⟨h0, h1, h2⟩ | ⟨h0, _, h2⟩)
        · injection h1 with h1
          subst h1
          exact fun s2 r2 => Or.inl ⟨h0, rfl, h2.rely r2⟩
        · rcases r with e | u
          · cases e <;> exact fun s2 r2 => Or.inr ⟨h0, by simp, h2.rely r2⟩
          · exact fun s2 r2 => Or.inr ⟨h0, by simp, h2.rely r2⟩
      · rintro e s1 (⟨_, h1, _⟩ | ⟨_, ⟨x, h1⟩, _⟩) <;> cases h1
    · rintro _ s1 w1 (⟨_, h1, _⟩ | ⟨h0, _, h2⟩)
      · cases h1
      · exact fun s2 r2 => ⟨_, Or.inr ⟨h0, by simp, rfl⟩, h2.rely r2⟩
    · rintro e s1 (⟨h0, h1, h2⟩ | ⟨h0, h1, h2⟩)
      · injection h1 with h1
        exact ⟨st, Or.inl ⟨h0, by rw [h1], rfl⟩, h2⟩
      · exact ⟨_, Or.inr ⟨h0, fun he => h1 (by injection he with he; rw [he]), rfl⟩, h2⟩
  | keys =>
    refine prg_bind (Q' := fun _ s' => RPriv (ownBlocks p.pre own) s s') w ?_ ?_ ?_
    · unfold padKeys
      cases hp : p.index with
      | fake => exact fun s' hr => hr
      | tag ix =>
        refine prg_uses (D := fun x => ¬ ownBlocks p.pre own x) (H := memHandle p) (Q := anyEnd) (fun _ h => h) ?_ hg
        exact uses_then (uses_indexUpdate (slots_off hU) (hn ix hp) ⟨ix, hp, rfl⟩) fun _ _ _ => trivial
    · intro l s1 w1 r1
      exact fun s2 r2 => ⟨st, rfl, (h.rely r1).rely r2⟩
    · intro e s1 r1
      exact ⟨st, rfl, h.rely r1⟩

theorem prg_script (hc : CodecOK c) (hU : OwnOK E p.pre own) (hn : ∀ ix, p.index = .tag ix → ix.name = indexName p.pre)
    (sc : PadScript V ρ) (ho : sc.On own) {s : Store} (w : s.WF) {st : Str → Option V} (h : Holds c p.pre own s st)
    (hg : Good (ownBlocks p.pre own) (memHandle p) s) :
    PRG E (ownBlocks p.pre own) (fun r s' => ∀ x, r = .ok x → ∃ calls st', sc.Follows calls x ∧ OwnLegal isNone st calls st' ∧
      Holds c p.pre own s' st') (sc.prog E c isNone p) s := by
  induction sc generalizing s st with
  | ret r => exact fun s' hr x hx => ⟨[], st, by injection hx, rfl, h.rely hr⟩
  | raise e => exact fun s' hr x hx => by cases hx
  | call o k ih =>
    refine prg_bind w (prg_attempt (Q := fun r s' => ∃ r', r = .ok r' ∧ (∃ st', OwnStep isNone st o r' st' ∧ Holds c p.pre own s' st') ∧
        Good (ownBlocks p.pre own) (memHandle p) s') (prg_call hc hU w hn h hg o ho.1) fun r s' hq => ⟨r, rfl, hq⟩) ?_ ?_
    · rintro r s1 w1 ⟨r', h1, ⟨st1, h2, h3⟩, hg1⟩
      injection h1 with h1
      subst h1
      refine prg_mono (ih r (ho.2 r) w1 h3 hg1) fun x s2 hx y hy => ?_
      obtain ⟨calls, st', h4, h5, h6⟩ := hx y hy
      exact ⟨(o, r) :: calls, st', ⟨rfl, h4⟩, ⟨st1, h2, h5⟩, h6⟩
    · rintro e s1 ⟨r', h1, _⟩
      cases h1

end Verif.Lemmas
