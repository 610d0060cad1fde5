import Verif.Lemmas.TagIndex
/-!
# Programs run among others: rely and guarantee

`RG E R G Q p s`: when, before each operation of `p` and after its end, the others change the store by `R`, every
operation of `p` changes the store by `G`, and when `p` ends its outcome and the store satisfy `Q`.
-/
namespace Verif.Lemmas
open Verif Verif.Model
variable {α β : Type} {E : Env}

def RG (E : Env) (R G : Store → Store → Prop) (Q : Except PyErr α → Store → Prop) : Prog α → Store → Prop
  | .ret a, s => ∀ s', R s s' → Q (.ok a) s'
  | .raise e, s => ∀ s', R s s' → Q (.error e) s'
  | .stuck, _ => True
  | .op o k, s => ∀ s', R s s' → G s' (o.step E s').2 ∧ RG E R G Q (k (o.step E s').1) (o.step E s').2

variable {R G : Store → Store → Prop}

theorem rg_rely (ht : ∀ a b c, R a b → R b c → R a c) {Q : Except PyErr α → Store → Prop} {p : Prog α} {s s' : Store}
    (h : RG E R G Q p s) (hr : R s s') : RG E R G Q p s' := by
  cases p with
  | ret a => exact fun s2 h2 => h s2 (ht _ _ _ hr h2)
  | raise e => exact fun s2 h2 => h s2 (ht _ _ _ hr h2)
  | stuck => trivial
  | op o k => exact fun s2 h2 => h s2 (ht _ _ _ hr h2)

/-- what the others do: they leave every block outside `X` alone (`X`: the blocks of the lock, and others) -/
def RLock (X : Str → Prop) (s s' : Store) : Prop := s'.WF ∧ SameOff X s s'

/-- what the holder of a lock may do: it leaves the blocks in `X` alone -/
def GLock (X : Str → Prop) (s s' : Store) : Prop := SameOff (fun x => ¬ X x) s s'

theorem RLock.refl {X : Str → Prop} {s : Store} (w : s.WF) : RLock X s s := ⟨w, SameOff.refl _ _⟩

theorem RLock.trans {X : Str → Prop} (a b c : Store) (h1 : RLock X a b) (h2 : RLock X b c) : RLock X a c :=
  ⟨h2.1, h1.2.trans h2.2⟩

/-- `RG` for the holder of a lock -/
abbrev LRG (E : Env) (X : Str → Prop) (Q : Except PyErr α → Store → Prop) (p : Prog α) (s : Store) : Prop :=
  RG E (RLock X) (GLock X) Q p s

theorem lrg_bind {X : Str → Prop} {Q' : Except PyErr α → Store → Prop} {Q : Except PyErr β → Store → Prop} {p : Prog α}
    {f : α → Prog β} {s : Store} (w : s.WF) (h : LRG E X Q' p s)
    (hok : ∀ a s', s'.WF → Q' (.ok a) s' → LRG E X Q (f a) s') (herr : ∀ e s', Q' (.error e) s' → Q (.error e) s') :
    LRG E X Q (p >>= f) s := by
  show LRG E X Q (p.bind f) s
  induction p generalizing s with
  | ret a => exact hok a s w (h s (RLock.refl w))
  | raise e => exact fun s' hr => herr e s' (h s' hr)
  | stuck => trivial
  | op o k ih =>
    intro s' hr
    exact ⟨(h s' hr).1, ih _ (step_wf E o s' hr.1) (h s' hr).2⟩

theorem lrg_attempt {X : Str → Prop} {Q' : Except PyErr α → Store → Prop} {Q : Except PyErr (Except PyErr α) → Store → Prop}
    {p : Prog α} {s : Store} (h : LRG E X Q' p s) (hq : ∀ r s', Q' r s' → Q (.ok r) s') :
    LRG E X Q p.attempt s := by
  show LRG E X Q (Prog.catch_ (p.bind fun a => .ret (.ok a)) fun e => .ret (.error e)) s
  induction p generalizing s with
  | ret a => exact fun s' hr => hq _ s' (h s' hr)
  | raise e => exact fun s' hr => hq _ s' (h s' hr)
  | stuck => trivial
  | op o k ih => exact fun s' hr => ⟨(h s' hr).1, ih _ (h s' hr).2⟩

theorem lrg_mono {X : Str → Prop} {Q' Q : Except PyErr α → Store → Prop} {p : Prog α} {s : Store}
    (h : LRG E X Q' p s) (hq : ∀ r s', Q' r s' → Q r s') : LRG E X Q p s := by
  induction p generalizing s with
  | ret a => exact fun s' hr => hq _ s' (h s' hr)
  | raise e => exact fun s' hr => hq _ s' (h s' hr)
  | stuck => trivial
  | op o k ih => exact fun s' hr => ⟨(h s' hr).1, ih _ (h s' hr).2⟩

theorem lrg_pure {X : Str → Prop} {Q : Except PyErr α → Store → Prop} {a : α} {s : Store}
    (h : ∀ s', RLock X s s' → Q (.ok a) s') : LRG E X Q (pure a) s := h

/-! ## single operations of the holder, on blocks outside `X` -/

/-- `s'` differs from `s`, outside `X`, at most at `a`, which now has contents `v` -/
structure EffL (X : Str → Prop) (s s' : Store) (a : Str) (v : Option Bytes) : Prop where
  wf : s'.WF
  content : ∀ x, ¬ X x → s'.content x = if x = a then v else s.content x
  names : ∀ x, ¬ X x → x ≠ a → s'.names x = s.names x

variable {X : Str → Prop} {s : Store}

theorem EffL.of {s s1 s2 s3 : Store} {a : Str} {v : Option Bytes} (h1 : RLock X s s1) (h2 : Eff s1 s2 a v)
    (h3 : RLock X s2 s3) : EffL X s s3 a v :=
  ⟨h3.1, fun x hx => by rw [(h3.2 x hx).2, h2.content, (h1.2 x hx).2],
    fun x hx hxa => by rw [(h3.2 x hx).1, h2.names x hxa, (h1.2 x hx).1]⟩

theorem gLock_of_eff {s s' : Store} {a : Str} {v : Option Bytes} (h : Eff s s' a v) (ha : ¬ X a) :
    GLock X s s' := h.sameOff ha

theorem gLock_refl (s : Store) : GLock X s s := SameOff.refl _ _

theorem lrg_attach_some {a : Str} {i : Nat} (hok : E.okName a = true) (ha : ¬ X a)
    (hn : s.names a = some i) :
    LRG E X (fun r s' => r = .ok i ∧ RLock X s s') (attach a) s := by
  intro s' hr
  have hn' : s'.names a = some i := by rw [(hr.2 a ha).1]; exact hn
  have e : (Op.attach a).step E s' = (.ok i, s') := by simp [Op.step, hok, hn']
  rw [e]
  exact ⟨gLock_refl _, fun s2 h2 => ⟨rfl, hr.trans _ _ _ h2⟩⟩

theorem lrg_attach_none {a : Str} (hok : E.okName a = true) (ha : ¬ X a) (hn : s.names a = none) :
    LRG E X (fun r s' => r = .error .fileNotFound ∧ RLock X s s') (attach a) s := by
  intro s' hr
  have hn' : s'.names a = none := by rw [(hr.2 a ha).1]; exact hn
  have e : (Op.attach a).step E s' = (.error .fileNotFound, s') := by simp [Op.step, hok, hn']
  rw [e]
  exact ⟨gLock_refl _, fun s2 h2 => ⟨rfl, hr.trans _ _ _ h2⟩⟩

theorem lrg_read {a : Str} {i : Nat} (ha : ¬ X a) (hn : s.names a = some i) :
    LRG E X (fun r s' => r = .ok (s.segs i) ∧ RLock X s s') (read i) s := by
  intro s' hr
  have hn' : s'.names a = some i := by rw [(hr.2 a ha).1]; exact hn
  have hc := (hr.2 a ha).2
  rw [content_some hn', content_some hn] at hc
  injection hc with hc
  refine ⟨gLock_refl _, fun s2 h2 => ⟨?_, hr.trans _ _ _ h2⟩⟩
  show Except.ok (s'.segs i) = _
  rw [hc]

theorem lrg_write {a : Str} {i : Nat} {b : Bytes} (ha : ¬ X a) (hn : s.names a = some i)
    (hl : b.length = (s.segs i).length) :
    LRG E X (fun r s' => r = .ok () ∧ s'.names a = some i ∧ EffL X s s' a (some b)) (write i b) s := by
  intro s' hr
  have hn' : s'.names a = some i := by rw [(hr.2 a ha).1]; exact hn
  have hc := (hr.2 a ha).2
  rw [content_some hn', content_some hn] at hc
  injection hc with hc
  have e : (Op.write i b).step E s' = (.ok (), s'.wrote i b) := by
    simp only [Op.step]; rw [hc, if_pos hl]; rfl
  rw [e]
  have f := eff_wrote hr.1 hn' b
  exact ⟨gLock_of_eff f ha, fun s2 h2 => ⟨rfl, by rw [(h2.2 a ha).1]; exact hn', EffL.of hr f h2⟩⟩

theorem lrg_create {a : Str} {size : Nat} (hz : size ≠ 0) (hok : E.okName a = true) (ha : ¬ X a)
    (hn : s.names a = none) :
    LRG E X (fun r s' => ∃ i, r = .ok i ∧ s'.names a = some i ∧ EffL X s s' a (some (List.replicate size 0)))
      (create a size) s := by
  intro s' hr
  have hn' : s'.names a = none := by rw [(hr.2 a ha).1]; exact hn
  have e : (Op.create a size).step E s' = (.ok s'.next, s'.created a size) := by
    simp [Op.step, hz, hok, hn', Store.created]
  rw [e]
  have f := eff_created hr.1 a size
  exact ⟨gLock_of_eff f ha, fun s2 h2 => ⟨s'.next, rfl, by rw [(h2.2 a ha).1]; simp, EffL.of hr f h2⟩⟩

/-! ## composite operations -/

theorem lrg_existsBlock {a : Str} (w : s.WF) (hok : E.okName a = true) (ha : ¬ X a) :
    LRG E X (fun r s' => r = .ok (s.names a).isSome ∧ RLock X s s') (existsBlock a) s := by
  cases hn : s.names a with
  | none =>
    refine lrg_bind w (lrg_attempt (Q := fun r s' => r = .ok (.error .fileNotFound) ∧ RLock X s s')
      (lrg_attach_none hok ha hn) fun r s' h => ⟨by rw [h.1], h.2⟩) ?_ (fun e s' h => by simp at h)
    rintro r s' w' ⟨h1, h2⟩
    injection h1 with h1
    subst h1
    exact fun s2 h3 => ⟨rfl, h2.trans _ _ _ h3⟩
  | some i =>
    refine lrg_bind w (lrg_attempt (Q := fun r s' => r = .ok (.ok i) ∧ RLock X s s')
      (lrg_attach_some hok ha hn) fun r s' h => ⟨by rw [h.1], h.2⟩) ?_ (fun e s' h => by simp at h)
    rintro r s' w' ⟨h1, h2⟩
    injection h1 with h1
    subst h1
    exact fun s2 h3 => ⟨rfl, h2.trans _ _ _ h3⟩

theorem lrg_openBlock_new {a : Str} {size : Nat} {ow : Bool} (w : s.WF) (hz : size ≠ 0) (hok : E.okName a = true)
    (ha : ¬ X a) (hn : s.names a = none) :
    LRG E X (fun r s' => ∃ i, r = .ok i ∧ s'.names a = some i ∧ EffL X s s' a (some (List.replicate size 0)))
      (openBlock a size true ow) s := by
  refine lrg_bind w (lrg_attempt (Q := fun r s' => ∃ i, r = .ok (.ok i) ∧ s'.names a = some i ∧
      EffL X s s' a (some (List.replicate size 0)))
    (lrg_create hz hok ha hn) ?_) ?_ (fun e s' h => by simp at h)
  · rintro r s' ⟨i, h1, h2⟩
    exact ⟨i, by rw [h1], h2⟩
  · rintro r s' w' ⟨i, h1, h2, h3⟩
    injection h1 with h1
    subst h1
    refine fun s2 h4 => ⟨i, rfl, by rw [(h4.2 a ha).1]; exact h2, ⟨h4.1, fun x hx => ?_, fun x hx hxa => ?_⟩⟩
    · rw [(h4.2 x hx).2, h3.content x hx]
    · rw [(h4.2 x hx).1, h3.names x hx hxa]

/-- what the others do keeps an effect of the holder -/
theorem EffL.rely {s s1 s2 : Store} {a : Str} {v : Option Bytes} (h : EffL X s s1 a v) (hr : RLock X s1 s2) :
    EffL X s s2 a v :=
  ⟨hr.1, fun x hx => by rw [(hr.2 x hx).2, h.content x hx], fun x hx hxa => by rw [(hr.2 x hx).1, h.names x hx hxa]⟩

end Verif.Lemmas
