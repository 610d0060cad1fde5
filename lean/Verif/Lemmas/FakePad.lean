import Verif.Model.FakePad
import Verif.Spec.FakePad
import Verif.Lemmas.PadOwn
/-!
# Notepads without an index
-/
namespace Verif.Model
open Verif Verif.Spec
variable {V : Type}

/-- the result of a method that returns nothing -/
def fakeDone : Outcome Unit → FakeRes V
  | .ok _ => .done (.ok ())
  | .err e => .done (.error e)
  | .stuck => .stuck

/-- the result of one that returns a value -/
def fakeValue : Outcome V → FakeRes V
  | .ok v => .value (.ok v)
  | .err e => .value (.error e)
  | .stuck => .stuck

/-- a call on the object `p`, run to its end: its result, and the memory afterwards -/
def stepFake (E : Env) (c : Codec V) (isNone : V → Bool) (p : Pad) (s : Store) : FakeCall V → FakeRes V × Store
  | .open create => let r := (padInitFake p.pre create p.mode >>= fun _ => pure ()).run E s; (fakeDone r.1, r.2)
  | .set k v eo => let r := (padSet E c p k v eo).run E s; (fakeDone r.1, r.2)
  | .get k => let r := (padGet c isNone p k).run E s; (fakeValue r.1, r.2)
  | .getD k d => let r := (padGetD c isNone p k d).run E s; (fakeValue r.1, r.2)
  | .del k => let r := (padDel E p k).run E s; (fakeDone r.1, r.2)
  | .keys => let r := (padKeys E p).run E s; (match r.1 with | .ok l => .keys l | .err e => .done (.error e) | .stuck => .stuck, r.2)
  | .clear => let r := (padClear E p).run E s; (fakeDone r.1, r.2)
  | .close => let r := (padClose E p).run E s; (fakeDone r.1, r.2)

/-- calls one after the other, each on some object of the prefix (they differ in their lock only) -/
def playFake (E : Env) (c : Codec V) (isNone : V → Bool) (pre : Str) : List (LockMode × FakeCall V) → Store → List (FakeRes V) × Store
  | [], s => ([], s)
  | (mode, o) :: t, s =>
    let r := stepFake E c isNone ⟨pre, .fake, mode⟩ s o
    let rest := playFake E c isNone pre t r.2
    (r.1 :: rest.1, rest.2)

end Verif.Model

namespace Verif.Lemmas
open Verif Verif.Model Verif.Spec
variable {V ρ : Type} {E : Env} {c : Codec V} {isNone : V → Bool} {pre : Str}

/-- the blocks of the prefix are those of the dictionary -/
def FakeRep (c : Codec V) (isNone : V → Bool) (pre : Str) (s : Store) (m : Str → Option V) : Prop :=
  ∀ k, match m k with
    | none => s.content (padAddr pre k) = none
    | some v => ∃ b, Stable c isNone v b ∧ s.content (padAddr pre k) = some b

/-- the calls in play: names that the system accepts, values that survive -/
def FakeOK (E : Env) (c : Codec V) (isNone : V → Bool) (pre : Str) : FakeCall V → Prop
  | .set k v _ => E.okName (padAddr pre k.text) = true ∧ ∃ b, Stable c isNone v b
  | .get k => E.okName (padAddr pre k.text) = true
  | .getD k _ => E.okName (padAddr pre k.text) = true
  | .del k => E.okName (padAddr pre k.text) = true
  | _ => True

theorem reserved_eq (k : Key) : reserved k = startsIndex k := by
  cases k with
  | str s =>
    show indexWord.isPrefixOf s = (s.take 5 == ['i', 'n', 'd', 'e', 'x'])
    rw [Bool.eq_iff_iff, List.isPrefixOf_iff_prefix, beq_iff_eq, List.prefix_iff_eq_take]
    exact eq_comm
  | other s => rfl
  | bytes r s => rfl

theorem reservedExact_eq (k : Key) : reservedExact k = isIndexName k := by
  cases k <;> rfl

theorem FakeRep.eff {s s' : Store} {m : Str → Option V} (h : FakeRep c isNone pre s m) {k : Str} {x : Option V} {b : Option Bytes}
    (he : Eff s s' (padAddr pre k) b)
    (hx : match x with | none => b = none | some v => ∃ b', Stable c isNone v b' ∧ b = some b') :
    FakeRep c isNone pre s' (fun y => if y = k then x else m y) := by
  intro k'
  simp only
  rw [he.content]
  by_cases hkk : k' = k
  · subst hkk
    simp only [if_pos]
    cases x <;> exact hx
  · rw [if_neg fun e => hkk (pad_inj e), if_neg hkk]
    exact h k'

theorem FakeRep.absent {s : Store} {m : Str → Option V} (h : FakeRep c isNone pre s m) {k : Str} :
    s.content (padAddr pre k) = none ↔ (m k).isSome = false := by
  have := h k
  cases hm : m k with
  | none => rw [hm] at this; simpa using this
  | some v =>
    rw [hm] at this
    obtain ⟨b, _, hb⟩ := this
    simp [hb]

theorem FakeRep.readAs {s : Store} {m : Str → Option V} (h : FakeRep c isNone pre s m) (k : Str) :
    Lemmas.readAs c isNone (s.content (padAddr pre k)) = (match m k with | some v => .ok v | none => .err .fileNotFound) := by
  have := h k
  cases hm : m k with
  | none => rw [hm] at this; simp only at this; rw [this]; rfl
  | some v =>
    rw [hm] at this
    obtain ⟨b, ⟨_, _, h1, h2⟩, hb⟩ := this
    rw [hb]
    simp [Lemmas.readAs, h1, h2]

theorem run_memorize_refused {s : Store} {v : V} {a : Str} (hok : E.okName a = true) (hc : s.content a ≠ none) :
    (memorize c v a false).run E s = (.err .fileExists, s) := by
  obtain ⟨i, hi⟩ : ∃ i, s.names a = some i := by
    cases hn : s.names a with
    | none => exact absurd (content_none.2 hn) hc
    | some i => exact ⟨i, rfl⟩
  rw [memorize]
  simp only [if_true]
  rw [run_bind, run_existsBlock s hok, andThen_ok, hi]
  rfl

theorem stepFake_spec {s : Store} (w : s.WF) {m : Str → Option V} (h : FakeRep c isNone pre s m) (mode : LockMode) (o : FakeCall V)
    (ho : FakeOK E c isNone pre o) :
    (stepFake E c isNone ⟨pre, .fake, mode⟩ s o).1 = fakeAnswer m o ∧ (stepFake E c isNone ⟨pre, .fake, mode⟩ s o).2.WF ∧
      FakeRep c isNone pre (stepFake E c isNone ⟨pre, .fake, mode⟩ s o).2 (fakeNext m o) ∧
      ∀ x, (∀ k, x ≠ padAddr pre k) → (stepFake E c isNone ⟨pre, .fake, mode⟩ s o).2.names x = s.names x ∧
        (stepFake E c isNone ⟨pre, .fake, mode⟩ s o).2.content x = s.content x := by
  have same : ∀ r : FakeRes V × Store, r.2 = s → r.2.WF ∧ FakeRep c isNone pre r.2 m ∧
      ∀ x, (∀ k, x ≠ padAddr pre k) → r.2.names x = s.names x ∧ r.2.content x = s.content x :=
    fun r hr => hr.symm ▸ ⟨w, h, fun _ _ => ⟨rfl, rfl⟩⟩
  cases o with
  | «open» cr => exact ⟨rfl, same _ rfl⟩
  | keys => exact ⟨rfl, same _ rfl⟩
  | clear => exact ⟨rfl, same _ rfl⟩
  | close => exact ⟨rfl, same _ rfl⟩
  | get k =>
    have e := run_padGet (c := c) (isNone := isNone) (s := s) (p := ⟨pre, .fake, mode⟩) (key := k) ho
    rw [h.readAs] at e
    refine ⟨?_, same _ (by simp only [stepFake, e])⟩
    simp only [stepFake, e, fakeAnswer]
    cases m k.text <;> rfl
  | getD k d =>
    have e := run_padGet (c := c) (isNone := isNone) (s := s) (p := ⟨pre, .fake, mode⟩) (key := k) ho
    rw [h.readAs] at e
    have e2 : (padGetD c isNone ⟨pre, .fake, mode⟩ k d).run E s =
        ((match m k.text with | some v => .ok v | none => .err .fileNotFound), s) := by
      rw [padGetD, run_bind, run_attempt, e]
      cases m k.text <;> rfl
    refine ⟨?_, same _ (by simp only [stepFake, e2])⟩
    simp only [stepFake, e2, fakeAnswer]
    cases m k.text <;> rfl
  | set k v eo =>
    obtain ⟨hok, b, hst⟩ := ho
    by_cases hr : startsIndex k = true
    · have e : (padSet E c ⟨pre, .fake, mode⟩ k v eo).run E s = (.err .keyError, s) := by
        rw [padSet, reserved_eq, if_pos hr]; rfl
      refine ⟨by simp only [stepFake, e, fakeAnswer, hr, true_or, if_true]; rfl, ?_⟩
      have := same (stepFake E c isNone ⟨pre, .fake, mode⟩ s (.set k v eo)) (by simp only [stepFake, e])
      simpa only [fakeNext, hr, true_or, if_true] using this
    · have eb : ∀ r, (memorize c v (padAddr pre k.text) eo).run E s = r → (padSet E c ⟨pre, .fake, mode⟩ k v eo).run E s =
          (match r.1 with | .ok _ => .ok () | .err .fileExists => .err .keyError | .err e => .err e | .stuck => .stuck, r.2) := by
        rintro ⟨o, s'⟩ hr'
        rw [padSet, reserved_eq, if_neg hr, run_bind, run_attempt, run_bind]
        have e0 : (padIndexAdd E ⟨pre, .fake, mode⟩ k false eo).run E s = (.ok (), s) := rfl
        rw [e0, andThen_ok, run_bind, hr']
        cases o with
        | ok a => rfl
        | err e => cases e <;> rfl
        | stuck => rfl
      by_cases hx : eo = false ∧ (m k.text).isSome = true
      · have e := eb (.err .fileExists, s) (by rw [hx.1]; exact run_memorize_refused (c := c) (v := v) (s := s) hok (fun hc => by
            rw [h.absent.1 hc] at hx; cases hx.2))
        simp only at e
        refine ⟨by simp only [stepFake, e, fakeAnswer]; rw [if_pos (Or.inr hx)]; rfl, ?_⟩
        have := same (stepFake E c isNone ⟨pre, .fake, mode⟩ s (.set k v eo)) (by simp only [stepFake, e])
        simp only [fakeNext]
        rw [if_pos (Or.inr hx)]
        exact this
      · have hfree : eo = true ∨ s.content (padAddr pre k.text) = none := by
          cases eo with
          | true => exact Or.inl rfl
          | false =>
            refine Or.inr (h.absent.2 ?_)
            cases hm : (m k.text).isSome with
            | false => rfl
            | true => exact absurd ⟨rfl, hm⟩ hx
        obtain ⟨s', e1, ef⟩ := run_memorize (E := E) w hok hst.1 hst.2.1 hfree
        have e := eb _ e1
        simp only at e
        have hno : ¬ (startsIndex k = true ∨ (eo = false ∧ (m k.text).isSome = true)) := fun hc => hc.elim hr hx
        refine ⟨by simp only [stepFake, e, fakeAnswer]; rw [if_neg hno]; rfl, ?_⟩
        simp only [stepFake, e, fakeNext]
        rw [if_neg hno]
        refine ⟨ef.wf, h.eff ef (x := some v) ⟨b, hst, rfl⟩, fun x hx' => ⟨ef.names _ (hx' _), ?_⟩⟩
        rw [ef.content, if_neg (hx' _)]
  | del k =>
    by_cases hr : isIndexName k = true
    · have e : (padDel E ⟨pre, .fake, mode⟩ k).run E s = (.err .keyError, s) := by
        rw [padDel, reservedExact_eq, if_pos hr]; rfl
      refine ⟨by simp only [stepFake, e, fakeAnswer]; rw [if_pos (Or.inl hr)]; rfl, ?_⟩
      simp only [stepFake, e, fakeNext]
      rw [if_pos hr]
      exact ⟨w, h, fun _ _ => ⟨trivial, trivial⟩⟩
    · cases hm : (m k.text).isSome with
      | false =>
        have e : (padDel E ⟨pre, .fake, mode⟩ k).run E s = (.err .keyError, s) := by
          rw [padDel, reservedExact_eq, if_neg hr, run_bind, run_attempt, run_bind,
            run_deleteBlock_none ho (content_none.1 (h.absent.2 hm))]
          rfl
        refine ⟨by simp only [stepFake, e, fakeAnswer]; rw [if_pos (Or.inr hm)]; rfl, ?_⟩
        simp only [stepFake, e, fakeNext]
        rw [if_neg hr]
        have he : (fun x => if x = k.text then none else m x) = m := by
          funext x
          split
          · rename_i hx
            rw [hx]
            cases hk : m k.text with
            | none => rfl
            | some v => rw [hk] at hm; cases hm
          · rfl
        rw [he]
        exact ⟨w, h, fun _ _ => ⟨trivial, trivial⟩⟩
      | true =>
        obtain ⟨i, hi⟩ : ∃ i, s.names (padAddr pre k.text) = some i := by
          cases hn : s.names (padAddr pre k.text) with
          | none => rw [h.absent.1 (content_none.2 hn)] at hm; cases hm
          | some i => exact ⟨i, rfl⟩
        have e : (padDel E ⟨pre, .fake, mode⟩ k).run E s = (.ok (), s.unlinked (padAddr pre k.text)) := by
          rw [padDel, reservedExact_eq, if_neg hr, run_bind, run_attempt, run_bind, run_deleteBlock ho hi]
          rfl
        have hno : ¬ (isIndexName k = true ∨ (m k.text).isSome = false) := fun hc => hc.elim hr (fun h => by rw [hm] at h; cases h)
        have ef := eff_unlinked w (padAddr pre k.text)
        refine ⟨by simp only [stepFake, e, fakeAnswer]; rw [if_neg (by rw [← hm] at hno ⊢; exact hno)]; rfl, ?_⟩
        simp only [stepFake, e, fakeNext]
        rw [if_neg hr]
        refine ⟨ef.wf, h.eff ef (x := none) rfl, fun x hx' => ⟨ef.names _ (hx' _), ?_⟩⟩
        rw [ef.content, if_neg (hx' _)]

theorem playFake_spec (ops : List (LockMode × FakeCall V)) (hops : ∀ o ∈ ops, FakeOK E c isNone pre o.2) {s : Store} (w : s.WF)
    {m : Str → Option V} (h : FakeRep c isNone pre s m) :
    (playFake E c isNone pre ops s).1 = fakeAnswers m (ops.map Prod.snd) ∧ (playFake E c isNone pre ops s).2.WF ∧
      FakeRep c isNone pre (playFake E c isNone pre ops s).2 (fakeEnd m (ops.map Prod.snd)) ∧
      ∀ x, (∀ k, x ≠ padAddr pre k) → (playFake E c isNone pre ops s).2.names x = s.names x ∧
        (playFake E c isNone pre ops s).2.content x = s.content x := by
  induction ops generalizing s m with
  | nil => exact ⟨rfl, w, h, fun _ _ => ⟨rfl, rfl⟩⟩
  | cons o t ih =>
    obtain ⟨mode, o⟩ := o
    obtain ⟨h1, w1, h2, h3⟩ := stepFake_spec w h mode o (hops _ (List.mem_cons_self ..))
    obtain ⟨h4, w2, h5, h6⟩ := ih (fun o ho => hops o (List.mem_cons_of_mem _ ho)) w1 h2
    refine ⟨?_, w2, h5, fun x hx => ⟨(h6 x hx).1.trans (h3 x hx).1, (h6 x hx).2.trans (h3 x hx).2⟩⟩
    show _ :: _ = _ :: _
    rw [h1, h4]

/-! ## A process and its own keys -/

section
variable {p : Pad} {own : Str → Prop} {s : Store}

theorem lrg_memorize_exact {Y : Str → Prop} {a : Str} {v : V} {eo : Bool} {b : Bytes} (w : s.WF) (hok : E.okName a = true) (ha : ¬ Y a)
    (henc : c.encode v = .ok b) (hb : b ≠ []) :
    LRG E Y (fun r s' => if eo = false ∧ s.content a ≠ none then r = .error .fileExists ∧ RLock Y s s'
      else r = .ok a ∧ EffL Y s s' a (some b)) (memorize c v a eo) s := by
  have hl : b.length ≠ 0 := fun h => hb (List.eq_nil_of_length_eq_zero h)
  have tail : ∀ s1, RLock Y s s1 → LRG E Y (fun r s' => r = .ok a ∧ EffL Y s s' a (some b)) (do
      let encoded ← Prog.ofExcept (c.encode v)
      let block ← openBlock a encoded.length true true
      write block encoded
      pure a) s1 := by
    intro s1 r1
    rw [henc]
    show LRG E Y _ (openBlock a b.length true true >>= fun block => write block b >>= fun _ => pure a) s1
    refine lrg_bind r1.1 (lrg_openBlock_fresh r1.1 hl hok ha) ?_ (fun e s' h => by obtain ⟨i, h, _⟩ := h; cases h)
    rintro j s2 w2 ⟨i, h1, h2, h3⟩
    injection h1 with h1
    subst h1
    have hlen : b.length = (s2.segs j).length := by
      have := h3.content a ha
      rw [if_pos rfl, content_some h2] at this
      injection this with this
      rw [this]; simp
    refine lrg_bind w2 (lrg_write ha h2 hlen) ?_ (fun e s' h => by cases h.1)
    rintro _ s3 w3 ⟨_, _, h4⟩
    exact fun s4 h5 => ⟨rfl, ((h3.relyBefore r1).trans h4).rely h5⟩
  unfold memorize
  simp only
  by_cases heo : eo = false
  · rw [if_pos heo]
    refine lrg_bind w (lrg_existsBlock w hok ha) ?_ (fun e s' h => by cases h.1)
    rintro x s1 w1 ⟨h1, r1⟩
    injection h1 with h1
    subst h1
    cases hn : s.names a with
    | none =>
      exact lrg_mono (tail s1 r1) fun r s' hq => by
        rw [if_neg (fun h : eo = false ∧ s.content a ≠ none => h.2 (content_none.2 hn))]; exact hq
    | some i =>
      intro s2 h2
      rw [if_pos ⟨heo, fun hc => by rw [content_none.1 hc] at hn; cases hn⟩]
      exact ⟨rfl, r1.trans _ _ _ h2⟩
  · rw [if_neg heo]
    exact lrg_mono (tail s (RLock.refl w)) fun r s' hq => by
      rw [if_neg (fun h : eo = false ∧ _ => heo h.1)]; exact hq

theorem Holds.absent {st : Str → Option V} (h : Holds c p.pre own s st) {k : Str} (hk : own k) :
    s.content (padAddr p.pre k) ≠ none ↔ (st k).isSome = true := by
  have := h k hk
  cases hm : st k with
  | none => rw [hm] at this; simpa using this
  | some v =>
    rw [hm] at this
    obtain ⟨b, _, hb⟩ := this
    simp [hb]

/-- the values that a call sets can be stored -/
def CallStores (c : Codec V) : PadCall V → Prop
  | .set _ v _ => ∃ b, c.encode v = .ok b
  | _ => True

/-- the values that a script may set can be stored -/
def Stores (c : Codec V) : PadScript V ρ → Prop
  | .ret _ => True
  | .raise _ => True
  | .call o k => CallStores c o ∧ ∀ r, Stores c (k r)

theorem prg_plain (hc : CodecOK c) (hU : OwnOK E p.pre own) (hp : p.index = .fake) (w : s.WF) {st : Str → Option V}
    (h : Holds c p.pre own s st) (o : PadCall V) (ho : o.On own) (hv : CallStores c o) :
    PRG E (ownBlocks p.pre own) (fun r s' => r = (plainStep isNone st o).1 ∧ Holds c p.pre own s' (plainStep isNone st o).2)
      (o.run E c isNone p) s := by
  have hg : Good (ownBlocks p.pre own) (memHandle p) s := by
    rintro x ⟨ix, hix, _⟩
    rw [hp] at hix
    cases hix
  cases o with
  | get k =>
    refine prg_mono (prg_call (isNone := isNone) hc hU w (fun ix hix => by rw [hp] at hix; cases hix) h hg (.get k) ho) ?_
    rintro r s' ⟨⟨st', ⟨rfl, h1⟩, h2⟩, _⟩
    exact ⟨h1, h2⟩
  | set k v eo =>
    obtain ⟨b, hb⟩ := hv
    have hnb : ¬ ¬ ownBlocks p.pre own (padAddr p.pre k.text) := not_not.2 ⟨_, ho, rfl⟩
    have hmem := prg_of_lrg (X := ownBlocks p.pre own) (lrg_memorize_exact (eo := eo) w (hU.ok _ ho) hnb hb (hc v b hb).1)
    have habs := h.absent (k := k.text) ho
    refine prg_bind (Q' := fun r s' => r.map (fun _ => PadOut.done) = (plainStep isNone st (.set k v eo)).1 ∧
        Holds c p.pre own s' (plainStep isNone st (.set k v eo)).2) w ?_ ?_ ?_
    · unfold padSet
      rw [not_reserved (hU.free _ ho)]
      simp only [Bool.false_eq_true, if_false]
      refine prg_bind w (prg_attempt (Q := fun r s' => ∃ r', r = .ok r' ∧
          if eo = false ∧ s.content (padAddr p.pre k.text) ≠ none then
            r' = .error .fileExists ∧ RLock (fun x => ¬ ownBlocks p.pre own x) s s'
          else r' = .ok () ∧ EffL (fun x => ¬ ownBlocks p.pre own x) s s' (padAddr p.pre k.text) (some b))
        (Q' := fun r' s' => if eo = false ∧ s.content (padAddr p.pre k.text) ≠ none then
            r' = .error .fileExists ∧ RLock (fun x => ¬ ownBlocks p.pre own x) s s'
          else r' = .ok () ∧ EffL (fun x => ¬ ownBlocks p.pre own x) s s' (padAddr p.pre k.text) (some b)) ?_ ?_) ?_ ?_
      · have e0 : padIndexAdd E p k false eo = pure () := by unfold padIndexAdd; rw [hp]
        rw [e0]
        show PRG E _ _ (memorize c v (padAddr p.pre k.text) eo >>= fun _ => pure ()) s
        refine prg_bind w hmem ?_ ?_
        · intro a s1 w1 h1
          split at h1
          · cases h1.1
          · rename_i hx
            intro s2 r2
            rw [if_neg hx]
            exact ⟨rfl, h1.2.rely r2.lock⟩
        · intro e s1 h1
          split at h1
          · rename_i hx
            rw [if_pos hx]
            exact ⟨by rw [Except.error.inj h1.1], h1.2⟩
          · cases h1.1
      · exact fun r s' hq => ⟨r, rfl, hq⟩
      · rintro r s1 w1 ⟨r', h1, h2⟩
        injection h1 with h1
        subst h1
        split at h2
        · rename_i hx
          obtain ⟨rfl, r1⟩ := h2
          intro s2 r2
          simp only [plainStep]
          rw [if_pos ⟨hx.1, habs.1 hx.2⟩]
          refine ⟨rfl, Holds.rely (s := s1) (fun k' hk' => ?_) r2⟩
          rw [(r1.2 _ (not_not.2 ⟨k', hk', rfl⟩)).2]
          exact h k' hk'
        · rename_i hx
          obtain ⟨rfl, ef⟩ := h2
          intro s2 r2
          simp only [plainStep]
          rw [if_neg (fun hh => hx ⟨hh.1, habs.2 hh.2⟩)]
          exact ⟨rfl, (h.eff (x := some v) ef ⟨b, hb, rfl⟩).rely r2⟩
      · rintro e s1 ⟨r', h1, _⟩
        cases h1
    · rintro _ s1 w1 ⟨h1, h2⟩
      exact fun s2 r2 => ⟨h1, h2.rely r2⟩
    · rintro e s1 ⟨h1, h2⟩
      exact ⟨h1, h2⟩
  | del k =>
    refine prg_bind (Q' := fun r s' => r.map (fun _ => PadOut.done) = (plainStep isNone st (.del k)).1 ∧
        Holds c p.pre own s' (plainStep isNone st (.del k)).2) w ?_ ?_ ?_
    · unfold padDel
      rw [not_reservedExact (hU.free _ ho)]
      simp only [Bool.false_eq_true, if_false]
      have e0 : padIndexDel E p k = pure () := by unfold padIndexDel; rw [hp]
      rw [e0]
      have hk := h k.text ho
      have hnb : ¬ ¬ ownBlocks p.pre own (padAddr p.pre k.text) := not_not.2 ⟨_, ho, rfl⟩
      cases hst : st k.text with
      | none =>
        rw [hst] at hk
        refine prg_bind (Q' := fun r s' => r = .ok (.error .fileNotFound) ∧ RLock (fun x => ¬ ownBlocks p.pre own x) s s') w
          (prg_attempt (Q' := fun r s' => r = .error .fileNotFound ∧ RLock (fun x => ¬ ownBlocks p.pre own x) s s') ?_
            fun r s' hq => ⟨by rw [hq.1], hq.2⟩) ?_ ?_
        · refine prg_bind w (prg_of_lrg (lrg_deleteBlock_none w (hU.ok _ ho) hnb (content_none.1 hk))) ?_ ?_
          · rintro _ s1 _ ⟨h1, _⟩; cases h1
          · exact fun e s1 h1 => ⟨by rw [Except.error.inj h1.1], h1.2⟩
        · rintro r s1 w1 ⟨h1, r1⟩
          injection h1 with h1
          subst h1
          intro s2 r2
          simp only [plainStep, hst]
          refine ⟨rfl, Holds.rely (s := s1) (fun k' hk' => ?_) r2⟩
          rw [(r1.2 _ (not_not.2 ⟨k', hk', rfl⟩)).2]
          exact h k' hk'
        · rintro e s1 ⟨h1, _⟩; cases h1
      | some v =>
        rw [hst] at hk
        obtain ⟨b, _, hb⟩ := hk
        obtain ⟨i, hi⟩ : ∃ i, s.names (padAddr p.pre k.text) = some i := by
          cases hnm : s.names (padAddr p.pre k.text) with
          | none => rw [content_none.2 hnm] at hb; cases hb
          | some i => exact ⟨i, rfl⟩
        refine prg_bind (Q' := fun r s' => r = .ok (.ok ()) ∧ EffL (fun x => ¬ ownBlocks p.pre own x) s s' (padAddr p.pre k.text) none) w
          (prg_attempt (Q' := fun r s' => r = .ok () ∧ EffL (fun x => ¬ ownBlocks p.pre own x) s s' (padAddr p.pre k.text) none) ?_
            fun r s' hq => ⟨by rw [hq.1], hq.2⟩) ?_ ?_
        · refine prg_bind w (prg_of_lrg (lrg_deleteBlock w (hU.ok _ ho) hnb hi)) ?_ ?_
          · rintro _ s1 _ ⟨_, h1⟩
            exact fun s2 r2 => ⟨rfl, h1.rely r2.lock⟩
          · rintro e s1 ⟨h1, _⟩; cases h1
        · rintro r s1 w1 ⟨h1, ef⟩
          injection h1 with h1
          subst h1
          intro s2 r2
          simp only [plainStep, hst]
          exact ⟨rfl, (h.eff (x := none) ef rfl).rely r2⟩
        · rintro e s1 ⟨h1, _⟩; cases h1
    · rintro _ s1 w1 ⟨h1, h2⟩
      exact fun s2 r2 => ⟨h1, h2.rely r2⟩
    · rintro e s1 ⟨h1, h2⟩
      exact ⟨h1, h2⟩
  | keys =>
    have e0 : (PadCall.keys : PadCall V).run E c isNone p = .ret (.keys none) := by
      show (padKeys E p).bind _ = _
      unfold padKeys
      rw [hp]
      rfl
    rw [e0]
    exact fun s2 r2 => ⟨rfl, h.rely r2⟩

theorem prg_plain_script (hc : CodecOK c) (hU : OwnOK E p.pre own) (hp : p.index = .fake)
    (sc : PadScript V ρ) (ho : sc.On own) (hv : Stores c sc) {s : Store} (w : s.WF) {st : Str → Option V} (h : Holds c p.pre own s st) :
    PRG E (ownBlocks p.pre own) (fun r s' => ∀ x, r = .ok x → ∃ calls st', sc.Follows calls x ∧ PlainLegal isNone st calls st' ∧
      Holds c p.pre own s' st') (sc.prog E c isNone p) s := by
  induction sc generalizing s st with
  | ret r => exact fun s' hr x hx => ⟨[], st, by injection hx, rfl, h.rely hr⟩
  | raise e => exact fun s' hr x hx => by cases hx
  | call o k ih =>
    refine prg_bind w (prg_attempt (Q := fun r s' => ∃ r', r = .ok r' ∧ r' = (plainStep isNone st o).1 ∧
        Holds c p.pre own s' (plainStep isNone st o).2) (prg_plain hc hU hp w h o ho.1 hv.1) fun r s' hq => ⟨r, rfl, hq⟩) ?_ ?_
    · rintro r s1 w1 ⟨r', h1, h2, h3⟩
      injection h1 with h1
      subst h1
      refine prg_mono (ih r (ho.2 r) (hv.2 r) w1 h3) fun x s2 hx y hy => ?_
      obtain ⟨calls, st', h4, h5, h6⟩ := hx y hy
      exact ⟨(o, r) :: calls, st', ⟨rfl, h4⟩, ⟨h2, h5⟩, h6⟩
    · rintro e s1 ⟨r', h1, _⟩
      cases h1

end

end Verif.Lemmas
