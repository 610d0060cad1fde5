import Verif.Lemmas.PadHist
import Verif.Lemmas.CrashIndex
/-! # Notepad `set` that fails or is killed -/
namespace Verif.Lemmas
open Verif Verif.Model Verif.Spec
variable {V : Type} {E : Env} {c : Codec V} {isNone : V → Bool}

/-- `set` of a value that cannot be stored -/
theorem run_padSet_bad {pre : Str} {U : Str → Prop} (hU : KeysOK E pre U) (hok : NamesOK E (indexName pre))
    {s : Store} (w : s.WF) {ix : Index} {m : Str → Option V} {keys : List Str} {fl : Nat}
    (h : PadRep E c isNone pre U s ix m keys fl) (hfl : fl + keys.length + 2 < 256 ^ 5) {p : Pad} (hp : p.pre = pre)
    (hpi : p.index = .tag ix) (hm : p.mode.Runs) {key : Key} (hk : key.hashed E = E.utf8 key.text) (hUk : U key.text)
    {v : V} {e : PyErr} (hv : Unstorable c v e) (eo : Bool) :
    ∃ s' e', (padSet E c p key v eo).run E s = (.err e', s') ∧
      (e ≠ .fileExists → ¬ (eo = false ∧ m key.text ≠ none) → e' = e) ∧ s'.WF ∧
      IxRep E s' ix (ixAdd keys key.text eo).2 ∧ SameOff (tagNames (indexName pre)) s s' := by
  obtain ⟨s1, fl1, w1, e1, h1, hc1, hfl1, hs1⟩ := run_padIndexAdd hU hok w h hfl hp hpi hm hk hUk eo
  have hfree := hU.free _ hUk
  unfold padSet
  rw [not_reserved hfree]
  simp only [Bool.false_eq_true, if_false]
  rw [run_bind, run_attempt, run_bind, e1]
  by_cases hcase : eo = false ∧ m key.text ≠ none
  · simp only [if_pos hcase]
    exact ⟨s1, _, rfl, fun _ h => absurd hcase h, w1, h1, hs1⟩
  · simp only [if_neg hcase]
    have e2 := run_memorize_bad (E := E) (c := c) (s := s1) (v := v) (a := padAddr p.pre key.text) (existsOk := eo)
      (by rw [hp]; exact hU.ok _ hUk) hv (by
        cases eo with
        | true => exact Or.inl rfl
        | false =>
          right
          rw [hp, (hs1 _ (pad_not_tag hfree)).2]
          exact h.noval _ hfree (by by_contra hne; exact hcase ⟨rfl, hne⟩))
    rw [andThen_ok, run_bind, e2]
    by_cases hfe : e = .fileExists
    · subst hfe
      exact ⟨s1, _, rfl, fun h => absurd rfl h, w1, h1, hs1⟩
    · refine ⟨s1, e, ?_, fun _ _ => rfl, w1, h1, hs1⟩
      cases e <;> first | rfl | exact absurd rfl hfe

/-- what an interrupted `set` may leave at the key's address -/
def SetMid (c : Codec V) (v : V) (old now : Option Bytes) : Prop :=
  now = old ∨ ∃ b, c.encode v = .ok b ∧ (now = none ∨ now = some (List.replicate b.length 0) ∨ now = some b)

theorem always_memorize {P : Store → Prop} {s : Store} (w : s.WF) {v : V} {a : Str} {eo : Bool}
    (hP : ∀ s', s'.WF → SameOff (fun x => x = a) s s' → SetMid c v (s.content a) (s'.content a) → P s') :
    Always E P (memorize c v a eo) s := by
  have h0 : P s := hP s w (SameOff.refl _ _) (Or.inl rfl)
  have tail : Always E P (do
      let encoded ← Prog.ofExcept (c.encode v)
      let block ← openBlock a encoded.length true true
      write block encoded
      pure a : Prog Str) s := by
    cases he : c.encode v with
    | error e => exact h0
    | ok b =>
      have hz : ∀ s', Eff s s' a (some (List.replicate b.length 0)) → P s' := fun s' f =>
        hP s' f.wf (f.sameOff rfl) (Or.inr ⟨b, he, Or.inr (Or.inl (by rw [f.content, if_pos rfl]))⟩)
      have hn : ∀ s', Eff s s' a none → P s' := fun s' f =>
        hP s' f.wf (f.sameOff rfl) (Or.inr ⟨b, he, Or.inl (by rw [f.content, if_pos rfl])⟩)
      have hb : ∀ s', Eff s s' a (some b) → P s' := fun s' f =>
        hP s' f.wf (f.sameOff rfl) (Or.inr ⟨b, he, Or.inr (Or.inr (by rw [f.content, if_pos rfl]))⟩)
      refine always_bind (always_ofExcept h0) fun enc s1 hr => ?_
      rw [run_ofExcept_ok] at hr
      injection hr with hr1 hr2; injection hr1 with hr1; subst hr1; subst hr2
      refine always_bind (always_openBlock h0 (fun _ => hz _ (eff_created w _ _)) (fun _ _ => hn _ (eff_unlinked w _))
        (fun _ _ => hz _ ((eff_unlinked w _).trans (eff_created (wf_unlinked w _) _ _)))) fun i s1 hr => ?_
      by_cases hbn : b = []
      · subst hbn; rw [List.length_nil, run_openBlock_zero] at hr; simp at hr
      · by_cases hok : E.okName a = true
        · obtain ⟨i', s1', s2, e1, e2, n2, f2, f1⟩ := run_put (E := E) (a := a) (b := b) w hbn hok
          rw [e1] at hr; injection hr with hr1 hr2; injection hr1 with hr1; subst hr1; subst hr2
          refine always_bind (always_prim_run (hz _ f1) e2 (hb _ f2)) fun u s3 hr => ?_
          rw [e2] at hr; injection hr with _ hr; subst hr
          exact hb _ f2
        · rw [run_openBlock_bad s (by simpa using hbn) (by simpa using hok)] at hr; simp at hr
  rw [memorize]
  cases eo with
  | true => exact tail
  | false =>
    simp only [if_true]
    refine always_bind (ReadOnly.always (readOnly_existsBlock _) h0) fun r s1 hr => ?_
    have hs1 : s1 = s := by have := ReadOnly.run (E := E) (readOnly_existsBlock a) s; rw [hr] at this; exact this
    subst hs1
    cases r with
    | true => exact h0
    | false => exact tail

theorem always_padSet {pre : Str} {U : Str → Prop} (hU : KeysOK E pre U) (hok : NamesOK E (indexName pre))
    {s : Store} (w : s.WF) {ix : Index} {m : Str → Option V} {keys : List Str} {fl : Nat}
    (h : PadRep E c isNone pre U s ix m keys fl) (hfl : fl + keys.length + 2 < 256 ^ 5) {p : Pad} (hp : p.pre = pre)
    (hpi : p.index = .tag ix) {key : Key} (hfree : ¬ indexWord <+: key.text) (v : V) (eo : Bool) :
    Always E (fun s' => SameOff (fun x => tagNames (indexName pre) x ∨ x = padAddr pre key.text) s s' ∧
      SetMid c v (s.content (padAddr pre key.text)) (s'.content (padAddr pre key.text))) (padSet E c p key v eo) s := by
  have hp8 : (256 : Nat) ^ 5 < 256 ^ 8 := by decide
  have hA : Always E (fun s' => s'.WF ∧ SameOff (tagNames (indexName pre)) s s') (padIndexAdd E p key false eo) s := by
    simp only [padIndexAdd, hpi, Bool.false_eq_true, if_false]
    have hok' : NamesOK E ix.name := by rw [h.name]; exact hok
    have hI : Always E (fun s' => s'.WF ∧ SameOff (tagNames (indexName pre)) s s') (indexAdd E p.mode ix key eo) s := by
      unfold indexAdd
      refine always_withLock w hok' (by rw [h.name]; exact h.lock) (by omega)
        (fun a b wb ha hs => ⟨wb, ha.2.trans (hs.mono fun x hx => Or.inr (by rw [← h.name]; exact hx))⟩)
        ⟨w, SameOff.refl _ _⟩ ?_
      intro s1 w1 hs1 _
      have := always_indexAdd_ w1 (h.rep.sameLock hs1) hok' (by omega) key eo
      refine ⟨always_mono this fun s2 h2 => ⟨h2.1, (hs1.mono fun x hx => Or.inr (by rw [← h.name]; exact hx)).trans
        (h2.2.2.mono fun x hx => Or.inl (by rw [← h.name]; exact hx))⟩, (always_end this).2.2.offLock⟩
    refine always_bind hI fun n s1 hr => ?_
    have := always_end hI
    rw [hr] at this
    exact this
  have hnt := pad_not_tag (pre := pre) hfree
  have hconv : ∀ s', s'.WF ∧ SameOff (tagNames (indexName pre)) s s' →
      SameOff (fun x => tagNames (indexName pre) x ∨ x = padAddr pre key.text) s s' ∧
      SetMid c v (s.content (padAddr pre key.text)) (s'.content (padAddr pre key.text)) := fun s' h' =>
    ⟨h'.2.mono fun x => Or.inl, Or.inl (h'.2 _ hnt).2⟩
  unfold padSet
  rw [not_reserved hfree]
  simp only [Bool.false_eq_true, if_false]
  have hbody : Always E (fun s' => SameOff (fun x => tagNames (indexName pre) x ∨ x = padAddr pre key.text) s s' ∧
      SetMid c v (s.content (padAddr pre key.text)) (s'.content (padAddr pre key.text)))
      (do padIndexAdd E p key false eo
          let _ ← memorize c v (padAddr p.pre key.text) eo
          pure () : Prog Unit) s := by
    refine always_bind (always_mono hA hconv) fun u s1 hr => ?_
    have h1 := always_end hA
    rw [hr] at h1
    have hM : Always E (fun s' => SameOff (fun x => tagNames (indexName pre) x ∨ x = padAddr pre key.text) s s' ∧
        SetMid c v (s.content (padAddr pre key.text)) (s'.content (padAddr pre key.text)))
        (memorize c v (padAddr p.pre key.text) eo) s1 := by
      rw [hp]
      refine always_memorize h1.1 fun s2 w2 hs2 hm2 => ⟨?_, ?_⟩
      · exact (h1.2.mono fun x => Or.inl).trans (hs2.mono fun x => Or.inr)
      · rw [(h1.2 _ hnt).2] at hm2; exact hm2
    refine always_bind hM fun u s2 hr => ?_
    have h2 := always_end hM
    rw [hr] at h2
    exact h2
  refine always_bind (always_attempt hbody) fun r s1 hr => ?_
  have h1 := always_end (always_attempt hbody)
  rw [hr] at h1
  cases r with
  | ok u => exact h1
  | error e => cases e <;> exact h1

end Verif.Lemmas
