import Verif.Lemmas.Sections
/-!
# Processes that claim a key in order to use others, whatever the others do
-/
namespace Verif.Lemmas
open Verif Verif.Model Verif.Spec
variable {E : Env} {α β γ V ρ : Type}

/-! ## the setting -/

/-- may use the key: has it, or has its guard -/
def CanUse (guard : Str → Option Str) (h : THist V) (k : Str) : Prop :=
  hasKey (untag h) k = true ∨ ∃ m, guard k = some m ∧ hasKey (untag h) m = true

/-- the blocks of the keys in play -/
def inPlay (pre : Str) (keys0 U : List Str) (guard : Str → Option Str) (x : Str) : Prop :=
  ∃ k, k ∈ U ∧ (k ∉ keys0 ∨ guard k ≠ none) ∧ x = padAddr pre k

/-- the blocks of the keys that a client may use -/
def usable (pre : Str) (keys0 U : List Str) (guard : Str → Option Str) (h : THist V) (x : Str) : Prop :=
  ∃ k, k ∈ U ∧ (k ∉ keys0 ∨ guard k ≠ none) ∧ CanUse guard h k ∧ x = padAddr pre k

/-- the encoded value -/
def bytesOf (c : Codec V) : Option V → Option Bytes
  | none => none
  | some v => match c.encode v with
    | .ok b => some b
    | .error _ => none

open Classical in
/-- what the blocks of keys that nobody may use hold -/
noncomputable def asLeft (c : Codec V) (pre : Str) (guard : Str → Option Str) (R : Str → Option V) (H : THist V) (x : Str) : Option Bytes :=
  if h : ∃ r, guard r ≠ none ∧ x = padAddr pre r then bytesOf c (regs guard R H h.choose) else none

variable {c : Codec V} {isNone : V → Bool} {p : Pad} {ix : Index} {fuel : Nat} {keys0 U : List Str} {guard : Str → Option Str}
  {R : Str → Option V}

theorem asLeft_guarded {pre : Str} {H : THist V} {r : Str} (h : guard r ≠ none) :
    asLeft c pre guard R H (padAddr pre r) = bytesOf c (regs guard R H r) := by
  unfold asLeft
  have hex : ∃ r', guard r' ≠ none ∧ padAddr pre r = padAddr pre r' := ⟨r, h, rfl⟩
  rw [dif_pos hex, ← pad_inj hex.choose_spec.2]

theorem asLeft_none {pre : Str} {H : THist V} {k : Str} (h : guard k = none) : asLeft c pre guard R H (padAddr pre k) = none := by
  unfold asLeft
  rw [dif_neg]
  rintro ⟨r, h1, h2⟩
  rw [← pad_inj h2] at h1
  exact h1 h

theorem offX_inPlay {pre : Str} (hU : PlayOK E pre U) (hix : ix.name = indexName pre) :
    OffX ix.name fun x => lockNames ix.name x ∨ inPlay pre keys0 U guard x := by
  rintro x hx (h | ⟨k, h1, _, rfl⟩)
  · exact index_not_lock hx h
  · obtain ⟨sl, _, e⟩ := hx
    rw [hix] at e
    exact slot_ne_pad (hU.free k h1) sl e.symm

/-- clients of the index of a notepad -/
noncomputable def sectSetup (V : Type) (hok : NamesOK E ix.name) (keys0 : List Str) (guard : Str → Option Str) {pre : Str}
    (hU : PlayOK E pre U) (hix : ix.name = indexName pre) : Setup E ((Nat × KOp) × Option V) Nat :=
  (ixSetup E ix hok (fun x => lockNames ix.name x ∨ inPlay pre keys0 U guard x) (fun _ h => Or.inl h) (offX_inPlay hU hix) keys0 U
    hU.univ).tagged (Option V)

variable {hok : NamesOK E ix.name} {hU : PlayOK E p.pre U} {hix : ix.name = indexName p.pre}

theorem mine_disc {H : THist V} {x : ((Nat × KOp) × Option V) × Except PyErr Nat} (hd : ∀ j, Disc guard (mine j (untag (H ++ [x]))))
    (j : Nat) : Disc guard (mine j (untag H)) := by
  have := hd j
  rw [untag_append] at this
  unfold mine at this
  rw [List.filter_append] at this
  exact disc_pre this

theorem sect_priv (h0 : keys0.Nodup) (hg : ∀ k m, guard k = some m → k ∈ keys0) :
    Priv (sectSetup V hok keys0 guard hU hix) (fun _ => Rules guard c) (fun _ => usable p.pre keys0 U guard) (asLeft c p.pre guard R)
      (inPlay p.pre keys0 U guard) := by
  refine ⟨fun i h x ⟨k, h1, h2, _, e⟩ => ⟨k, h1, h2, e⟩, fun x hx => ⟨Or.inr hx, ?_⟩, ?_, ?_⟩
  · obtain ⟨k, h1, _, rfl⟩ := hx
    rintro ⟨sl, _, e⟩
    have e : padAddr p.pre k = sl.addr ix.name := e
    rw [hix] at e
    exact slot_ne_pad (hU.free k h1) sl e.symm
  · rintro H ⟨keys, hl⟩ hd i j x hij ⟨k, _, _, h3, e⟩ ⟨k', _, _, h3', e'⟩
    obtain ⟨T, st⟩ := story h0 hg hl (all_disc hd)
    have := pad_inj (e.symm.trans e')
    subst this
    have key : ∀ i, CanUse guard (mineT i H) k → T k = .by i ∨ ∃ m, guard k = some m ∧ T m = .by i := by
      intro i h
      rcases h with h | ⟨m, hm, h⟩
      · exact Or.inl ((st.holder k i).2 (by rw [← untag_mineT]; exact h))
      · exact Or.inr ⟨m, hm, (st.holder m i).2 (by rw [← untag_mineT]; exact h)⟩
    rcases key i h3 with h1 | ⟨m, hm, h1⟩
    · rcases key j h3' with h2 | ⟨m, hm, _⟩
      · rw [h1] at h2; injection h2 with h2; exact hij h2
      · rw [st.before _ (hg _ _ hm)] at h1; cases h1
    · rcases key j h3' with h2 | ⟨m', hm', h2⟩
      · rw [st.before _ (hg _ _ hm)] at h2; cases h2
      · rw [hm] at hm'; injection hm' with hm'; rw [← hm', h1] at h2; injection h2 with h2; exact hij h2
  · rintro H cl r x ⟨keys, hl⟩ hd ⟨k, h1, h2, rfl⟩ hno
    cases hk : guard k with
    | none => rw [asLeft_none hk, asLeft_none hk]
    | some m =>
      have hne : guard k ≠ none := by rw [hk]; simp
      rw [asLeft_guarded hne, asLeft_guarded hne, regs_snoc]
      congr 1
      refine regStep_other h0 hg (H := H) ?_ (all_disc hd) hk _ ?_
      · rw [untag_append, texts, List.map_append] at hl
        exact legal_prefix hl
      · by_contra hc
        refine hno cl.1.1 ⟨k, h1, h2, Or.inr ⟨m, hk, ?_⟩, rfl⟩
        show hasKey (untag (mineT cl.1.1 H)) m = true
        rw [untag_mineT]
        simpa using hc

/-! ## a process -/

theorem sectLegal_snoc {nil : V → Bool} {st0 st st1 : Str → Option V} {calls : List (PadCall V × Except PyErr (PadOut V))}
    {es : List (Str × Sect V)} (h : SectLegal nil guard st0 calls es st) {o : PadCall V} {out : Except PyErr (PadOut V)}
    {ev : Option (Str × Sect V)} (hs : SectStep nil guard st o out ev st1) :
    SectLegal nil guard st0 (calls ++ [(o, out)]) (es ++ ev.toList) st1 := by
  induction calls generalizing st0 es with
  | nil => obtain ⟨rfl, rfl⟩ := h; exact ⟨st1, ev, [], hs, by simp, rfl, rfl⟩
  | cons x t ih =>
    obtain ⟨o', out'⟩ := x
    obtain ⟨st2, ev', es1, h1, rfl, h2⟩ := h
    exact ⟨st2, ev', es1 ++ ev.toList, h1, by simp, ih h2⟩

/-- where a process is: the values of the keys it may use, its calls on the index, all calls on the index up to the last of
its own, its calls -/
structure SectNow (c : Codec V) (isNone : V → Bool) (pre : Str) (keys0 U : List Str) (guard : Str → Option Str)
    (R : Str → Option V) (i : Nat) (st : Str → Option V) (h L : THist V)
    (calls : List (PadCall V × Except PyErr (PadOut V))) (s : Store) : Prop where
  has : ∀ k, st k ≠ none ↔ CanUse guard h k
  inU : ∀ k, hasKey (untag h) k = true → k ∈ U ∧ k ∉ keys0
  vals : HasValues c pre s st
  shared : ∀ r m, guard r = some m → hasKey (untag h) m = true → st r = regs guard R L r
  rules : Rules guard c h
  last : mineT i L = h
  legal : SectLegal isNone guard (fun _ => none) calls (sectsOf i (sectsIn guard R L)) st

theorem SectNow.owned {i : Nat} {st : Str → Option V} {h L : THist V} {calls : List (PadCall V × Except PyErr (PadOut V))}
    {s : Store} {pre : Str} (hg : ∀ k m, guard k = some m → k ∈ keys0) (hk0 : keys0 ⊆ U)
    (hn : SectNow c isNone pre keys0 U guard R i st h L calls s)
    {k : Str} (hk : st k ≠ none) : usable pre keys0 U guard h (padAddr pre k) := by
  have := (hn.has k).1 hk
  rcases this with h1 | ⟨m, hm, h1⟩
  · exact ⟨k, (hn.inU k h1).1, Or.inl (hn.inU k h1).2, Or.inl h1, rfl⟩
  · exact ⟨k, hk0 (hg _ _ hm), Or.inr (by rw [hm]; simp), Or.inr ⟨m, hm, h1⟩, rfl⟩

theorem SectNow.rely {i : Nat} {st : Str → Option V} {h L : THist V} {calls : List (PadCall V × Except PyErr (PadOut V))}
    {s s' : Store} {pre : Str} (hg : ∀ k m, guard k = some m → k ∈ keys0) (hk0 : keys0 ⊆ U)
    (hn : SectNow c isNone pre keys0 U guard R i st h L calls s) (hr : RLock (fun x => ¬ usable pre keys0 U guard h x) s s') :
    SectNow c isNone pre keys0 U guard R i st h L calls s' :=
  ⟨hn.has, hn.inU, fun k v hk => by
    rw [(hr.2 _ (not_not.2 (hn.owned hg hk0 (k := k) (by rw [hk]; simp)))).2]
    exact hn.vals k v hk, hn.shared, hn.rules, hn.last, hn.legal⟩

/-- when the others have made more calls -/
theorem SectNow.later {i : Nat} {st : Str → Option V} {h L H : THist V} {calls : List (PadCall V × Except PyErr (PadOut V))}
    {s : Store} {pre : Str} (h0 : keys0.Nodup) (hg : ∀ k m, guard k = some m → k ∈ keys0)
    (hn : SectNow c isNone pre keys0 U guard R i st h L calls s) (hL : L <+: H) (he : mineT i H = h)
    (hl : ∃ keys, Legal (texts (untag H)) keys0 keys) (hd : ∀ i, Disc guard (mine i (untag H))) :
    SectNow c isNone pre keys0 U guard R i st h H calls s := by
  have e : mineT i H = mineT i L := he.trans hn.last.symm
  refine ⟨hn.has, hn.inU, hn.vals, fun r m hr hm => ?_, hn.rules, he, ?_⟩
  · rw [hn.shared r m hr hm, regs_stay h0 hg hL e hl hd hr R (by rw [hn.last]; exact hm)]
  · rw [sectsOf_stay hL e]; exact hn.legal

theorem hasKey_untag_snoc (h : THist V) (i : Nat) (o : KOp) (t : Option V) (r : Except PyErr Nat) :
    hasKey (untag (h ++ [(((i, o), t), r)])) = match ixGrab (o, r) with
      | none => hasKey (untag h)
      | some e => keepKey (hasKey (untag h)) e := by
  rw [untag_append]; exact hasKey_snoc _ ((i, o), r)

theorem mineT_snoc {i : Nat} {H h : THist V} (he : mineT i H = h) (o : KOp) (t : Option V) (r : Except PyErr Nat) :
    mineT i (H ++ [(((i, o), t), r)]) = h ++ [(((i, o), t), r)] := by
  rw [mineT_append, he]; simp [mineT]

theorem sectsOf_snoc {i : Nat} (H : THist V) (x : ((Nat × KOp) × Option V) × Except PyErr Nat) {ev : Option (Str × Sect V)}
    (hx : sectEv guard (regs guard R H) x = ev.map fun e => (i, e)) :
    sectsOf i (sectsIn guard R (H ++ [x])) = sectsOf i (sectsIn guard R H) ++ ev.toList := by
  rw [sectsIn_snoc, sectsOf_append, hx]
  cases ev <;> simp [sectsOf]

/-- how a process ends -/
def SectEnd (c : Codec V) (isNone : V → Bool) (pre : Str) (keys0 U : List Str) (guard : Str → Option Str) (R : Str → Option V)
    (i : Nat) (sc0 : PadScript V ρ) (h L : THist V) (r : ρ) (s : Store) : Prop :=
  ∃ calls st, sc0.Follows calls r ∧ SectNow c isNone pre keys0 U guard R i st h L calls s

theorem sect_crg (hc : CodecOK c) (h0 : keys0.Nodup) (hg : ∀ k m, guard k = some m → k ∈ keys0) (hk0 : keys0 ⊆ U)
    (hR : ∀ k m, guard k = some m → ∃ v b, R k = some v ∧ c.encode v = .ok b) (hf : fuel + 256 ^ 5 < 256 ^ 8) (i : Nat)
    (sc0 sc : PadScript V ρ) :
    ∀ (st : Str → Option V) (h L : THist V) (calls : List (PadCall V × Except PyErr (PadOut V))) (s : Store),
      s.WF → sc.PlaysBy guard (ClaimKeyOK E U) (fun v => ∃ b, c.encode v = .ok b) (fun k => hasKey (untag h) k = true) →
      SectNow c isNone p.pre keys0 U guard R i st h L calls s → (∀ t r, sc.Follows t r → sc0.Follows (calls ++ t) r) →
      CRG (sectSetup V hok keys0 guard hU hix) (fun _ => Rules guard c) (usable p.pre keys0 U guard) (asLeft c p.pre guard R) i
        (SectEnd c isNone p.pre keys0 U guard R i sc0) (tclaimCl E c isNone p fuel i sc) h L s := by
  induction sc with
  | ret r =>
    intro st h L calls s w _ hn hfol s' hr
    exact ⟨calls, st, by simpa using hfol [] r rfl, hn.rely hg hk0 hr.1⟩
  | raise e => intros; trivial
  | call o K ih =>
    intro st h L calls s w hpl hn hfol
    have fol : ∀ r t x, (K r).Follows t x → sc0.Follows ((calls ++ [(o, r)]) ++ t) x := fun r t x ht => by
      have := hfol ((o, r) :: t) x ⟨rfl, ht⟩
      simpa using this
    cases o with
    | keys =>
      refine crg_free (lrg_looks (looks_keys c isNone p) w) fun r s' hr => crg_after fun _ => ?_
      have hn' := hn.rely hg hk0 hr
      exact ih r st h L (calls ++ [(.keys, r)]) s' hr.1 (hpl r) ⟨hn'.has, hn'.inU, hn'.vals, hn'.shared, hn'.rules, hn'.last, by
        simpa using sectLegal_snoc hn'.legal (o := .keys) (out := r) ⟨rfl, rfl⟩⟩ (fol r)
    | get k =>
      have next : ∀ r s', RLock (fun x => ¬ usable p.pre keys0 U guard h x) s s' → (∀ v, st k.text = some v → r = ownGet isNone (some v)) →
          CRG (sectSetup V hok keys0 guard hU hix) (fun _ => Rules guard c) (usable p.pre keys0 U guard) (asLeft c p.pre guard R) i
            (SectEnd c isNone p.pre keys0 U guard R i sc0) (clAfter (fun r => tclaimCl E c isNone p fuel i (K r)) r) h L s' := by
        intro r s' hr hv
        refine crg_after fun _ => ?_
        have hn' := hn.rely hg hk0 hr
        exact ih r st h L (calls ++ [(.get k, r)]) s' hr.1 (hpl r) ⟨hn'.has, hn'.inU, hn'.vals, hn'.shared, hn'.rules, hn'.last, by
          simpa using sectLegal_snoc hn'.legal (o := .get k) (out := r) ⟨rfl, rfl, hv⟩⟩ (fol r)
      cases hst : st k.text with
      | none =>
        exact crg_free (lrg_looks (looks_get c isNone p k) w) fun r s' hr => next r s' hr (by simp [hst])
      | some v =>
        obtain ⟨b, h1, h2⟩ := hn.vals _ _ hst
        have hne : st k.text ≠ none := by rw [hst]; simp
        have hown := hn.owned hg hk0 hne
        have hkU : k.text ∈ U := by
          obtain ⟨k', h3, _, _, e⟩ := hown
          rw [pad_inj e]; exact h3
        exact crg_free (lrg_get w (hU.ok _ hkU) (not_not.2 hown) h2 (hc v b h1).2) fun r s' hr =>
          next r s' hr.2 (by rw [hst]; intro v' e; injection e with e; rw [← e]; exact hr.1)
    | set k v eo =>
      cases eo with
      | false =>
        obtain ⟨hk, ⟨b, hb⟩, hp1, hp2⟩ := hpl
        refine ⟨rfl, hf, fun r s1 H hr _ ha he0 hL hd _ => ?_⟩
        have he0 : mineT i H = h := he0
        have ha1 := ha
        obtain ⟨keys', ha1⟩ := ha1
        have ha2 : Legal (texts (untag H ++ [((i, KOp.add k false), r)])) keys0 keys' := by rw [untag_append] at ha1; exact ha1
        have hlH : ∃ keys, Legal (texts (untag H)) keys0 keys := by
          rw [texts, List.map_append] at ha2; exact legal_prefix ha2
        have hdH := all_disc hd
        have hnH := (hn.rely hg hk0 hr).later h0 hg hL he0 hlH hdH
        have hrules : Rules guard c (h ++ [(((i, KOp.add k false), some v), r)]) :=
          rules_snoc hn.rules trivial fun v' e => by injection e with e; rw [← e]; exact ⟨b, hb⟩
        refine ⟨hrules, ?_⟩
        rcases called (guard := guard) h0 hg (o := .add k false) trivial ⟨untag H, ⟨_, ha2⟩, rfl, hdH⟩ with ⟨n, rfl, hkk, hno⟩ | rfl
        · rw [← untag_mineT, he0] at hno
          have hgk : guard k.text = none := by
            cases hgk : guard k.text with
            | none => rfl
            | some m => exact absurd (hg _ _ hgk) hkk
          have hhas : hasKey (untag (h ++ [(((i, KOp.add k false), some v), .ok n)])) = fun x => x == k.text || hasKey (untag h) x := by
            rw [hasKey_untag_snoc]; rfl
          have hno' : ¬ CanUse guard h k.text := by
            rintro (h1 | ⟨m, h1, _⟩)
            · rw [hno] at h1; cases h1
            · rw [hgk] at h1; cases h1
          have hmono : ∀ x, CanUse guard h x → CanUse guard (h ++ [(((i, KOp.add k false), some v), .ok n)]) x := by
            rintro x (h1 | ⟨m, hm, h1⟩)
            · exact Or.inl (by rw [hhas]; simp [h1])
            · exact Or.inr ⟨m, hm, by rw [hhas]; simp [h1]⟩
          have hown : usable p.pre keys0 U guard (h ++ [(((i, KOp.add k false), some v), .ok n)]) (padAddr p.pre k.text) :=
            ⟨k.text, hk.mem, Or.inl hkk, Or.inl (by rw [hhas]; simp), rfl⟩
          refine ⟨fun x hx hx' => absurd ?_ hx', fun hgain => ?_⟩
          · obtain ⟨k', a1, a2, a3, a4⟩ := hx
            exact ⟨k', a1, a2, hmono _ a3, a4⟩
          · have hnone : s1.content (padAddr p.pre k.text) = none := by
              rw [hgain _ hown fun ⟨k', _, _, a3, a4⟩ => hno' (by rw [pad_inj a4]; exact a3), asLeft_none hgk]
            have hstk : st k.text = none := by
              by_contra hne
              exact hno' ((hn.has _).1 hne)
            refine crg_free (Q' := fun r s' => r = .ok .done ∧
                EffL (fun x => ¬ usable p.pre keys0 U guard (h ++ [(((i, KOp.add k false), some v), .ok n)]) x) s1 s'
                  (padAddr p.pre k.text) (some b)) ?_ ?_
            · refine lrg_bind hr.1 (lrg_memorize (c := c) (v := v) (eo := false) hr.1 (hU.ok _ hk.mem) (not_not.2 hown)
                fun b hb => (hc v b hb).1) ?_ ?_
              · rintro a s2 w2 (⟨_, _, b', hb', he⟩ | ⟨⟨e, he, _⟩, _⟩)
                · rw [hb] at hb'; injection hb' with hb'; subst hb'
                  exact fun s3 h3 => ⟨rfl, he.rely h3⟩
                · cases he
              · rintro e s2 (⟨he, _⟩ | ⟨⟨_, _, h1 | h1⟩, _⟩)
                · cases he
                · exact absurd hb (h1 b)
                · exact absurd hnone h1.2
            · rintro r s2 ⟨rfl, he⟩
              refine crg_after fun _ => ih _ (fun x => if x = k.text then some v else if guard x = some k.text then regs guard R H x else st x)
                _ _ (calls ++ [(.set k v false, .ok .done)]) s2 he.wf ?_ ⟨?_, ?_, ?_, ?_, hrules, mineT_snoc he0 _ _ _, ?_⟩ (fol _)
              · have := hp1 .done
                refine cast (congrArg _ ?_) this
                funext x
                rw [hhas]
                by_cases hx : x = k.text <;> simp [hx]
              · intro x
                by_cases hx : x = k.text
                · simp only [if_pos hx]
                  exact ⟨fun _ => Or.inl (by rw [hhas]; simp [hx]), fun _ => by simp⟩
                · simp only [if_neg hx]
                  by_cases hgx : guard x = some k.text
                  · simp only [if_pos hgx]
                    refine ⟨fun _ => Or.inr ⟨k.text, hgx, by rw [hhas]; simp⟩, fun _ => ?_⟩
                    obtain ⟨v', _, e, _⟩ := regs_some (guard := guard) (hR x _ hgx) hd
                    rw [e]; simp
                  · simp only [if_neg hgx]
                    rw [hn.has]
                    refine ⟨hmono x, ?_⟩
                    rintro (h1 | ⟨m, hm, h1⟩)
                    · rw [hhas] at h1
                      exact Or.inl (by simpa [hx] using h1)
                    · rw [hhas] at h1
                      have hmk : m ≠ k.text := fun e => hgx (by rw [hm, e])
                      exact Or.inr ⟨m, hm, by simpa [hmk] using h1⟩
              · intro x hx
                rw [hhas] at hx
                by_cases hxk : x = k.text
                · rw [hxk]; exact ⟨hk.mem, hkk⟩
                · exact hn.inU x (by simpa [hxk] using hx)
              · intro x v' hx
                by_cases hxk : x = k.text
                · simp only [if_pos hxk, Option.some.injEq] at hx
                  subst hx
                  refine ⟨b, hb, ?_⟩
                  rw [hxk, he.content _ (not_not.2 hown), if_pos rfl]
                · simp only [if_neg hxk] at hx
                  by_cases hgx : guard x = some k.text
                  · simp only [if_pos hgx] at hx
                    obtain ⟨v2, b', e1, e2⟩ := regs_some (guard := guard) (hR x _ hgx) hd
                    rw [hx] at e1; injection e1 with e1; subst e1
                    have hgne : guard x ≠ none := by rw [hgx]; simp
                    have hownx : usable p.pre keys0 U guard (h ++ [(((i, KOp.add k false), some v), .ok n)]) (padAddr p.pre x) :=
                      ⟨x, hk0 (hg _ _ hgx), Or.inr hgne, Or.inr ⟨k.text, hgx, by rw [hhas]; simp⟩, rfl⟩
                    refine ⟨b', e2, ?_⟩
                    rw [he.content _ (not_not.2 hownx), if_neg fun e => hxk (pad_inj e), hgain _ hownx ?_, asLeft_guarded hgne, hx]
                    · simp only [bytesOf, e2]
                    · rintro ⟨x', _, _, a3, a4⟩
                      rw [← pad_inj a4] at a3
                      rcases a3 with a3 | ⟨m, hm, a3⟩
                      · exact (hn.inU x a3).2 (hg _ _ hgx)
                      · rw [hgx] at hm; injection hm with hm
                        rw [← hm, hno] at a3; cases a3
                  · simp only [if_neg hgx] at hx
                    obtain ⟨b', c1, c2⟩ := hnH.vals x v' hx
                    have hne : st x ≠ none := by rw [hx]; simp
                    refine ⟨b', c1, ?_⟩
                    obtain ⟨x', a1, a2, a3, a4⟩ := hn.owned hg hk0 hne
                    rw [he.content _ (not_not.2 ⟨x', a1, a2, hmono _ a3, a4⟩), if_neg fun e => hxk (pad_inj e)]
                    exact c2
              · intro x m hxm hm
                rw [regs_snoc]
                show _ = regs guard R H x
                have hxk : x ≠ k.text := fun e => by rw [e, hgk] at hxm; cases hxm
                simp only [if_neg hxk]
                by_cases hmk : m = k.text
                · rw [if_pos (by rw [hxm, hmk])]
                · rw [if_neg (by rw [hxm]; simpa using hmk)]
                  rw [hhas] at hm
                  exact hnH.shared x m hxm (by simpa [hmk] using hm)
              · rw [sectsOf_snoc (i := i) (ev := some (k.text, .won (regs guard R H))) H _ rfl]
                exact sectLegal_snoc hnH.legal (o := .set k v false) (out := .ok .done) (Or.inl ⟨rfl, hstk, _, rfl, rfl⟩)
        · have hhas : hasKey (untag (h ++ [(((i, KOp.add k false), some v), .error .fileExists)])) = hasKey (untag h) := by
            rw [hasKey_untag_snoc]; rfl
          have hcan : ∀ x, CanUse guard (h ++ [(((i, KOp.add k false), some v), .error .fileExists)]) x ↔ CanUse guard h x := by
            intro x; unfold CanUse; rw [hhas]
          have howned : usable p.pre keys0 U guard (h ++ [(((i, KOp.add k false), some v), .error .fileExists)]) = usable p.pre keys0 U guard h := by
            funext x; unfold usable; simp only [hcan]
          refine ⟨fun x hx hx' => absurd (by rw [howned]; exact hx) hx', fun _ => crg_after fun _ => ?_⟩
          refine ih _ st _ _ (calls ++ [(.set k v false, .error .keyError)]) s1 hr.1 (by rw [hhas]; exact hp2 _)
            ⟨fun x => by rw [hcan]; exact hn.has x, by rw [hhas]; exact hn.inU, hnH.vals, ?_, hrules, mineT_snoc he0 _ _ _, ?_⟩ (fol _)
          · rw [hhas, regs_snoc]; exact hnH.shared
          · rw [sectsOf_snoc (i := i) (ev := some (k.text, .lost)) H _ rfl]
            exact sectLegal_snoc hnH.legal (o := .set k v false) (out := .error .keyError) (Or.inr ⟨rfl, rfl, rfl⟩)
      | true =>
        obtain ⟨hk, hheld, ⟨b, hb⟩, hp2⟩ := hpl
        have hob : obeys guard (hasKey (untag h)) (.add k true) := hheld
        refine ⟨rfl, hf, fun r s1 H hr _ ha he0 hL hd _ => ?_⟩
        have he0 : mineT i H = h := he0
        have ha1 := ha
        obtain ⟨keys', ha1⟩ := ha1
        have ha2 : Legal (texts (untag H ++ [((i, KOp.add k true), r)])) keys0 keys' := by rw [untag_append] at ha1; exact ha1
        have hlH : ∃ keys, Legal (texts (untag H)) keys0 keys := by
          rw [texts, List.map_append] at ha2; exact legal_prefix ha2
        have hdH := all_disc hd
        have hnH := (hn.rely hg hk0 hr).later h0 hg hL he0 hlH hdH
        have hrules : Rules guard c (h ++ [(((i, KOp.add k true), some v), r)]) :=
          rules_snoc hn.rules hob fun v' e => by injection e with e; rw [← e]; exact ⟨b, hb⟩
        refine ⟨hrules, ?_⟩
        obtain ⟨n, rfl⟩ := called (guard := guard) h0 hg (o := .add k true) (h := untag h) hob
          ⟨untag H, ⟨_, ha2⟩, by rw [← untag_mineT, he0], hdH⟩
        have hhas : hasKey (untag (h ++ [(((i, KOp.add k true), some v), .ok n)])) = hasKey (untag h) := by
          rw [hasKey_untag_snoc]; rfl
        have hcan : ∀ x, CanUse guard (h ++ [(((i, KOp.add k true), some v), .ok n)]) x ↔ CanUse guard h x := by
          intro x; unfold CanUse; rw [hhas]
        have howned : usable p.pre keys0 U guard (h ++ [(((i, KOp.add k true), some v), .ok n)]) = usable p.pre keys0 U guard h := by
          funext x; unfold usable; simp only [hcan]
        refine ⟨fun x hx hx' => absurd (by rw [howned]; exact hx) hx', fun _ => ?_⟩
        have hstk : st k.text ≠ none := (hn.has _).2 hheld
        have hown := hn.owned hg hk0 hstk
        refine crg_free (Q' := fun r s' => r = .ok .done ∧
            EffL (fun x => ¬ usable p.pre keys0 U guard (h ++ [(((i, KOp.add k true), some v), .ok n)]) x) s1 s'
              (padAddr p.pre k.text) (some b)) ?_ ?_
        · refine lrg_bind hr.1 (lrg_memorize (c := c) (v := v) (eo := true) hr.1 (hU.ok _ hk.mem) (not_not.2 (by rw [howned]; exact hown))
            fun b hb => (hc v b hb).1) ?_ ?_
          · rintro a s2 w2 (⟨_, _, b', hb', he⟩ | ⟨⟨e, he, _⟩, _⟩)
            · rw [hb] at hb'; injection hb' with hb'; subst hb'
              exact fun s3 h3 => ⟨rfl, he.rely h3⟩
            · cases he
          · rintro e s2 (⟨he, _⟩ | ⟨⟨_, _, h1 | h1⟩, _⟩)
            · cases he
            · exact absurd hb (h1 b)
            · cases h1.1
        · rintro r s2 ⟨rfl, he⟩
          rw [howned] at he
          refine crg_after fun _ => ih _ (ownPut st k.text (some v)) _ _ (calls ++ [(.set k v true, .ok .done)]) s2 he.wf
            (by rw [hhas]; exact hp2 _) ⟨?_, by rw [hhas]; exact hn.inU, ?_, ?_, hrules, mineT_snoc he0 _ _ _, ?_⟩ (fol _)
          · intro x
            rw [hcan, ← hn.has]
            simp only [ownPut]
            by_cases hx : x = k.text
            · simp [hx, hstk]
            · simp [hx]
          · intro x v' hx
            by_cases hxk : x = k.text
            · simp only [ownPut, if_pos hxk, Option.some.injEq] at hx
              subst hx
              refine ⟨b, hb, ?_⟩
              rw [hxk, he.content _ (not_not.2 hown), if_pos rfl]
            · simp only [ownPut, if_neg hxk] at hx
              obtain ⟨b', c1, c2⟩ := hnH.vals x v' hx
              have hne : st x ≠ none := by rw [hx]; simp
              refine ⟨b', c1, ?_⟩
              rw [he.content _ (not_not.2 (hn.owned hg hk0 hne)), if_neg fun e => hxk (pad_inj e)]
              exact c2
          · intro x m hxm hm
            rw [hhas] at hm
            rw [regs_snoc]
            show ownPut st k.text (some v) x = (if (guard k.text).isSome then ownPut (regs guard R H) k.text (some v) else regs guard R H) x
            by_cases hxk : x = k.text
            · rw [if_pos (by rw [← hxk, hxm]; rfl)]
              simp [ownPut, hxk]
            · have h1 : ownPut st k.text (some v) x = st x := by simp [ownPut, hxk]
              have h2 : ownPut (regs guard R H) k.text (some v) x = regs guard R H x := by simp [ownPut, hxk]
              rw [h1, hnH.shared x m hxm hm]
              split
              · exact h2.symm
              · rfl
          · rw [sectsOf_snoc (i := i) (ev := if (guard k.text).isSome then some (k.text, .put v) else none) H _
              (by simp only [sectEv]; split <;> rfl)]
            exact sectLegal_snoc hnH.legal (o := .set k v true) (out := .ok .done) ⟨rfl, rfl, rfl⟩
    | del k =>
      obtain ⟨hk, hheld, hp2⟩ := hpl
      have hob : obeys guard (hasKey (untag h)) (.del k) := hheld
      have hstk : st k.text ≠ none := (hn.has _).2 (Or.inl hheld)
      have hkk : k.text ∉ keys0 := (hn.inU _ hheld).2
      have hgk : guard k.text = none := by
        cases hgk : guard k.text with
        | none => rfl
        | some m => exact absurd (hg _ _ hgk) hkk
      have hown := hn.owned hg hk0 hstk
      obtain ⟨v, hv⟩ := Option.ne_none_iff_exists'.1 hstk
      obtain ⟨b, hb1, hb2⟩ := hn.vals _ _ hv
      obtain ⟨m, hm, _⟩ := names_of_content hb2
      refine crg_free (Q' := fun r s' => r = .ok .done ∧
            EffL (fun x => ¬ usable p.pre keys0 U guard h x) s s' (padAddr p.pre k.text) none) ?_ ?_
      · refine lrg_bind w (lrg_deleteBlock w (hU.ok _ hk.mem) (not_not.2 hown) hm) ?_ ?_
        · rintro _ s2 w2 ⟨_, he⟩
          exact fun s3 h3 => ⟨rfl, he.rely h3⟩
        · rintro e s2 ⟨he, _⟩
          cases he
      · rintro r s1 ⟨rfl, he⟩
        refine ⟨rfl, hf, fun r s2 H hr _ ha he0 hL hd _ => ?_⟩
        have he0 : mineT i H = h := he0
        have ha1 := ha
        obtain ⟨keys', ha1⟩ := ha1
        have ha2 : Legal (texts (untag H ++ [((i, KOp.del k), r)])) keys0 keys' := by rw [untag_append] at ha1; exact ha1
        have hlH : ∃ keys, Legal (texts (untag H)) keys0 keys := by
          rw [texts, List.map_append] at ha2; exact legal_prefix ha2
        have hdH := all_disc hd
        have hnH := hn.later h0 hg hL he0 hlH hdH
        have hrules : Rules guard c (h ++ [(((i, KOp.del k), none), r)]) := rules_snoc hn.rules hob fun v' e => by cases e
        refine ⟨hrules, ?_⟩
        obtain ⟨n, rfl⟩ := called (guard := guard) h0 hg (o := .del k) (h := untag h) hob
          ⟨untag H, ⟨_, ha2⟩, by rw [← untag_mineT, he0], hdH⟩
        have hhas : hasKey (untag (h ++ [(((i, KOp.del k), (none : Option V)), .ok n)])) = fun x => x != k.text && hasKey (untag h) x := by
          rw [hasKey_untag_snoc]; rfl
        have hgone : s2.names (padAddr p.pre k.text) = none := by
          rw [(hr.2 _ (not_not.2 hown)).1]
          exact he.names_none (not_not.2 hown)
        -- the other values are as they were
        have hval : ∀ x v', x ≠ k.text → st x = some v' → ∃ b, c.encode v' = .ok b ∧ s2.content (padAddr p.pre x) = some b := by
          intro x v' hxk hx
          obtain ⟨b', c1, c2⟩ := hn.vals x v' hx
          have hne : st x ≠ none := by rw [hx]; simp
          refine ⟨b', c1, ?_⟩
          rw [(hr.2 _ (not_not.2 (hn.owned hg hk0 hne))).2, he.content _ (not_not.2 (hn.owned hg hk0 hne)), if_neg fun e => hxk (pad_inj e)]
          exact c2
        refine ⟨fun x hx hx' => ?_, fun _ => crg_after fun _ => ?_⟩
        · obtain ⟨k', a1, a2, a3, rfl⟩ := hx
          by_cases hkk' : k' = k.text
          · rw [hkk', asLeft_none hgk]; exact content_none.2 hgone
          · by_cases hgx : guard k' = some k.text
            · obtain ⟨v', hv'⟩ := Option.ne_none_iff_exists'.1 ((hn.has k').2 a3)
              obtain ⟨b', c1, c2⟩ := hval k' v' hkk' hv'
              rw [asLeft_guarded (by rw [hgx]; simp), regs_snoc]
              show _ = bytesOf c (regs guard R H k')
              rw [← hnH.shared k' k.text hgx hheld, hv', c2]
              simp only [bytesOf, c1]
            · refine absurd ⟨k', a1, a2, ?_, rfl⟩ hx'
              rcases a3 with a3 | ⟨m', hm', a3⟩
              · exact Or.inl (by rw [hhas]; simp [hkk', a3])
              · have : m' ≠ k.text := fun e => hgx (by rw [hm', e])
                exact Or.inr ⟨m', hm', by rw [hhas]; simp [this, a3]⟩
        · refine ih _ (fun x => if x = k.text ∨ guard x = some k.text then none else st x) _ _ (calls ++ [(.del k, .ok .done)]) s2 hr.1 ?_
            ⟨?_, ?_, ?_, ?_, hrules, mineT_snoc he0 _ _ _, ?_⟩ (fol _)
          · have := hp2 (.ok .done)
            refine cast (congrArg _ ?_) this
            funext x
            rw [hhas]
            by_cases hx : x = k.text <;> simp [hx]
          · intro x
            by_cases hx : x = k.text ∨ guard x = some k.text
            · simp only [if_pos hx]
              refine ⟨fun h => absurd rfl h, ?_⟩
              rintro (h1 | ⟨m', hm', h1⟩)
              · rw [hhas] at h1
                rcases hx with rfl | hx
                · simp at h1
                · have : hasKey (untag h) x = true := by simpa using And.right (by simpa using h1)
                  exact absurd (hg _ _ hx) (hn.inU x this).2
              · rw [hhas] at h1
                rcases hx with rfl | hx
                · rw [hgk] at hm'; cases hm'
                · rw [hx] at hm'; injection hm' with hm'; subst hm'
                  simp at h1
            · simp only [if_neg hx]
              rw [hn.has]
              have hx1 : x ≠ k.text := fun e => hx (Or.inl e)
              constructor
              · rintro (h1 | ⟨m', hm', h1⟩)
                · exact Or.inl (by rw [hhas]; simp [hx1, h1])
                · have : m' ≠ k.text := fun e => hx (Or.inr (by rw [hm', e]))
                  exact Or.inr ⟨m', hm', by rw [hhas]; simp [this, h1]⟩
              · rintro (h1 | ⟨m', hm', h1⟩)
                · rw [hhas] at h1; exact Or.inl (by simpa [hx1] using h1)
                · rw [hhas] at h1
                  have : m' ≠ k.text := fun e => hx (Or.inr (by rw [hm', e]))
                  exact Or.inr ⟨m', hm', by simpa [this] using h1⟩
          · intro x hx
            rw [hhas] at hx
            simp only [Bool.and_eq_true] at hx
            exact hn.inU x hx.2
          · intro x v' hx
            by_cases hxk : x = k.text ∨ guard x = some k.text
            · simp [if_pos hxk] at hx
            · simp only [if_neg hxk] at hx
              exact hval x v' (fun e => hxk (Or.inl e)) hx
          · intro x m' hxm hm'
            rw [hhas] at hm'
            simp only [Bool.and_eq_true, bne_iff_ne] at hm'
            rw [regs_snoc]
            show _ = regs guard R H x
            rw [← hnH.shared x m' hxm hm'.2]
            refine if_neg ?_
            rintro (rfl | h1)
            · rw [hgk] at hxm; cases hxm
            · rw [hxm] at h1; injection h1 with h1; exact hm'.1 h1
          · rw [sectsOf_snoc (i := i) (ev := some (k.text, .gave)) H _ rfl]
            exact sectLegal_snoc hnH.legal (o := .del k) (out := .ok .done) ⟨rfl, rfl, rfl⟩

/-! ## all of them -/

/-- The claims, and what is done under them, are as if one after the other (`LegalSects`, Verif/Spec/Sections.lean): at the end
`T` is who has which key and `R'` are the guarded values. Every process that returned made its own calls in that order, saw
under the keys it might use what `SectLegal` says, and its values are there still; the values of keys whose guard is free are
there; those that had returned before another first moved come first. -/
structure Sectioned (E : Env) (c : Codec V) (isNone : V → Bool) (p : Pad) (keys0 U : List Str) (guard : Str → Option Str)
    (R : Str → Option V) (scripts : List (PadScript V ρ)) (sched : List Nat) (s : Store)
    (events : List (Nat × Str × Sect V)) (T : Str → Holder) (R' : Str → Option V) : Prop where
  legal : LegalSects guard (atFirst keys0) R events T R'
  clients : ∀ e ∈ events, e.1 < scripts.length
  own : ∀ (i : Nat) (sc : PadScript V ρ) (r : ρ), scripts[i]? = some sc →
    (interleave E sched (scripts.map (PadScript.run E c isNone p)) s).1[i]? = some (.ret r) →
    ∃ calls st, sc.Follows calls r ∧ SectLegal isNone guard (fun _ => none) calls (sectsOf i events) st ∧
      (∀ k, st k ≠ none ↔ T k = .by i ∨ ∃ m, guard k = some m ∧ T m = .by i) ∧
      HasValues c p.pre (interleave E sched (scripts.map (PadScript.run E c isNone p)) s).2 st
  left : ∀ k m, guard k = some m → (∀ i, T m ≠ .by i) → ∃ v b, R' k = some v ∧ c.encode v = .ok b ∧
    (interleave E sched (scripts.map (PadScript.run E c isNone p)) s).2.content (padAddr p.pre k) = some b
  gone : ∀ k ∈ U, T k = .free →
    (interleave E sched (scripts.map (PadScript.run E c isNone p)) s).2.names (padAddr p.pre k) = none
  order : ∀ a b, sched = a ++ b → ∃ ea eb, events = ea ++ eb ∧ (∀ e ∈ ea, e.1 ∈ a) ∧
    ∀ i r, (interleave E a (scripts.map (PadScript.run E c isNone p)) s).1[i]? = some (.ret r) → ∀ e ∈ eb, e.1 ≠ i

theorem sections (hp : p.index = .tag ix) (hm : p.mode = .sliding fuel) (hc : CodecOK c) (hok : NamesOK E ix.name)
    (hU : PlayOK E p.pre U) (hix : ix.name = indexName p.pre) {s : Store} (w : s.WF) (h : IxRep E s ix keys0)
    {fl : Nat} (hcl : LockClean s ix.name fl) (hfl : fl < 256 ^ 5) (hk0 : keys0 ⊆ U)
    (hno : ∀ k ∈ U, k ∉ keys0 → s.names (padAddr p.pre k) = none) (hg : ∀ k m, guard k = some m → k ∈ keys0)
    (hR : ∀ k m, guard k = some m → ∃ v b, R k = some v ∧ c.encode v = .ok b ∧ s.content (padAddr p.pre k) = some b)
    (hf : fuel + 256 ^ 5 < 256 ^ 8) (scripts : List (PadScript V ρ))
    (hs : ∀ sc ∈ scripts, sc.PlaysBy guard (ClaimKeyOK E U) (fun v => ∃ b, c.encode v = .ok b) fun _ => False)
    (sched : List Nat) (hq : CodeQuietRun E ix.name sched (scripts.map (PadScript.run E c isNone p)) s) :
    ∃ events T R', Sectioned E c isNone p keys0 U guard R scripts sched s events T R' ∧
      ((∀ q ∈ (interleave E sched (scripts.map (PadScript.run E c isNone p)) s).1, ∃ a, q = .ret a) →
        ∃ keys, (∀ k, T k = .free ↔ k ∉ keys) ∧
          IxRep E (interleave E sched (scripts.map (PadScript.run E c isNone p)) s).2 ix keys) := by
  have h0 : keys0.Nodup := h.nodup
  have hR' : ∀ k m, guard k = some m → ∃ v b, R k = some v ∧ c.encode v = .ok b := fun k m hk => by
    obtain ⟨v, b, h1, h2, _⟩ := hR k m hk
    exact ⟨v, b, h1, h2⟩
  let S := sectSetup V hok keys0 guard hU hix
  let cls := scripts.mapIdx fun i sc => tclaimCl E c isNone p fuel i sc
  have hprog : cls.map (Cl.prog S.name S.bodies) = scripts.map (PadScript.run E c isNone p) := by
    have : cls.map (Cl.prog S.name S.bodies) = scripts.mapIdx fun i sc => (tclaimCl E c isNone p fuel i sc).prog S.name S.bodies := by
      apply List.ext_getElem?
      intro i
      simp only [cls, List.getElem?_map, List.getElem?_mapIdx, Option.map_map]
      rfl
    rw [this]
    exact mapIdx_eq_map _ _ _ fun i sc hi => tclaimCl_prog (bodies := (ixSetup E ix hok
      (fun x => lockNames ix.name x ∨ inPlay p.pre keys0 U guard x) (fun _ h => Or.inl h) (offX_inPlay hU hix) keys0 U hU.univ).bodies)
      (ok := ClaimKeyOK E U) hp hm i (fun k hk => hU.free _ hk.mem)
      (fun o ho => if_pos ⟨ho.hashed, hU.nonempty _ ho.mem, ho.mem⟩) sc _ (hs sc (List.mem_of_getElem? hi))
  have : Inhabited ((Nat × KOp) × Option V) := ⟨((0, .del (.str [])), none)⟩
  let Q : Nat → THist V → THist V → ρ → Store → Prop := fun i h L r s =>
    ∀ sc, scripts[i]? = some sc → SectEnd c isNone p.pre keys0 U guard R i sc h L r s
  rw [← hprog] at hq
  obtain ⟨H, ⟨keys, hl⟩, _, hord, hout, hown, hJ, hdisc, hnobody⟩ := clients (D := fun _ => Rules guard c)
    (P := fun _ => usable p.pre keys0 U guard) (ex := asLeft c p.pre guard R) (M := inPlay p.pre keys0 U guard) (Q := Q) S
    (sect_priv h0 hg) w hcl hfl ⟨keys0, h, rfl, hk0⟩ (fun _ => rules_nil) (by
      rintro x ⟨k, h1, h2, rfl⟩ _
      cases hk : guard k with
      | none =>
        rw [asLeft_none hk]
        rcases h2 with h2 | h2
        · exact content_none.2 (hno k h1 h2)
        · exact absurd hk h2
      | some m =>
        obtain ⟨v, b, e1, e2, e3⟩ := hR k m hk
        rw [asLeft_guarded (by rw [hk]; simp), e3]
        show _ = bytesOf c (R k)
        rw [e1]
        simp only [bytesOf, e2]) cls (by
      intro i cl hi
      simp only [cls, List.getElem?_mapIdx] at hi
      cases hsc : scripts[i]? with
      | none => rw [hsc] at hi; simp at hi
      | some sc =>
        rw [hsc] at hi
        simp only [Option.map_some, Option.some.injEq] at hi
        subst hi
        have := sect_crg (isNone := isNone) (hok := hok) (hU := hU) (hix := hix) hc h0 hg hk0 hR' hf i sc sc (fun _ => none) [] [] [] s w
          (by simpa [hasKey, untag, grabsIn] using hs sc (List.mem_of_getElem? hsc))
          ⟨by simp [CanUse, hasKey, grabsIn, untag], by simp [hasKey, grabsIn, untag], (by rintro k v h; cases h),
            by simp [hasKey, grabsIn, untag], rules_nil, rfl, rfl, rfl⟩ (fun t r ht => ht)
        have e : Q i = SectEnd c isNone p.pre keys0 U guard R i sc := by
          funext h L r s
          simp only [Q, hsc, Option.some.injEq, forall_eq']
        rw [e]
        exact this) sched hq
  rw [hprog] at hord hown hJ hnobody
  have hlen : cls.length = scripts.length := by simp [cls]
  have hmem : ∀ (H : THist V) x, x ∈ H → x ∈ S.restrict x.1.1.1 H := fun H x hx => List.mem_filter.2 ⟨hx, by
    show (x.1.1.1 == x.1.1.1) = true
    simp⟩
  have fin : ∀ keys, Legal (texts (untag H)) keys0 keys → ∃ T, (∀ k, T k = .free ↔ k ∉ keys) ∧
      Sectioned E c isNone p keys0 U guard R scripts sched s (sectsIn guard R H) T (regs guard R H) := by
    intro keys hl
    obtain ⟨T, st, hsl⟩ := sect_story h0 hg R hl (all_disc hdisc)
    have holder : ∀ k i, T k = .by i ↔ hasKey (untag (mineT i H)) k = true := fun k i => by
      rw [untag_mineT]; exact st.holder k i
    refine ⟨T, st.free, hsl, ?_, ?_, ?_, ?_, ?_⟩
    · intro e he
      obtain ⟨x, hx, hxe⟩ := mem_sectsIn he
      by_contra hn
      have := hout x.1.1.1 (by rw [hlen, hxe]; omega)
      have hm := hmem H x hx
      rw [this] at hm
      simp at hm
    · intro i sc r hi hr
      obtain ⟨L, hL1, hL2, hq'⟩ := hown i r hr
      obtain ⟨calls, st', f1, f2⟩ := hq' sc hi
      refine ⟨calls, st', f1, ?_, fun k => ?_, f2.vals⟩
      · rw [sectsOf_stay hL1 hL2.symm]; exact f2.legal
      · rw [f2.has, holder]
        constructor
        · rintro (h1 | ⟨m, hm, h1⟩)
          · exact Or.inl h1
          · exact Or.inr ⟨m, hm, (holder m i).2 h1⟩
        · rintro (h1 | ⟨m, hm, h1⟩)
          · exact Or.inl h1
          · exact Or.inr ⟨m, hm, (holder m i).1 h1⟩
    · intro k m hk hT
      have hne : guard k ≠ none := by rw [hk]; simp
      obtain ⟨v, b, e1, e2⟩ := regs_some (guard := guard) (hR' k m hk) hdisc
      refine ⟨v, b, e1, e2, ?_⟩
      rw [hnobody _ ⟨k, hk0 (hg _ _ hk), Or.inr hne, rfl⟩, asLeft_guarded hne, e1]
      · simp only [bytesOf, e2]
      · rintro i ⟨k', _, _, a3, a4⟩
        rw [← pad_inj a4] at a3
        rcases a3 with a3 | ⟨m', hm', a3⟩
        · have := (holder k i).2 a3
          rw [st.before _ (hg _ _ hk)] at this; cases this
        · rw [hk] at hm'; injection hm' with hm'
          exact hT i ((holder m i).2 (by rw [hm']; exact a3))
    · intro k hk hT
      have hk0' : k ∉ keys0 := fun hc => by rw [st.before k hc] at hT; cases hT
      have hgk : guard k = none := by
        cases hgk : guard k with
        | none => rfl
        | some m => exact absurd (hg _ _ hgk) hk0'
      refine content_none.1 ?_
      rw [hnobody _ ⟨k, hk, Or.inl hk0', rfl⟩, asLeft_none hgk]
      rintro i ⟨k', _, _, a3, a4⟩
      rw [← pad_inj a4] at a3
      rcases a3 with a3 | ⟨m', hm', a3⟩
      · have := (holder k i).2 a3
        rw [hT] at this; cases this
      · rw [hgk] at hm'; cases hm'
    · intro a b hab
      obtain ⟨Ha, _, ⟨Hb, hpx⟩, h2, h3⟩ := hord a b hab
      refine ⟨sectsIn guard R Ha, sectsIn guard (regs guard R Ha) Hb, ?_, ?_, ?_⟩
      · rw [← hpx, sectsIn_append]
      · intro e he
        obtain ⟨x, hx, hxe⟩ := mem_sectsIn he
        by_contra hn
        rw [← hxe] at hn
        have := h2 x.1.1.1 hn
        have hm := hmem Ha x hx
        rw [this] at hm
        simp [Setup.restrict] at hm
      · intro i r hr e he
        obtain ⟨x, hx, hxe⟩ := mem_sectsIn he
        intro hxi
        have := h3 i r hr
        rw [← hpx] at this
        have hnil : mineT i Hb = [] := mineT_nil (H := Ha) this.symm
        have hm : x ∈ mineT i Hb := List.mem_filter.2 ⟨hx, by rw [hxe, hxi]; simp⟩
        rw [hnil] at hm
        simp at hm
  by_cases hret : ∀ q ∈ (interleave E sched (scripts.map (PadScript.run E c isNone p)) s).1, ∃ a, q = .ret a
  · obtain ⟨⟨keys', h1, h2, _⟩, _⟩ := hJ hret
    obtain ⟨T, t1, t2⟩ := fin keys' h2
    exact ⟨_, T, _, t2, fun _ => ⟨keys', t1, h1⟩⟩
  · obtain ⟨T, t1, t2⟩ := fin keys hl
    exact ⟨_, T, _, t2, fun h => absurd h hret⟩

end Verif.Lemmas
