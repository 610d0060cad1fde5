import Verif.Lemmas.Claims
/-!
# Processes that claim keys of a notepad, whatever the others do
-/
namespace Verif.Lemmas
open Verif Verif.Model Verif.Spec
variable {E : Env} {α β γ V ρ : Type}

/-! ## programs that only look -/

def Looks : Prog α → Prop
  | .ret _ => True
  | .raise _ => True
  | .stuck => True
  | .op (.attach _) k => ∀ r, Looks (k r)
  | .op (.read _) k => ∀ r, Looks (k r)
  | .op _ _ => False

theorem looks_bind {p : Prog α} {f : α → Prog β} (hp : Looks p) (hf : ∀ a, Looks (f a)) : Looks (p >>= f) := by
  show Looks (p.bind f)
  induction p with
  | ret a => exact hf a
  | raise e => trivial
  | stuck => trivial
  | op o k ih =>
    cases o with
    | attach n => exact fun r => ih r (hp r)
    | read h => exact fun r => ih r (hp r)
    | _ => exact hp.elim

theorem looks_ofExcept (r : Except PyErr α) : Looks (Prog.ofExcept r) := by cases r <;> trivial

theorem looks_attempt {p : Prog α} (hp : Looks p) : Looks p.attempt := by
  induction p with
  | ret a => trivial
  | raise e => trivial
  | stuck => trivial
  | op o k ih =>
    cases o with
    | attach n => exact fun r => ih r (hp r)
    | read h => exact fun r => ih r (hp r)
    | _ => exact hp.elim

theorem looks_attach (a : Str) : Looks (attach a) := fun r => by cases r <;> trivial
theorem looks_read (h : Nat) : Looks (read h) := fun r => by cases r <;> trivial

theorem lrg_looks {X : Str → Prop} {p : Prog α} (hp : Looks p) {s : Store} (w : s.WF) :
    LRG E X (fun _ s' => RLock X s s') p s := by
  suffices h : ∀ s1, RLock X s s1 → LRG E X (fun _ s' => RLock X s s') p s1 from h s (RLock.refl w)
  induction p with
  | ret a => exact fun s1 h1 s2 h2 => h1.trans _ _ _ h2
  | raise e => exact fun s1 h1 s2 h2 => h1.trans _ _ _ h2
  | stuck => intros; trivial
  | op o k ih =>
    intro s1 h1 s2 h2
    have key : (o.step E s2).2 = s2 := by
      cases o with
      | attach n => simp only [Op.step]; split <;> first | rfl | (split <;> rfl)
      | read h => rfl
      | _ => exact hp.elim
    rw [key]
    refine ⟨fun x _ => ⟨rfl, rfl⟩, ?_⟩
    cases o with
    | attach n => exact ih _ (hp _) _ (h1.trans _ _ _ h2)
    | read h => exact ih _ (hp _) _ (h1.trans _ _ _ h2)
    | _ => exact hp.elim

theorem looks_get (c : Codec V) (isNone : V → Bool) (p : Pad) (k : Key) : Looks ((PadCall.get k).run E c isNone p) := by
  refine looks_bind ?_ fun _ => trivial
  unfold padGet remember fetchBlockBytes
  refine looks_bind (looks_bind (looks_bind (looks_attach _) fun _ => looks_read _) fun _ => looks_ofExcept _) fun v => ?_
  split <;> trivial

theorem looks_loadKey (ix : Index) (i : Nat) : Looks (loadKey? E ix i) := by
  unfold loadKey?
  refine looks_bind (looks_attempt (looks_attach _)) fun r => ?_
  split
  · refine looks_bind (looks_read _) fun b => looks_bind ?_ fun _ => trivial
    unfold decodeUtf8
    split <;> trivial
  · trivial
  · trivial

theorem looks_keys (c : Codec V) (isNone : V → Bool) (p : Pad) : Looks ((PadCall.keys (V := V)).run E c isNone p) := by
  refine looks_bind ?_ fun _ => trivial
  unfold padKeys
  cases p.index with
  | fake => trivial
  | tag ix =>
    refine looks_bind (looks_bind (looks_bind (looks_read _) fun _ => trivial) fun n => ?_) fun _ => trivial
    generalize 0 = i
    induction n generalizing i with
    | zero => trivial
    | succ n ih => exact looks_bind (looks_loadKey _ _) fun _ => looks_bind (ih _) fun _ => trivial

theorem lrg_get {X : Str → Prop} {s : Store} (w : s.WF) {c : Codec V} {isNone : V → Bool} {p : Pad} {k : Key} {v : V}
    {b : Bytes} (hok : E.okName (padAddr p.pre k.text) = true) (ha : ¬ X (padAddr p.pre k.text))
    (hb : s.content (padAddr p.pre k.text) = some b) (hd : c.decode b = .ok v) :
    LRG E X (fun r s' => r = ownGet isNone (some v) ∧ RLock X s s') ((PadCall.get k).run E c isNone p) s := by
  refine lrg_bind (Q' := fun r s' => r.map PadOut.val = ownGet isNone (some v) ∧ RLock X s s') w ?_ ?_ ?_
  · unfold padGet
    refine lrg_bind w (lrg_remember (c := c) w hok ha) ?_ ?_
    · rintro v' s1 w1 ⟨h1, r1⟩
      simp only [hb, hd] at h1
      injection h1 with h1
      subst h1
      split
      · rename_i hn; exact fun s2 h2 => ⟨by simp [ownGet, hn, Except.map], r1.trans _ _ _ h2⟩
      · rename_i hn; exact fun s2 h2 => ⟨by simp [ownGet, hn, Except.map], r1.trans _ _ _ h2⟩
    · rintro e s1 ⟨h1, _⟩
      simp only [hb, hd] at h1
      cases h1
  · rintro v' s1 w1 ⟨h1, r1⟩
    exact fun s2 h2 => ⟨h1, r1.trans _ _ _ h2⟩
  · rintro e s1 ⟨h1, r1⟩
    exact ⟨h1, r1⟩

/-! ## the setting -/

/-- the blocks of the keys in play -/
def managed (pre : Str) (keys0 U : List Str) (x : Str) : Prop := ∃ k, k ∈ U ∧ k ∉ keys0 ∧ x = padAddr pre k

/-- the blocks of the keys that a client has -/
def ownedBy (pre : Str) (keys0 U : List Str) (h : Hist (Nat × KOp) Nat) (x : Str) : Prop :=
  ∃ k, k ∈ U ∧ k ∉ keys0 ∧ hasKey h k = true ∧ x = padAddr pre k

/-- the keys in play: not empty, not beginning with "index", with names the system accepts -/
structure PlayOK (E : Env) (pre : Str) (U : List Str) : Prop where
  univ : UniverseOK E U
  nonempty : ∀ k ∈ U, k ≠ []
  free : ∀ k ∈ U, ¬ indexWord <+: k
  ok : ∀ k ∈ U, E.okName (padAddr pre k) = true

variable {c : Codec V} {isNone : V → Bool} {p : Pad} {ix : Index} {fuel : Nat} {keys0 U : List Str}

theorem offX_play {pre : Str} (hU : PlayOK E pre U) (hix : ix.name = indexName pre) :
    OffX ix.name fun x => lockNames ix.name x ∨ managed pre keys0 U x := by
  rintro x hx (h | ⟨k, h1, _, rfl⟩)
  · exact index_not_lock hx h
  · obtain ⟨sl, _, e⟩ := hx
    rw [hix] at e
    exact slot_ne_pad (hU.free k h1) sl e.symm

/-- clients of the index of a notepad -/
noncomputable def claimSetup (hok : NamesOK E ix.name) (keys0 : List Str) {pre : Str} (hU : PlayOK E pre U)
    (hix : ix.name = indexName pre) : Setup E (Nat × KOp) Nat :=
  ixSetup E ix hok (fun x => lockNames ix.name x ∨ managed pre keys0 U x) (fun _ h => Or.inl h) (offX_play hU hix) keys0 U hU.univ

variable {hok : NamesOK E ix.name} {hU : PlayOK E p.pre U} {hix : ix.name = indexName p.pre}

theorem claim_priv (h0 : keys0.Nodup) :
    Priv (claimSetup hok keys0 hU hix) (fun _ => Disc fun _ => none) (fun _ => ownedBy p.pre keys0 U) (fun _ _ => none)
      (managed p.pre keys0 U) := by
  refine ⟨fun i h x ⟨k, h1, h2, _, e⟩ => ⟨k, h1, h2, e⟩, fun x hx => ⟨Or.inr hx, ?_⟩, ?_, fun _ _ _ _ _ _ _ _ => rfl⟩
  · obtain ⟨k, h1, _, rfl⟩ := hx
    rintro ⟨sl, _, e⟩
    have e : padAddr p.pre k = sl.addr ix.name := e
    rw [hix] at e
    exact slot_ne_pad (hU.free k h1) sl e.symm
  · rintro H ⟨keys, hl⟩ hd i j x hij ⟨k, _, _, h3, e⟩ ⟨k', _, _, h3', e'⟩
    obtain ⟨T, st⟩ := story h0 (by simp) hl hd
    have := pad_inj (e.symm.trans e')
    subst this
    have h1 := (st.holder k i).2 h3
    have h2 := (st.holder k j).2 h3'
    rw [h1] at h2
    injection h2 with h2
    exact hij h2

/-- what a client knows when a call of its ends -/
theorem called {guard : Str → Option Str} (h0 : keys0.Nodup) (hg : ∀ k m, guard k = some m → k ∈ keys0) {i : Nat} {o : KOp}
    {r : Except PyErr Nat} {h : Hist (Nat × KOp) Nat} (hob : obeys guard (hasKey h) o)
    (hex : ∃ H, (∃ keys, Legal (texts (H ++ [((i, o), r)])) keys0 keys) ∧ mine i H = h ∧ ∀ j, Disc guard (mine j H)) :
    match o with
    | .add k false => (∃ n, r = .ok n ∧ k.text ∉ keys0 ∧ hasKey h k.text = false) ∨ r = .error .fileExists
    | .add _ true => ∃ n, r = .ok n
    | .del _ => ∃ n, r = .ok n := by
  obtain ⟨H, ⟨keys', hl⟩, e, hd⟩ := hex
  rw [texts, List.map_append] at hl
  obtain ⟨keys, l1, l2, l3⟩ := legal_snoc hl
  obtain ⟨T, st⟩ := story h0 hg l1 hd
  have e : mine i H = h := e
  cases o with
  | add key eo =>
    simp only [KOp.text, ixDo, ixAdd] at l2
    cases hp : position key.text keys with
    | some n =>
      rw [hp] at l2
      cases eo with
      | true => exact ⟨n, l2⟩
      | false => exact Or.inr l2
    | none =>
      rw [hp] at l2
      have hfree := (st.free key.text).2 (position_none.1 hp)
      cases eo with
      | true => exact ⟨_, l2⟩
      | false =>
        refine Or.inl ⟨_, l2, fun hc => ?_, ?_⟩
        · rw [st.before _ hc] at hfree; cases hfree
        · have : ¬ T key.text = .by i := by rw [hfree]; simp
          rw [st.holder, e] at this
          simpa using this
  | del key =>
    have hby := (st.holder key.text i).2 (by rw [e]; exact hob)
    have hin : key.text ∈ keys := by
      by_contra hc
      rw [(st.free _).2 hc] at hby
      cases hby
    obtain ⟨n, hp⟩ := position_mem hin
    simp only [KOp.text, ixDo, ixDel, hp] at l2
    exact ⟨n, l2⟩

/-! ## a process -/

theorem claimLegal_snoc {nil : V → Bool} {st0 st st1 : Str → Option V} {calls : List (PadCall V × Except PyErr (PadOut V))}
    (h : ClaimLegal nil st0 calls st) {o : PadCall V} {out : Except PyErr (PadOut V)} (hs : ClaimStep nil st o out st1) :
    ClaimLegal nil st0 (calls ++ [(o, out)]) st1 := by
  induction calls generalizing st0 with
  | nil => cases h; exact ⟨st1, hs, rfl⟩
  | cons x t ih =>
    obtain ⟨o', out'⟩ := x
    obtain ⟨st2, h1, h2⟩ := h
    exact ⟨st2, h1, ih h2⟩

/-- the keys have these values -/
def HasValues (c : Codec V) (pre : Str) (s : Store) (st : Str → Option V) : Prop :=
  ∀ k v, st k = some v → ∃ b, c.encode v = .ok b ∧ s.content (padAddr pre k) = some b

/-- where a process is: the values of the keys it has, its calls on the index, its calls -/
structure ClaimNow (c : Codec V) (isNone : V → Bool) (pre : Str) (keys0 U : List Str) (st : Str → Option V)
    (h : Hist (Nat × KOp) Nat) (calls : List (PadCall V × Except PyErr (PadOut V))) (s : Store) : Prop where
  has : ∀ k, st k ≠ none ↔ hasKey h k = true
  inU : ∀ k, st k ≠ none → k ∈ U ∧ k ∉ keys0
  vals : HasValues c pre s st
  disc : Disc (fun _ => none) h
  legal : ClaimLegal isNone (fun _ => none) calls st
  grabs : calls.filterMap grabOf = grabsIn h

theorem ClaimNow.owned {st : Str → Option V} {h : Hist (Nat × KOp) Nat}
    {calls : List (PadCall V × Except PyErr (PadOut V))} {s : Store} {pre : Str} (hn : ClaimNow c isNone pre keys0 U st h calls s)
    {k : Str} (hk : st k ≠ none) : ownedBy pre keys0 U h (padAddr pre k) :=
  ⟨k, (hn.inU k hk).1, (hn.inU k hk).2, (hn.has k).1 hk, rfl⟩

theorem ClaimNow.rely {st : Str → Option V} {h : Hist (Nat × KOp) Nat}
    {calls : List (PadCall V × Except PyErr (PadOut V))} {s s' : Store} {pre : Str}
    (hn : ClaimNow c isNone pre keys0 U st h calls s) (hr : RLock (fun x => ¬ ownedBy pre keys0 U h x) s s') :
    ClaimNow c isNone pre keys0 U st h calls s' :=
  ⟨hn.has, hn.inU, fun k v hk => by
    rw [(hr.2 _ (not_not.2 (hn.owned (k := k) (by rw [hk]; simp)))).2]
    exact hn.vals k v hk, hn.disc, hn.legal, hn.grabs⟩

theorem grabsIn_snoc (h : Hist (Nat × KOp) Nat) (x : (Nat × KOp) × Except PyErr Nat) :
    grabsIn (h ++ [x]) = grabsIn h ++ (ixGrab (x.1.2, x.2)).toList := by
  unfold grabsIn
  rw [List.filterMap_append]
  cases hx : ixGrab (x.1.2, x.2) <;> simp [hx]

theorem crg_after {κ : Type} {S : Setup E κ Nat} {D : Nat → Hist κ Nat → Prop} {P : Hist κ Nat → Str → Prop} {i : Nat}
    {ex : Hist κ Nat → Str → Option Bytes} {Q : Hist κ Nat → Hist κ Nat → ρ → Store → Prop} {K : Except PyErr β → Cl κ Nat β ρ}
    {r : Except PyErr β} {h L : Hist κ Nat} {s : Store}
    (hk : isOverflow r = false → CRG S D P ex i Q (K r) h L s) : CRG S D P ex i Q (clAfter K r) h L s := by
  unfold clAfter
  split
  · trivial
  · rename_i hr; exact hk (by simpa using hr)

/-- how a process ends -/
def ClaimEnd (c : Codec V) (isNone : V → Bool) (pre : Str) (keys0 U : List Str) (sc0 : PadScript V ρ)
    (h _ : Hist (Nat × KOp) Nat) (r : ρ) (s : Store) : Prop :=
  ∃ calls st, sc0.Follows calls r ∧ ClaimNow c isNone pre keys0 U st h calls s

theorem claim_crg (hc : CodecOK c) (h0 : keys0.Nodup) (hf : fuel + 256 ^ 5 < 256 ^ 8) (i : Nat) (sc0 sc : PadScript V ρ) :
    ∀ (st : Str → Option V) (h L : Hist (Nat × KOp) Nat) (calls : List (PadCall V × Except PyErr (PadOut V))) (s : Store),
      s.WF → sc.Plays (ClaimKeyOK E U) (fun v => ∃ b, c.encode v = .ok b) (fun k => st k ≠ none) →
      ClaimNow c isNone p.pre keys0 U st h calls s → (∀ t r, sc.Follows t r → sc0.Follows (calls ++ t) r) →
      CRG (claimSetup hok keys0 hU hix) (fun _ => Disc fun _ => none) (ownedBy p.pre keys0 U) (fun _ _ => none) i
        (ClaimEnd c isNone p.pre keys0 U sc0) (claimCl E c isNone p fuel i sc) h L s := by
  induction sc with
  | ret r =>
    intro st h L calls s w _ hn hfol s' hr
    exact ⟨calls, st, by simpa using hfol [] r rfl, hn.rely hr.1⟩
  | raise e => intros; trivial
  | call o K ih =>
    intro st h L calls s w hpl hn hfol
    have fol : ∀ r t x, (K r).Follows t x → sc0.Follows ((calls ++ [(o, r)]) ++ t) x := fun r t x ht => by
      have := hfol ((o, r) :: t) x ⟨rfl, ht⟩
      simpa using this
    cases o with
    | keys =>
      refine crg_free (lrg_looks (looks_keys c isNone p) w) fun r s' hr => crg_after fun _ => ?_
      have hn' := hn.rely hr
      refine ih r st h L (calls ++ [(.keys, r)]) s' hr.1 (hpl r) ⟨hn'.has, hn'.inU, hn'.vals, hn'.disc,
        claimLegal_snoc hn'.legal (o := .keys) (out := r) rfl, ?_⟩ (fol r)
      rw [List.filterMap_append, hn.grabs]; simp [grabOf]
    | get k =>
      have next : ∀ r s', RLock (fun x => ¬ ownedBy p.pre keys0 U h x) s s' → (∀ v, st k.text = some v → r = ownGet isNone (some v)) →
          CRG (claimSetup hok keys0 hU hix) (fun _ => Disc fun _ => none) (ownedBy p.pre keys0 U) (fun _ _ => none) i
            (ClaimEnd c isNone p.pre keys0 U sc0) (clAfter (fun r => claimCl E c isNone p fuel i (K r)) r) h L s' := by
        intro r s' hr hv
        refine crg_after fun _ => ?_
        have hn' := hn.rely hr
        refine ih r st h L (calls ++ [(.get k, r)]) s' hr.1 (hpl r) ⟨hn'.has, hn'.inU, hn'.vals, hn'.disc,
          claimLegal_snoc hn'.legal (o := .get k) (out := r) ⟨rfl, hv⟩, ?_⟩ (fol r)
        rw [List.filterMap_append, hn.grabs]; simp [grabOf]
      cases hst : st k.text with
      | none =>
        exact crg_free (lrg_looks (looks_get c isNone p k) w) fun r s' hr => next r s' hr (by simp [hst])
      | some v =>
        obtain ⟨b, h1, h2⟩ := hn.vals _ _ hst
        have hne : st k.text ≠ none := by rw [hst]; simp
        exact crg_free (lrg_get w (hU.ok _ (hn.inU _ hne).1) (not_not.2 (hn.owned hne)) h2 (hc v b h1).2) fun r s' hr =>
          next r s' hr.2 (by rw [hst]; intro v' e; injection e with e; rw [← e]; exact hr.1)
    | set k v eo =>
      cases eo with
      | false =>
        obtain ⟨hk, ⟨b, hb⟩, hp1, hp2⟩ := hpl
        refine ⟨rfl, hf, fun r s1 H hr _ ha he0 _ hd _ => ⟨disc_snoc hn.disc trivial, ?_⟩⟩
        have hn1 := hn.rely hr
        rcases called (guard := fun _ => none) h0 (by simp) (o := .add k false) trivial ⟨H, ha, he0, hd⟩ with ⟨n, rfl, hk0, hno⟩ | rfl
        · have hhas : hasKey (h ++ [((i, KOp.add k false), .ok n)]) = fun x => x == k.text || hasKey h x := by
            rw [hasKey_snoc]; rfl
          have hown : ownedBy p.pre keys0 U (h ++ [((i, KOp.add k false), .ok n)]) (padAddr p.pre k.text) :=
            ⟨k.text, hk.mem, hk0, by rw [hhas]; simp, rfl⟩
          refine ⟨fun x hx hx' => absurd ?_ hx', fun hg => ?_⟩
          · obtain ⟨k', a1, a2, a3, a4⟩ := hx
            exact ⟨k', a1, a2, by rw [hhas]; simp [a3], a4⟩
          · have hnone : s1.content (padAddr p.pre k.text) = none := hg _ hown fun ⟨k', _, _, a3, a4⟩ => by
              rw [← pad_inj a4, hno] at a3; cases a3
            have hstk : st k.text = none := by
              by_contra hne
              have := (hn.has _).1 hne
              rw [hno] at this; cases this
            refine crg_free (Q' := fun r s' => r = .ok .done ∧
                EffL (fun x => ¬ ownedBy p.pre keys0 U (h ++ [((i, KOp.add k false), .ok n)]) x) s1 s' (padAddr p.pre k.text) (some b)) ?_ ?_
            · refine lrg_bind hr.1 (lrg_memorize (c := c) (v := v) (eo := false) hr.1 (hU.ok _ hk.mem) (not_not.2 hown)
                fun b hb => (hc v b hb).1) ?_ ?_
              · rintro a s2 w2 (⟨_, _, b', hb', he⟩ | ⟨⟨e, he, _⟩, _⟩)
                · rw [hb] at hb'; injection hb' with hb'; subst hb'
                  exact fun s3 h3 => ⟨rfl, he.rely h3⟩
                · cases he
              · rintro e s2 (⟨he, _⟩ | ⟨⟨_, _, h1 | h1⟩, _⟩)
                · cases he
                · exact absurd hb (h1 b)
                · exact absurd hnone h1.2
            · rintro r s2 ⟨rfl, he⟩
              refine crg_after fun _ => ih _ (ownPut st k.text (some v)) _ _ (calls ++ [(.set k v false, .ok .done)]) s2 he.wf ?_
                ⟨?_, ?_, ?_, disc_snoc hn.disc trivial, claimLegal_snoc hn.legal (o := .set k v false) (out := .ok .done) (Or.inl ⟨rfl, hstk, rfl⟩), ?_⟩ (fol _)
              · have := hp1 .done
                refine cast (congrArg _ ?_) this
                funext x
                simp only [ownPut]
                by_cases hx : x = k.text <;> simp [hx]
              · intro x
                rw [hhas]
                simp only [ownPut]
                by_cases hx : x = k.text
                · simp [hx]
                · simp only [if_neg hx, hn.has]; simp [hx]
              · intro x hx
                by_cases hxk : x = k.text
                · rw [hxk]; exact ⟨hk.mem, hk0⟩
                · simp only [ownPut, if_neg hxk] at hx; exact hn.inU x hx
              · intro x v' hx
                by_cases hxk : x = k.text
                · simp only [ownPut, if_pos hxk, Option.some.injEq] at hx
                  subst hx
                  refine ⟨b, hb, ?_⟩
                  rw [hxk, he.content _ (not_not.2 hown), if_pos rfl]
                · simp only [ownPut, if_neg hxk] at hx
                  obtain ⟨b', c1, c2⟩ := hn1.vals x v' hx
                  have hne : st x ≠ none := by rw [hx]; simp
                  refine ⟨b', c1, ?_⟩
                  rw [he.content _ (not_not.2 ⟨x, (hn.inU x hne).1, (hn.inU x hne).2, by rw [hhas]; simp [(hn.has x).1 hne], rfl⟩),
                    if_neg fun e => hxk (pad_inj e)]
                  exact c2
              · rw [List.filterMap_append, hn.grabs, grabsIn_snoc]; rfl
        · have hhas : hasKey (h ++ [((i, KOp.add k false), .error .fileExists)]) = hasKey h := by rw [hasKey_snoc]; rfl
          have howned : ownedBy p.pre keys0 U (h ++ [((i, KOp.add k false), .error .fileExists)]) = ownedBy p.pre keys0 U h := by
            unfold ownedBy; rw [hhas]
          refine ⟨fun x hx hx' => absurd (by rw [howned]; exact hx) hx', fun _ => crg_after fun _ => ?_⟩
          exact ih _ st _ _ (calls ++ [(.set k v false, .error .keyError)]) s1 hr.1 (hp2 _)
            ⟨by rw [hhas]; exact hn.has, hn.inU, hn1.vals, disc_snoc hn.disc trivial,
              claimLegal_snoc hn.legal (o := .set k v false) (out := .error .keyError) (Or.inr ⟨rfl, rfl⟩), by
                rw [List.filterMap_append, hn.grabs, grabsIn_snoc]; rfl⟩ (fol _)
      | true =>
        obtain ⟨hk, hheld, ⟨b, hb⟩, hp2⟩ := hpl
        have hob : obeys (fun _ => none) (hasKey h) (.add k true) := Or.inl ((hn.has _).1 hheld)
        refine ⟨rfl, hf, fun r s1 H hr _ ha he0 _ hd _ => ⟨disc_snoc hn.disc hob, ?_⟩⟩
        have hn1 := hn.rely hr
        obtain ⟨n, rfl⟩ := called h0 (by simp) hob ⟨H, ha, he0, hd⟩
        have hhas : hasKey (h ++ [((i, KOp.add k true), .ok n)]) = hasKey h := by rw [hasKey_snoc]; rfl
        have howned : ownedBy p.pre keys0 U (h ++ [((i, KOp.add k true), .ok n)]) = ownedBy p.pre keys0 U h := by
          unfold ownedBy; rw [hhas]
        refine ⟨fun x hx hx' => absurd (by rw [howned]; exact hx) hx', fun _ => ?_⟩
        have hown := hn.owned hheld
        refine crg_free (Q' := fun r s' => r = .ok .done ∧
            EffL (fun x => ¬ ownedBy p.pre keys0 U (h ++ [((i, KOp.add k true), .ok n)]) x) s1 s' (padAddr p.pre k.text) (some b)) ?_ ?_
        · refine lrg_bind hr.1 (lrg_memorize (c := c) (v := v) (eo := true) hr.1 (hU.ok _ hk.mem) (not_not.2 (by rw [howned]; exact hown))
            fun b hb => (hc v b hb).1) ?_ ?_
          · rintro a s2 w2 (⟨_, _, b', hb', he⟩ | ⟨⟨e, he, _⟩, _⟩)
            · rw [hb] at hb'; injection hb' with hb'; subst hb'
              exact fun s3 h3 => ⟨rfl, he.rely h3⟩
            · cases he
          · rintro e s2 (⟨he, _⟩ | ⟨⟨_, _, h1 | h1⟩, _⟩)
            · cases he
            · exact absurd hb (h1 b)
            · cases h1.1
        · rintro r s2 ⟨rfl, he⟩
          rw [howned] at he
          refine crg_after fun _ => ih _ (ownPut st k.text (some v)) _ _ (calls ++ [(.set k v true, .ok .done)]) s2 he.wf ?_
            ⟨?_, ?_, ?_, disc_snoc hn.disc hob, claimLegal_snoc hn.legal (o := .set k v true) (out := .ok .done) ⟨rfl, rfl⟩, ?_⟩ (fol _)
          · have := hp2 (.ok .done)
            refine cast (congrArg _ ?_) this
            funext x
            simp only [ownPut]
            by_cases hx : x = k.text
            · simp [hx, hheld]
            · simp [hx]
          · intro x
            rw [hhas, ← hn.has]
            simp only [ownPut]
            by_cases hx : x = k.text
            · simp [hx, hheld]
            · simp [hx]
          · intro x hx
            by_cases hxk : x = k.text
            · rw [hxk]; exact hn.inU _ hheld
            · simp only [ownPut, if_neg hxk] at hx; exact hn.inU x hx
          · intro x v' hx
            by_cases hxk : x = k.text
            · simp only [ownPut, if_pos hxk, Option.some.injEq] at hx
              subst hx
              refine ⟨b, hb, ?_⟩
              rw [hxk, he.content _ (not_not.2 hown), if_pos rfl]
            · simp only [ownPut, if_neg hxk] at hx
              obtain ⟨b', c1, c2⟩ := hn1.vals x v' hx
              have hne : st x ≠ none := by rw [hx]; simp
              refine ⟨b', c1, ?_⟩
              rw [he.content _ (not_not.2 (hn.owned hne)), if_neg fun e => hxk (pad_inj e)]
              exact c2
          · rw [List.filterMap_append, hn.grabs, grabsIn_snoc]; rfl
    | del k =>
      obtain ⟨hk, hheld, hp2⟩ := hpl
      have hob : obeys (fun _ => none) (hasKey h) (.del k) := (hn.has _).1 hheld
      have hown := hn.owned hheld
      obtain ⟨v, hv⟩ := Option.ne_none_iff_exists'.1 hheld
      obtain ⟨b, hb1, hb2⟩ := hn.vals _ _ hv
      obtain ⟨m, hm, _⟩ := names_of_content hb2
      refine crg_free (Q' := fun r s' => r = .ok .done ∧
            EffL (fun x => ¬ ownedBy p.pre keys0 U h x) s s' (padAddr p.pre k.text) none) ?_ ?_
      · refine lrg_bind w (lrg_deleteBlock w (hU.ok _ hk.mem) (not_not.2 hown) hm) ?_ ?_
        · rintro _ s2 w2 ⟨_, he⟩
          exact fun s3 h3 => ⟨rfl, he.rely h3⟩
        · rintro e s2 ⟨he, _⟩
          cases he
      · rintro r s1 ⟨rfl, he⟩
        refine ⟨rfl, hf, fun r s2 H hr _ ha he0 _ hd _ => ⟨disc_snoc hn.disc hob, ?_⟩⟩
        obtain ⟨n, rfl⟩ := called h0 (by simp) hob ⟨H, ha, he0, hd⟩
        have hhas : hasKey (h ++ [((i, KOp.del k), .ok n)]) = fun x => x != k.text && hasKey h x := by
          rw [hasKey_snoc]; rfl
        have hgone : s2.names (padAddr p.pre k.text) = none := by
          rw [(hr.2 _ (not_not.2 hown)).1]
          exact he.names_none (not_not.2 hown)
        refine ⟨fun x hx hx' => ?_, fun _ => crg_after fun _ => ?_⟩
        · obtain ⟨k', a1, a2, a3, rfl⟩ := hx
          by_cases hkk : k' = k.text
          · rw [hkk]; exact content_none.2 hgone
          · exact absurd ⟨k', a1, a2, by rw [hhas]; simp [hkk, a3], rfl⟩ hx'
        · refine ih _ (ownPut st k.text none) _ _ (calls ++ [(.del k, .ok .done)]) s2 hr.1 ?_
            ⟨?_, ?_, ?_, disc_snoc hn.disc hob, claimLegal_snoc hn.legal (o := .del k) (out := .ok .done) ⟨rfl, rfl⟩, ?_⟩ (fol _)
          · have := hp2 (.ok .done)
            refine cast (congrArg _ ?_) this
            funext x
            simp only [ownPut]
            by_cases hx : x = k.text <;> simp [hx]
          · intro x
            rw [hhas]
            simp only [ownPut]
            by_cases hx : x = k.text
            · simp [hx]
            · simp only [if_neg hx, hn.has]; simp [hx]
          · intro x hx
            by_cases hxk : x = k.text
            · simp [ownPut, hxk] at hx
            · simp only [ownPut, if_neg hxk] at hx; exact hn.inU x hx
          · intro x v' hx
            by_cases hxk : x = k.text
            · simp [ownPut, hxk] at hx
            · simp only [ownPut, if_neg hxk] at hx
              obtain ⟨b', c1, c2⟩ := hn.vals x v' hx
              have hne : st x ≠ none := by rw [hx]; simp
              refine ⟨b', c1, ?_⟩
              rw [(hr.2 _ (not_not.2 (hn.owned hne))).2, he.content _ (not_not.2 (hn.owned hne)), if_neg fun e => hxk (pad_inj e)]
              exact c2
          · rw [List.filterMap_append, hn.grabs, grabsIn_snoc]; rfl

/-! ## all of them -/

theorem grabsIn_mine (i : Nat) (H : Hist (Nat × KOp) Nat) : grabsIn (mine i H) = grabsOf i (eventsIn H) := by
  induction H with
  | nil => rfl
  | cons x t ih =>
    obtain ⟨⟨j, o⟩, r⟩ := x
    have e1 : mine i (((j, o), r) :: t) = if j == i then ((j, o), r) :: mine i t else mine i t := by
      unfold mine; rw [List.filter_cons]
    have e2 : eventsIn (((j, o), r) :: t) = ((ixGrab (o, r)).map fun g => (j, g)).toList ++ eventsIn t := by
      unfold eventsIn; rw [List.filterMap_cons]; cases hx : ixGrab (o, r) <;> simp
    have e3 : ∀ x h, grabsIn (x :: h) = (ixGrab (x.1.2, x.2)).toList ++ grabsIn h := fun x h => by
      unfold grabsIn; rw [List.filterMap_cons]; cases hx : ixGrab (x.1.2, x.2) <;> simp
    rw [e1, e2, grabsOf, List.filter_append, List.map_append]
    change _ = _ ++ grabsOf i (eventsIn t)
    by_cases hj : j = i
    · subst hj
      simp only [beq_self_eq_true, if_true, e3, ih]
      cases ixGrab (o, r) <;> simp
    · simp only [beq_eq_false_iff_ne.2 hj, Bool.false_eq_true, if_false, ih]
      cases ixGrab (o, r) <;> simp [hj]

/-- The claims of all processes are as if they were made one after the other (`LegalClaims`, Verif/Spec/Claims.lean): `T` is
who has which key at the end. Every process that returned made its own claims in that order, saw under the keys it had what
it had put there, and its values are there still; those that had returned before another first moved come first. -/
structure Claimed (E : Env) (c : Codec V) (isNone : V → Bool) (p : Pad) (keys0 U : List Str) (scripts : List (PadScript V ρ))
    (sched : List Nat) (s : Store) (events : List (Nat × Str × Grab)) (T : Str → Holder) : Prop where
  legal : LegalClaims (atFirst keys0) events T
  clients : ∀ e ∈ events, e.1 < scripts.length
  own : ∀ (i : Nat) (sc : PadScript V ρ) (r : ρ), scripts[i]? = some sc →
    (interleave E sched (scripts.map (PadScript.run E c isNone p)) s).1[i]? = some (.ret r) →
    ∃ calls st, sc.Follows calls r ∧ ClaimLegal isNone (fun _ => none) calls st ∧
      calls.filterMap grabOf = grabsOf i events ∧ (∀ k, st k ≠ none ↔ T k = .by i) ∧
      HasValues c p.pre (interleave E sched (scripts.map (PadScript.run E c isNone p)) s).2 st
  gone : ∀ k ∈ U, T k = .free →
    (interleave E sched (scripts.map (PadScript.run E c isNone p)) s).2.names (padAddr p.pre k) = none
  order : ∀ a b, sched = a ++ b → ∃ ea eb, events = ea ++ eb ∧ (∀ e ∈ ea, e.1 ∈ a) ∧
    ∀ i r, (interleave E a (scripts.map (PadScript.run E c isNone p)) s).1[i]? = some (.ret r) → ∀ e ∈ eb, e.1 ≠ i

theorem claims (hp : p.index = .tag ix) (hm : p.mode = .sliding fuel) (hc : CodecOK c) (hok : NamesOK E ix.name)
    (hU : PlayOK E p.pre U) (hix : ix.name = indexName p.pre) {s : Store} (w : s.WF) (h : IxRep E s ix keys0)
    {fl : Nat} (hcl : LockClean s ix.name fl) (hfl : fl < 256 ^ 5) (hk0 : keys0 ⊆ U)
    (hno : ∀ k ∈ U, k ∉ keys0 → s.names (padAddr p.pre k) = none) (hf : fuel + 256 ^ 5 < 256 ^ 8)
    (scripts : List (PadScript V ρ))
    (hs : ∀ sc ∈ scripts, sc.Plays (ClaimKeyOK E U) (fun v => ∃ b, c.encode v = .ok b) fun _ => False)
    (sched : List Nat) (hq : CodeQuietRun E ix.name sched (scripts.map (PadScript.run E c isNone p)) s) :
    ∃ events T, Claimed E c isNone p keys0 U scripts sched s events T ∧
      ((∀ q ∈ (interleave E sched (scripts.map (PadScript.run E c isNone p)) s).1, ∃ a, q = .ret a) →
        ∃ keys, (∀ k, T k = .free ↔ k ∉ keys) ∧
          IxRep E (interleave E sched (scripts.map (PadScript.run E c isNone p)) s).2 ix keys) := by
  have h0 : keys0.Nodup := h.nodup
  let S := claimSetup hok keys0 hU hix
  let cls := scripts.mapIdx fun i sc => claimCl E c isNone p fuel i sc
  have hprog : cls.map (Cl.prog S.name S.bodies) = scripts.map (PadScript.run E c isNone p) := by
    have : cls.map (Cl.prog S.name S.bodies) = scripts.mapIdx fun i sc => (claimCl E c isNone p fuel i sc).prog S.name S.bodies := by
      apply List.ext_getElem?
      intro i
      simp only [cls, List.getElem?_map, List.getElem?_mapIdx, Option.map_map]
      rfl
    rw [this]
    exact mapIdx_eq_map _ _ _ fun i sc hi => claimCl_prog (ok := ClaimKeyOK E U) hp hm i (fun k hk => hU.free _ hk.mem)
      (fun o ho => if_pos ⟨ho.hashed, hU.nonempty _ ho.mem, ho.mem⟩) sc _ (hs sc (List.mem_of_getElem? hi))
  have : Inhabited (Nat × KOp) := ⟨(0, .del (.str []))⟩
  let Q : Nat → Hist (Nat × KOp) Nat → Hist (Nat × KOp) Nat → ρ → Store → Prop := fun i h L r s =>
    ∀ sc, scripts[i]? = some sc → ClaimEnd c isNone p.pre keys0 U sc h L r s
  rw [← hprog] at hq
  obtain ⟨H, ⟨keys, hl⟩, _, hord, hout, hown, hJ, hdisc, hnobody⟩ := clients (D := fun _ => Disc fun _ => none)
    (P := fun _ => ownedBy p.pre keys0 U) (ex := fun _ _ => none) (M := managed p.pre keys0 U) (Q := Q) S (claim_priv h0) w hcl hfl ⟨keys0, h, rfl, hk0⟩
    (fun _ => disc_nil) (by rintro x ⟨k, h1, h2, rfl⟩ _; exact content_none.2 (hno k h1 h2)) cls (by
      intro i cl hi
      simp only [cls, List.getElem?_mapIdx] at hi
      cases hsc : scripts[i]? with
      | none => rw [hsc] at hi; simp at hi
      | some sc =>
        rw [hsc] at hi
        simp only [Option.map_some, Option.some.injEq] at hi
        subst hi
        have := claim_crg (isNone := isNone) (hok := hok) (hU := hU) (hix := hix) hc h0 hf i sc sc (fun _ => none) [] [] [] s w
          (by simpa using hs sc (List.mem_of_getElem? hsc))
          ⟨by simp [hasKey, grabsIn], by simp, (by rintro k v h; cases h), disc_nil, rfl, rfl⟩ (fun t r ht => ht)
        have e : Q i = ClaimEnd c isNone p.pre keys0 U sc := by
          funext h L r s
          simp only [Q, hsc, Option.some.injEq, forall_eq']
        rw [e]
        exact this) sched hq
  rw [hprog] at hord hown hJ hnobody
  have hlen : cls.length = scripts.length := by simp [cls]
  have fin : ∀ keys, Legal (texts H) keys0 keys → ∃ T, (∀ k, T k = .free ↔ k ∉ keys) ∧
      Claimed E c isNone p keys0 U scripts sched s (eventsIn H) T := by
    intro keys hl
    obtain ⟨T, st⟩ := story h0 (by simp) hl hdisc
    have memEv : ∀ (H : Hist (Nat × KOp) Nat) e, e ∈ eventsIn H → ∃ x ∈ H, x.1.1 = e.1 := by
      intro H e he
      obtain ⟨x, hx, hxe⟩ := List.mem_filterMap.1 he
      obtain ⟨g, _, rfl⟩ := Option.map_eq_some_iff.1 hxe
      exact ⟨x, hx, rfl⟩
    refine ⟨T, st.free, st.claims, ?_, ?_, ?_, ?_⟩
    · intro e he
      obtain ⟨x, hx, hxe⟩ := memEv _ _ he
      by_contra hn
      have := hout x.1.1 (by rw [hlen, hxe]; omega)
      have hm : x ∈ S.restrict x.1.1 H := List.mem_filter.2 ⟨hx, by simp [S, claimSetup, ixSetup]⟩
      rw [this] at hm
      simp at hm
    · intro i sc r hi hr
      obtain ⟨_, _, _, hq'⟩ := hown i r hr
      obtain ⟨calls, st', f1, f2⟩ := hq' sc hi
      exact ⟨calls, st', f1, f2.legal, f2.grabs.trans (grabsIn_mine i H), fun k => (f2.has k).trans (st.holder k i).symm, f2.vals⟩
    · intro k hk hT
      have hk0' : k ∉ keys0 := fun hc => by rw [st.before k hc] at hT; cases hT
      refine content_none.1 <| hnobody _ ⟨k, hk, hk0', rfl⟩ fun i ⟨k', _, _, a3, a4⟩ => ?_
      have := (st.holder k' i).2 a3
      rw [← pad_inj a4, hT] at this
      cases this
    · intro a b hab
      obtain ⟨Ha, _, ⟨Hb, hpx⟩, h2, h3⟩ := hord a b hab
      refine ⟨eventsIn Ha, eventsIn Hb, ?_, ?_, ?_⟩
      · rw [← hpx]; unfold eventsIn; rw [List.filterMap_append]
      · intro e he
        obtain ⟨x, hx, hxe⟩ := memEv _ _ he
        by_contra hn
        rw [← hxe] at hn
        have := h2 x.1.1 hn
        have hm : x ∈ S.restrict x.1.1 Ha := List.mem_filter.2 ⟨hx, by simp [S, claimSetup, ixSetup]⟩
        rw [this] at hm
        simp [Setup.restrict] at hm
      · intro i r hr e he
        obtain ⟨x, hx, hxe⟩ := memEv _ _ he
        intro hxi
        have := h3 i r hr
        rw [← hpx, Setup.restrict, Setup.restrict, List.filter_append] at this
        have hnil : Hb.filter (fun y => S.who y.1 == i) = [] := by
          have := congrArg List.length this
          rw [List.length_append] at this
          exact List.eq_nil_of_length_eq_zero (by omega)
        have hm : x ∈ Hb.filter (fun y => S.who y.1 == i) :=
          List.mem_filter.2 ⟨hx, by simpa [S, claimSetup, ixSetup] using hxe.trans hxi⟩
        rw [hnil] at hm
        simp at hm
  by_cases hret : ∀ q ∈ (interleave E sched (scripts.map (PadScript.run E c isNone p)) s).1, ∃ a, q = .ret a
  · obtain ⟨⟨keys', h1, h2, _⟩, _⟩ := hJ hret
    obtain ⟨T, t1, t2⟩ := fin keys' h2
    exact ⟨_, T, t2, fun _ => ⟨keys', t1, h1⟩⟩
  · obtain ⟨T, t1, t2⟩ := fin keys hl
    exact ⟨_, T, t2, fun h => absurd h hret⟩

end Verif.Lemmas
