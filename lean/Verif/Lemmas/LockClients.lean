import Verif.Lemmas.LockSim
import Verif.Model.Clients
/-!
# Clients that use a lock over and over, interleaved

When no doorway is disturbed, the critical sections of all clients happen one after the other: there is one history of
them that every client agrees with, and that the invariant of the store follows.
-/
namespace Verif.Lemmas
open Verif Verif.Model Verif.Lemmas.LockTS
open Verif.Model.LockTS (Pc St put next)
variable {κ α β ρ : Type} {E : Env} {S : Setup E κ α} {g : Ghost κ α} {phs : List (Ph α)} {s s' : Store} {σ : St Nat}

/-! ## steps that have nothing to do with the lock -/

/-- code outside the lock touches blocks that the bodies leave alone -/
theorem Sim.foreign (h : Sim S g phs s σ) (hr : RLock (fun x => S.X x ∧ ¬ lockNames S.name x) s s') :
    Sim S g phs s' σ := by
  have hx : RLock S.X s s' := ⟨hr.1, fun x hx => hr.2 x fun hc => hx hc.1⟩
  have hl : ∀ x, lockNames S.name x → s'.names x = s.names x ∧ s'.content x = s.content x :=
    fun x hx => hr.2 x fun hc => hc.2 hx
  exact ⟨hr.1, h.pc, countOK_mono h.count (hl _ (lockNames_count _)).1 (hl _ (lockNames_count _)).2, h.bound,
    fun n => by rw [(hl _ (lockNames_marker _ n)).1]; exact h.marker n,
    fun n => by rw [(hl _ (lockNames_lock _ n)).1]; exact h.lock n, h.ok, h.who, h.adm, h.hist,
    fun i c n own p hi => rg_rely RLock.trans (h.inside i c n own p hi) hx,
    fun hall => S.stable _ _ _ (h.outside hall) hx⟩

/-- a client that is not using the lock begins a call, or does something else -/
theorem Sim.change (h : Sim S g phs s σ) {i : Nat} {ph ph' : Ph α} (hi : phs[i]? = some ph)
    (hph : ph = .away ∨ ∃ r, ph = .ended r) (c : κ)
    (hph' : ph' = .away ∨ ∃ fuel, ph' = .fresh fuel (S.bodies c) ∧ fuel + 256 ^ 5 < 256 ^ 8 ∧ S.who c = i) :
    Sim S { H := g.H, lab := put g.lab i c, own := put g.own i (S.restrict i g.H) } (phs.set i ph') s σ := by
  have hpc : ph.pc = .out := by rcases hph with rfl | ⟨r, rfl⟩ <;> rfl
  have hin : ph.isInside = false := by rcases hph with rfl | ⟨r, rfl⟩ <;> rfl
  have hpc' : ph'.pc = .out := by rcases hph' with rfl | ⟨f, rfl, _⟩ <;> rfl
  have hin' : ph'.isInside = false := by rcases hph' with rfl | ⟨f, rfl, _⟩ <;> rfl
  have hfr' : ph'.isFresh = true := by rcases hph' with rfl | ⟨f, rfl, _⟩ <;> rfl
  have hha' : ph'.handle = none := by rcases hph' with rfl | ⟨f, rfl, _⟩ <;> rfl
  have hres' : ph'.res = none := by rcases hph' with rfl | ⟨f, rfl, _⟩ <;> rfl
  refine ⟨h.wf, ?_, ?_, h.bound, h.marker, h.lock, ?_, ?_, h.adm, ?_, ?_, ?_⟩
  · rw [pcOf_set hi, ← h.pc, hpc', show (Pc.out) = σ.pc i from by rw [h.pc, pcOf_eq hi, hpc], put_same]
  · have mem : ∀ q ∈ phs.set i ph', q = ph' ∨ q ∈ phs := by
      intro q hq
      obtain ⟨j, hj⟩ := List.mem_iff_getElem?.1 hq
      rw [get_set hi] at hj
      split at hj
      · injection hj with hj; exact Or.inl hj.symm
      · exact Or.inr (List.mem_of_getElem? hj)
    rcases h.count with ⟨C, h1, h2, h3⟩ | ⟨h1, h2, h3⟩
    · refine Or.inl ⟨C, h1, h2, fun q hq x hx => ?_⟩
      rcases mem q hq with rfl | hq
      · rw [hha'] at hx; simp at hx
      · exact h3 q hq x hx
    · refine Or.inr ⟨h1, h2, fun q hq => ?_⟩
      rcases mem q hq with rfl | hq
      · exact hfr'
      · exact h3 q hq
  · intro j q hj
    rw [get_set hi] at hj
    split at hj
    · rename_i hji
      injection hj with hj
      subst hj; subst hji
      rcases hph' with rfl | ⟨f, rfl, hf, _⟩
      · exact Or.inl rfl
      · exact Or.inr ⟨by simp [put], hf⟩
    · rename_i hji
      have := h.ok j q hj
      simpa [put, hji] using this
  · intro j q hj
    rw [get_set hi] at hj
    split at hj
    · rename_i hji
      injection hj with hj
      subst hj; subst hji
      rcases hph' with rfl | ⟨f, rfl, _, hw⟩
      · exact Or.inl rfl
      · exact Or.inr (by simpa [put] using hw)
    · rename_i hji
      have := h.who j q hj
      simpa [put, hji] using this
  · intro j q hj
    rw [get_set hi] at hj
    split at hj
    · rename_i hji
      injection hj with hj
      subst hj; subst hji
      simp [Ph.entry, hres', put]
    · rename_i hji
      have := h.hist j q hj
      simpa [put, hji] using this
  · intro j c1 n own p hj
    rw [get_set hi] at hj
    split at hj
    · injection hj with hj; rw [hj] at hin'; simp [Ph.isInside] at hin'
    · rename_i hji
      have := h.inside j c1 n own p hj
      simpa [put, hji] using this
  · intro hall
    refine h.outside fun j q hj => ?_
    by_cases hji : j = i
    · subst hji; rw [hi] at hj; injection hj with hj; rw [← hj]; exact hin
    · exact hall j q (by rw [get_set hi, if_neg hji]; exact hj)

/-! ## what a client does, whatever the others do -/

/-- what client `i`, whose calls so far are `h`, may rely on outside the lock: its own blocks stay, and so does what it may
rely on of the bodies of the others -/
def RC (S : Setup E κ α) (P : Hist κ α → Str → Prop) (i : Nat) (h : Hist κ α) (s s' : Store) : Prop :=
  RLock (fun x => ¬ P h x) s s' ∧ S.rel i h s s' ∧ S.ever s s'

theorem RC.refl {P : Hist κ α → Str → Prop} {i : Nat} {h : Hist κ α} (w : s.WF) : RC S P i h s s :=
  ⟨RLock.refl w, S.rel_X _ _ _ _ (RLock.refl w), S.ever_X _ _ (RLock.refl w)⟩

theorem RC.trans {P : Hist κ α → Str → Prop} {i : Nat} {h : Hist κ α} (a b c : Store) (h1 : RC S P i h a b)
    (h2 : RC S P i h b c) : RC S P i h a c :=
  ⟨h1.1.trans _ _ _ h2.1, S.rel_trans _ _ _ _ _ h1.2.1 h2.2.1, S.ever_trans _ _ _ h1.2.2 h2.2.2⟩

/-- Client `i`, whose calls so far are `h`, ends with `Q`: the blocks `P h` are its own, and the results of its calls are
those of some admissible history, which was `L` after its last call. A call may give blocks away, which must then be as
expected (`ex`) of blocks that are nobody's, and gain others, which are; it must keep to the rules `D`. -/
def CRG (S : Setup E κ α) (D : Nat → Hist κ α → Prop) (P : Hist κ α → Str → Prop) (ex : Hist κ α → Str → Option Bytes) (i : Nat)
    (Q : Hist κ α → Hist κ α → ρ → Store → Prop) : Cl κ α β ρ → Hist κ α → Hist κ α → Store → Prop
  | .ret r, h, L, s => ∀ s', RC S P i h s s' → Q h L r s'
  | .raise _, _, _, _ => True
  | .call fuel c k, h, L, s => S.who c = i ∧ fuel + 256 ^ 5 < 256 ^ 8 ∧ ∀ r s' H, RLock (fun x => ¬ P h x) s s' → S.ever s s' →
      S.adm (H ++ [(c, r)]) → S.restrict i H = h → L <+: H → (∀ j, D j (S.restrict j H)) →
      S.J (H ++ [(c, r)]) s' → D i (h ++ [(c, r)]) ∧
      (∀ x, P h x → ¬ P (h ++ [(c, r)]) x → s'.content x = ex (H ++ [(c, r)]) x) ∧
      ((∀ x, P (h ++ [(c, r)]) x → ¬ P h x → s'.content x = ex H x) →
        CRG S D P ex i Q (k r) (h ++ [(c, r)]) (H ++ [(c, r)]) s')
  | .free p k, h, L, s => RG E (RC S P i h) (GLock fun x => ¬ P h x) (fun r s' => CRG S D P ex i Q (k r) h L s') p s

/-- code outside the lock that relies only on the blocks of its own -/
theorem crg_free {D : Nat → Hist κ α → Prop} {P : Hist κ α → Str → Prop} {ex : Hist κ α → Str → Option Bytes} {i : Nat}
    {Q : Hist κ α → Hist κ α → ρ → Store → Prop} {k : Except PyErr β → Cl κ α β ρ} {h L : Hist κ α}
    {Q' : Except PyErr β → Store → Prop} {p : Prog β} (hp : LRG E (fun x => ¬ P h x) Q' p s)
    (hq : ∀ r s', Q' r s' → CRG S D P ex i Q (k r) h L s') : CRG S D P ex i Q (.free p k) h L s :=
  rg_mono (fun _ _ h => h.1) (fun _ _ h => h) hq hp

/-- a client that waits for the outcome of its call `c` -/
def Waits (S : Setup E κ α) (D : Nat → Hist κ α → Prop) (P : Hist κ α → Str → Prop) (ex : Hist κ α → Str → Option Bytes) (i : Nat)
    (Q : Hist κ α → Hist κ α → ρ → Store → Prop) (c : κ) (k : Except PyErr α → Cl κ α β ρ) (h L : Hist κ α) (s : Store) : Prop :=
  ∀ r s' H, RLock (fun x => ¬ P h x) s s' → S.ever s s' →
      S.adm (H ++ [(c, r)]) → S.restrict i H = h → L <+: H → (∀ j, D j (S.restrict j H)) →
      S.J (H ++ [(c, r)]) s' → D i (h ++ [(c, r)]) ∧
      (∀ x, P h x → ¬ P (h ++ [(c, r)]) x → s'.content x = ex (H ++ [(c, r)]) x) ∧
      ((∀ x, P (h ++ [(c, r)]) x → ¬ P h x → s'.content x = ex H x) →
        CRG S D P ex i Q (k r) (h ++ [(c, r)]) (H ++ [(c, r)]) s')

theorem crg_rely {D : Nat → Hist κ α → Prop} {P : Hist κ α → Str → Prop} {ex : Hist κ α → Str → Option Bytes} {i : Nat}
    {Q : Hist κ α → Hist κ α → ρ → Store → Prop} {c : Cl κ α β ρ} {h L : Hist κ α}
    (hc : CRG S D P ex i Q c h L s) (hr : RC S P i h s s') : CRG S D P ex i Q c h L s' := by
  cases c with
  | ret r => exact fun s2 h2 => hc s2 (hr.trans _ _ _ h2)
  | raise e => trivial
  | call fuel c k => exact ⟨hc.1, hc.2.1, fun r s2 H h2 h2e => hc.2.2 r s2 H (hr.1.trans _ _ _ h2) (S.ever_trans _ _ _ hr.2.2 h2e)⟩
  | free p k => exact rg_rely RC.trans hc hr

/-- where a client is -/
inductive CS (κ α β ρ : Type) where
  | lock (ph : Ph α) (k : Except PyErr α → Cl κ α β ρ)
  | free (p : Prog β) (k : Except PyErr β → Cl κ α β ρ)
  | done (r : ρ)
  | failed (e : PyErr)

namespace CS

def prog (S : Setup E κ α) : CS κ α β ρ → Prog ρ
  | lock ph k => (ph.prog S.name).attempt.bind (afterCall fun r => (k r).prog S.name S.bodies)
  | free p k => p.attempt.bind fun r => (k r).prog S.name S.bodies
  | done r => .ret r
  | failed e => .raise e

def ph : CS κ α β ρ → Ph α
  | lock ph _ => ph
  | free _ _ => .away
  | done _ => .away
  | failed _ => .away

/-- where a client begins -/
def norm (S : Setup E κ α) : Cl κ α β ρ → CS κ α β ρ
  | .ret r => done r
  | .raise e => failed e
  | .call fuel c k => lock (.fresh fuel (S.bodies c)) k
  | .free (.ret a) k => norm S (k (.ok a))
  | .free (.raise e) k => norm S (k (.error e))
  | .free p k => free p k

theorem prog_norm (S : Setup E κ α) (c : Cl κ α β ρ) : (norm S c).prog S = c.prog S.name S.bodies := by
  induction c with
  | ret r => rfl
  | raise e => rfl
  | call fuel c k _ => rfl
  | free p k ih =>
    cases p with
    | ret a => exact ih (.ok a)
    | raise e => exact ih (.error e)
    | stuck => rfl
    | op o f => rfl

/-- what is known of a client; `h` are its calls before the current one, `H` all calls -/
def Good (S : Setup E κ α) (D : Nat → Hist κ α → Prop) (P : Nat → Hist κ α → Str → Prop) (ex : Hist κ α → Str → Option Bytes)
    (Q : Nat → Hist κ α → Hist κ α → ρ → Store → Prop) (i : Nat) (c : κ) (h H : Hist κ α) (s : Store) : CS κ α β ρ → Prop
  | lock ph k => (∀ r, ph = .ended r → isOverflow r = true) ∧ ph ≠ .away ∧ match ph.res with
      | none => ∃ L, L <+: H ∧ S.restrict i L = h ∧ Waits S D (P i) ex i (Q i) c k h L s
      | some r => ∃ L, L <+: H ∧ S.restrict i L = h ++ [(c, r)] ∧ CRG S D (P i) ex i (Q i) (k r) (h ++ [(c, r)]) L s
  | free p k => (p = .stuck ∨ ∃ o f, p = .op o f) ∧ ∃ L, L <+: H ∧ S.restrict i L = h ∧
      RG E (RC S (P i) i h) (GLock fun x => ¬ P i h x) (fun r s' => CRG S D (P i) ex i (Q i) (k r) h L s') p s
  | done r => ∃ L, L <+: H ∧ S.restrict i L = h ∧ ∀ s', RC S (P i) i h s s' → Q i h L r s'
  | failed _ => True

theorem Good.rely {D : Nat → Hist κ α → Prop} {P : Nat → Hist κ α → Str → Prop} {ex : Hist κ α → Str → Option Bytes}
    {Q : Nat → Hist κ α → Hist κ α → ρ → Store → Prop} {i : Nat} {c : κ} {h H H' : Hist κ α}
    {cs : CS κ α β ρ} (hg : cs.Good S D P ex Q i c h H s) (hr : RC S (P i) i (h ++ cs.ph.entry c) s s')
    (hH : H <+: H') : cs.Good S D P ex Q i c h H' s' := by
  cases cs with
  | lock ph k =>
    refine ⟨hg.1, hg.2.1, ?_⟩
    have h3 := hg.2.2
    simp only [CS.ph, Ph.entry] at hr
    cases hres : ph.res with
    | none =>
      rw [hres] at h3 hr
      rw [List.append_nil] at hr
      obtain ⟨L, l1, l2, l3⟩ := h3
      exact ⟨L, l1.trans hH, l2, fun r s2 H h2 h2e => l3 r s2 H (hr.1.trans _ _ _ h2) (S.ever_trans _ _ _ hr.2.2 h2e)⟩
    | some r =>
      rw [hres] at h3 hr
      obtain ⟨L, l1, l2, l3⟩ := h3
      exact ⟨L, l1.trans hH, l2, crg_rely l3 hr⟩
  | free p k =>
    simp only [CS.ph, Ph.entry, Ph.res, List.append_nil] at hr
    obtain ⟨h1, L, l1, l2, l3⟩ := hg
    exact ⟨h1, L, l1.trans hH, l2, rg_rely RC.trans l3 hr⟩
  | done r =>
    simp only [CS.ph, Ph.entry, Ph.res, List.append_nil] at hr
    obtain ⟨L, l1, l2, l3⟩ := hg
    exact ⟨L, l1.trans hH, l2, fun s2 h2 => l3 s2 (hr.trans _ _ _ h2)⟩
  | failed e => trivial

end CS

/-- the clients' own blocks, among the blocks `M`: when all keep to the rules, a block has one owner at most; what is
expected of a block changes only by the calls of its owner -/
structure Priv (S : Setup E κ α) (D : Nat → Hist κ α → Prop) (P : Nat → Hist κ α → Str → Prop) (ex : Hist κ α → Str → Option Bytes)
    (M : Str → Prop) : Prop where
  sub : ∀ i h x, P i h x → M x
  out : ∀ x, M x → S.X x ∧ ¬ lockNames S.name x
  disj : ∀ H, S.adm H → (∀ i, D i (S.restrict i H)) → ∀ i j x, i ≠ j → P i (S.restrict i H) x → ¬ P j (S.restrict j H) x
  keep : ∀ H c r x, S.adm (H ++ [(c, r)]) → (∀ i, D i (S.restrict i (H ++ [(c, r)]))) → M x →
    (∀ i, ¬ P i (S.restrict i H) x) → ex (H ++ [(c, r)]) x = ex H x

/-- the clients, the store and the lock; a block that is nobody's is as expected -/
structure CSim (S : Setup E κ α) (D : Nat → Hist κ α → Prop) (P : Nat → Hist κ α → Str → Prop) (ex : Hist κ α → Str → Option Bytes)
    (M : Str → Prop) (Q : Nat → Hist κ α → Hist κ α → ρ → Store → Prop) (g : Ghost κ α) (css : List (CS κ α β ρ)) (s : Store)
    (σ : St Nat) : Prop where
  sim : Sim S g (css.map CS.ph) s σ
  cl : ∀ (i : Nat) (cs : CS κ α β ρ), css[i]? = some cs → cs.Good S D P ex Q i (g.lab i) (g.own i) g.H s
  disc : ∀ i, D i (S.restrict i g.H)
  nobody : ∀ x, M x → (∀ i, ¬ P i (S.restrict i g.H) x) → s.content x = ex g.H x

variable {D : Nat → Hist κ α → Prop} {P : Nat → Hist κ α → Str → Prop} {ex : Hist κ α → Str → Option Bytes} {M : Str → Prop}
  {Q : Nat → Hist κ α → Hist κ α → ρ → Store → Prop} {css : List (CS κ α β ρ)}

/-- a client that is not using the lock goes on with `c` -/
theorem install (h : Sim S g phs s σ) {i : Nat} {ph : Ph α} (hi : phs[i]? = some ph)
    (hph : ph = .away ∨ ∃ r, ph = .ended r) (c : Cl κ α β ρ) {L : Hist κ α} (hL : L <+: g.H)
    (hLi : S.restrict i L = S.restrict i g.H) (hc : CRG S D (P i) ex i (Q i) c (S.restrict i g.H) L s) :
    ∃ g' : Ghost κ α, g'.H = g.H ∧ (∀ j, j ≠ i → g'.lab j = g.lab j ∧ g'.own j = g.own j) ∧
      Sim S g' (phs.set i (CS.norm S c).ph) s σ ∧ (CS.norm S c).Good S D P ex Q i (g'.lab i) (g'.own i) g'.H s := by
  have off : ∀ (c : κ) j, j ≠ i → (put g.lab i c) j = g.lab j ∧ (put g.own i (S.restrict i g.H)) j = g.own j :=
    fun c j hj => by simp [put, hj]
  induction c with
  | ret r =>
    refine ⟨⟨g.H, put g.lab i (g.lab i), put g.own i (S.restrict i g.H)⟩, rfl, off (g.lab i), h.change hi hph (g.lab i) (Or.inl rfl), ?_⟩
    simp only [put, if_true]
    exact ⟨L, hL, hLi, hc⟩
  | raise e =>
    exact ⟨⟨g.H, put g.lab i (g.lab i), put g.own i (S.restrict i g.H)⟩, rfl, off (g.lab i),
      h.change hi hph (g.lab i) (Or.inl rfl), trivial⟩
  | call fuel c k _ =>
    refine ⟨⟨g.H, put g.lab i c, put g.own i (S.restrict i g.H)⟩, rfl, off c, h.change hi hph c (Or.inr ⟨fuel, rfl, hc.2.1, hc.1⟩), ?_⟩
    simp only [put, if_true]
    exact ⟨by simp, by simp, L, hL, hLi, hc.2.2⟩
  | free p k ih =>
    cases p with
    | ret a => exact ih (.ok a) (hc s (RC.refl h.wf))
    | raise e => exact ih (.error e) (hc s (RC.refl h.wf))
    | stuck =>
      refine ⟨⟨g.H, put g.lab i (g.lab i), put g.own i (S.restrict i g.H)⟩, rfl, off (g.lab i), h.change hi hph (g.lab i) (Or.inl rfl), ?_⟩
      simp only [put, if_true]
      exact ⟨Or.inl rfl, L, hL, hLi, hc⟩
    | op o f =>
      refine ⟨⟨g.H, put g.lab i (g.lab i), put g.own i (S.restrict i g.H)⟩, rfl, off (g.lab i), h.change hi hph (g.lab i) (Or.inl rfl), ?_⟩
      simp only [put, if_true]
      exact ⟨Or.inr ⟨o, f, rfl⟩, L, hL, hLi, hc⟩

/-- a history that has grown by one call of client `i` -/
theorem grows_last {H H' : Hist κ α} {i : Nat} {c : κ} {r : Except PyErr α} (hg : Grows S i H H')
    (e : S.restrict i H' = S.restrict i H ++ [(c, r)]) : H' = H ++ [(c, r)] := by
  obtain ⟨⟨t, rfl⟩, h2⟩ := hg
  congr 1
  have hall : ∀ x ∈ t, S.who x.1 = i := by
    intro x hx
    by_contra hn
    have := h2 _ hn
    rw [Setup.restrict, Setup.restrict, List.filter_append] at this
    have hnil : t.filter (fun y => S.who y.1 == S.who x.1) = [] := by
      have := congrArg List.length this
      rw [List.length_append] at this
      exact List.eq_nil_of_length_eq_zero (by omega)
    have hm : x ∈ t.filter (fun y => S.who y.1 == S.who x.1) := List.mem_filter.2 ⟨hx, by simp⟩
    rw [hnil] at hm
    simp at hm
  rw [Setup.restrict, Setup.restrict, List.filter_append, List.append_cancel_left_eq] at e
  rw [← e, List.filter_eq_self.2]
  intro x hx
  simp [hall x hx]

theorem set_get {β : Type} {l : List β} {i : Nat} {x : β} (h : l[i]? = some x) (y : β) (j : Nat) :
    (l.set i y)[j]? = if j = i then some y else l[j]? := by
  obtain ⟨hi, _⟩ := List.getElem?_eq_some_iff.1 h
  rw [List.getElem?_set]
  by_cases hj : i = j
  · subst hj; simp [hi]
  · rw [if_neg hj, if_neg (fun e => hj e.symm)]

/-- the others, after a step of client `i` -/
theorem CSim.of (h : CSim S D P ex M Q g css s σ) {i : Nat} {cs cs' : CS κ α β ρ} (hi : css[i]? = some cs) {g' : Ghost κ α}
    {σ' : St Nat} (hg : ∀ j, j ≠ i → g'.lab j = g.lab j ∧ g'.own j = g.own j) (hgr : g.H <+: g'.H)
    (hs : Sim S g' ((css.map CS.ph).set i cs'.ph) s' σ') (hgood : cs'.Good S D P ex Q i (g'.lab i) (g'.own i) g'.H s')
    (hr : ∀ j, j ≠ i → RC S (P j) j (S.restrict j g.H) s s')
    (hd : ∀ i, D i (S.restrict i g'.H)) (hn : ∀ x, M x → (∀ i, ¬ P i (S.restrict i g'.H) x) → s'.content x = ex g'.H x) :
    CSim S D P ex M Q g' (css.set i cs') s' σ' := by
  refine ⟨by rw [List.map_set]; exact hs, fun j q hj => ?_, hd, hn⟩
  rw [set_get hi] at hj
  split at hj
  · rename_i hji; injection hj with hj; subst hj; subst hji; exact hgood
  · rename_i hji
    rw [(hg j hji).1, (hg j hji).2]
    refine (h.cl j q hj).rely ?_ hgr
    rw [← h.sim.hist j q.ph (by rw [List.getElem?_map, hj]; rfl)]
    exact hr j hji

theorem rlock_of_kept (hP : Priv S D P ex M) {i : Nat} {b : Bool} {H : Hist κ α} (w : s'.WF) (hk : Kept S i b H s s') (j : Nat)
    (h : Hist κ α) : RLock (fun x => ¬ P j h x) s s' :=
  ⟨w, fun x hx => hk.1 x fun hc => hc (hP.out x (hP.sub j h x (not_not.1 hx)))⟩

/-- what a step under the lock does to the calls made, and to whose the blocks are -/
theorem handover (hP : Priv S D P ex M) (h : CSim S D P ex M Q g css s σ) {i : Nat} {ph ph' : Ph α} {k : Except PyErr α → Cl κ α β ρ}
    (hi : css[i]? = some (.lock ph k)) {H' : Hist κ α} (ha : S.adm H') (hk : Kept S i ph.isInside g.H s s') (w : s'.WF)
    (hh : S.restrict i H' = g.own i ++ ph'.entry (g.lab i)) (hgr' : Grew S i g.H H' s') :
    (match ph'.res with
      | none => ∃ L, L <+: H' ∧ S.restrict i L = g.own i ∧ Waits S D (P i) ex i (Q i) (g.lab i) k (g.own i) L s'
      | some r => ∃ L, L <+: H' ∧ S.restrict i L = g.own i ++ [(g.lab i, r)] ∧
          CRG S D (P i) ex i (Q i) (k r) (g.own i ++ [(g.lab i, r)]) L s') ∧ (∀ i, D i (S.restrict i H')) ∧
    ∀ x, M x → (∀ i, ¬ P i (S.restrict i H') x) → s'.content x = ex H' x := by
  have hgr := hgr'.1
  have h3 := (h.cl i _ hi).2.2
  have hold : S.restrict i g.H = g.own i ++ ph.entry (g.lab i) := h.sim.hist i ph (by rw [List.getElem?_map, hi]; rfl)
  have hpre : S.restrict i g.H <+: S.restrict i H' := List.IsPrefix.filter _ hgr.1
  have hsame : ∀ x, M x → s'.content x = s.content x := fun x hx => (hk.1 x fun hc => hc (hP.out x hx)).2
  have hrl := rlock_of_kept hP w hk i
  -- nothing has been done
  have stay : S.restrict i H' = S.restrict i g.H → H' = g.H := by
    intro e
    obtain ⟨t, rfl⟩ := hgr.1
    cases t with
    | nil => simp
    | cons x t =>
      exfalso
      by_cases hx : S.who x.1 = i
      · rw [Setup.restrict, Setup.restrict, List.filter_append] at e
        have := congrArg List.length e
        simp [hx] at this
      · have e := hgr.2 _ hx
        rw [Setup.restrict, Setup.restrict, List.filter_append] at e
        have := congrArg List.length e
        simp at this
  rw [hold, hh] at hpre
  rw [List.prefix_append_right_inj] at hpre
  cases hres : ph.res with
  | some r =>
    have e1 : ph.entry (g.lab i) = [(g.lab i, r)] := by simp [Ph.entry, hres]
    rw [hres] at h3
    cases hres' : ph'.res with
    | none => simp [Ph.entry, hres, hres'] at hpre
    | some r' =>
      have e2 : ph'.entry (g.lab i) = [(g.lab i, r')] := by simp [Ph.entry, hres']
      rw [e1, e2] at hpre
      have : r = r' := by simpa using hpre
      subst this
      have e3 : H' = g.H := stay (by rw [hh, hold, e1, e2])
      subst e3
      obtain ⟨L, l1, l2, l3⟩ := h3
      have hrel := hk.2.1 i fun _ => by cases ph <;> simp [Ph.res, Ph.isInside] at hres ⊢
      rw [hold, e1] at hrel
      exact ⟨⟨L, l1, l2, crg_rely l3 ⟨hrl _, hrel, hk.2.2⟩⟩, h.disc, fun x hx hno => by rw [hsame x hx]; exact h.nobody x hx hno⟩
  | none =>
    have e1 : ph.entry (g.lab i) = [] := by simp [Ph.entry, hres]
    rw [e1, List.append_nil] at hold
    rw [hres] at h3
    obtain ⟨L, l1, l2, l3⟩ := h3
    cases hres' : ph'.res with
    | none =>
      have e2 : ph'.entry (g.lab i) = [] := by simp [Ph.entry, hres']
      rw [e2, List.append_nil] at hh
      have e3 : H' = g.H := stay (by rw [hh, hold])
      subst e3
      exact ⟨⟨L, l1, l2, fun r s2 H h2 h2e => l3 r s2 H ((hrl _).trans _ _ _ h2) (S.ever_trans _ _ _ hk.2.2 h2e)⟩, h.disc,
        fun x hx hno => by rw [hsame x hx]; exact h.nobody x hx hno⟩
    | some r =>
      have e2 : ph'.entry (g.lab i) = [(g.lab i, r)] := by simp [Ph.entry, hres']
      rw [e2] at hh
      have e3 := grows_last hgr (by rw [hh, hold])
      subst e3
      have hJ : S.J (g.H ++ [(g.lab i, r)]) s' := by
        rcases hgr'.2 with e | hJ
        · have := congrArg List.length e
          simp at this
        · exact hJ
      obtain ⟨hD, h4, h5⟩ := l3 r s' g.H (hrl _) hk.2.2 ha hold l1 h.disc hJ
      have hD' : ∀ j, D j (S.restrict j (g.H ++ [(g.lab i, r)])) := by
        intro j
        by_cases hj : j = i
        · rw [hj, hh]; exact hD
        · rw [hgr.2 j hj]; exact h.disc j
      refine ⟨⟨_, List.prefix_refl _, hh, h5 fun x hx hnx => ?_⟩, hD', fun x hx hno => ?_⟩
      · have hM := hP.sub i _ x hx
        rw [hsame x hM]
        refine h.nobody x hM fun j => ?_
        by_cases hj : j = i
        · rw [hj, hold]; exact hnx
        · rw [← hgr.2 j hj]
          exact hP.disj _ ha hD' i j x (Ne.symm hj) (by rw [hh]; exact hx)
      · by_cases hix : P i (g.own i) x
        · exact h4 x hix (by rw [← hh]; exact hno i)
        · have hnob : ∀ j, ¬ P j (S.restrict j g.H) x := by
            intro j
            by_cases hj : j = i
            · rw [hj, hold]; exact hix
            · rw [← hgr.2 j hj]; exact hno j
          rw [hsame x hx, hP.keep _ _ _ x ha hD' hx hnob]
          exact h.nobody x hx hnob

theorem attempt_bind_op {β : Type} (o : Op) (f : Except PyErr o.Res → Prog α) (F : Except PyErr α → Prog β) :
    (Prog.op o f).attempt.bind F = .op o fun r => (f r).attempt.bind F := rfl

/-- no code outside the lock -/
def Cl.NoFree : Cl κ α β ρ → Prop
  | .ret _ => True
  | .raise _ => True
  | .call _ _ k => ∀ r, Cl.NoFree (k r)
  | .free _ _ => False

def CS.NoFree : CS κ α β ρ → Prop
  | .lock _ k => ∀ r, Cl.NoFree (k r)
  | .free _ _ => False
  | .done _ => True
  | .failed _ => True

theorem CS.noFree_norm {S : Setup E κ α} {c : Cl κ α β ρ} (h : Cl.NoFree c) : (CS.norm S c).NoFree := by
  cases c with
  | ret r => trivial
  | raise e => trivial
  | call f c k => exact h
  | free p k => exact h.elim

/-- a client that is using the lock goes on to the phase `ph'` -/
theorem csim_lock (hP : Priv S D P ex M) (h : CSim S D P ex M Q g css s σ) {i : Nat} {ph ph' : Ph α} {k : Except PyErr α → Cl κ α β ρ}
    (hi : css[i]? = some (.lock ph k)) {p' : Prog ρ}
    (hp' : p' = (ph'.prog S.name).attempt.bind (afterCall fun r => (k r).prog S.name S.bodies)) {H' : Hist κ α} {σ' : St Nat}
    (e2 : Sim S { g with H := H' } ((css.map CS.ph).set i ph') s' σ') (e3 : Kept S i ph.isInside g.H s s') (e4 : ph' ≠ .away)
    (e5 : QInv σ') (e6 : Grew S i g.H H' s') :
    ∃ cs' g' σ', p' = cs'.prog S ∧ CSim S D P ex M Q g' (css.set i cs') s' σ' ∧ QInv σ' ∧ Grows S i g.H g'.H ∧
      ((∀ r, Cl.NoFree (k r)) → cs'.NoFree) ∧ (ph'.isInside = true → cs' = .lock ph' k) := by
  have hi' : (css.map CS.ph)[i]? = some ph := by rw [List.getElem?_map, hi]; rfl
  have hr : ∀ j, j ≠ i → RC S (P j) j (S.restrict j g.H) s s' := fun j hj =>
    ⟨rlock_of_kept hP e2.wf e3 j _, e3.2.1 j fun e => absurd e hj, e3.2.2⟩
  have hi2 : ((css.map CS.ph).set i ph')[i]? = some ph' := by rw [get_set hi', if_pos rfl]
  have hh : S.restrict i H' = g.own i ++ ph'.entry (g.lab i) := e2.hist i _ hi2
  obtain ⟨c1, c3, c2⟩ := handover hP h hi e2.adm e3 e2.wf hh e6
  by_cases hend : ∃ r, ph' = .ended r ∧ isOverflow r = false
  · obtain ⟨r, rfl, hov⟩ := hend
    obtain ⟨L, l1, l2, l3⟩ := c1
    obtain ⟨g', f1, f2, f3, f4⟩ := install (D := D) (P := P) (ex := ex) (Q := Q) e2 hi2 (Or.inr ⟨r, rfl⟩) (k r) l1
      (l2.trans hh.symm) (by
      show CRG S D (P i) ex i (Q i) (k r) (S.restrict i H') L s'
      rw [hh]
      exact l3)
    refine ⟨_, g', σ', ?_, h.of hi f2 (by rw [f1]; exact e6.1.1) (by simpa using f3) f4 hr (by rw [f1]; exact c3) (by rw [f1]; exact c2), e5,
      by rw [f1]; exact e6.1, fun hk => CS.noFree_norm (hk r), fun hc => by simp [Ph.isInside] at hc⟩
    rw [CS.prog_norm, hp']
    cases r with
    | ok a => rfl
    | error e =>
      show afterCall _ (.error e) = _
      rw [afterCall, hov]; rfl
  · refine ⟨.lock ph' k, { g with H := H' }, σ', ?_, h.of hi (fun _ _ => ⟨rfl, rfl⟩) e6.1.1 e2 ⟨?_, e4, c1⟩
      hr c3 c2, e5, e6.1, fun hk => hk, fun _ => rfl⟩
    · rw [hp']; rfl
    · intro r hr'
      by_contra hc
      exact hend ⟨r, hr', by simpa using hc⟩

theorem csim_step (hP : Priv S D P ex M) (h : CSim S D P ex M Q g css s σ) (hq : QInv σ) {i : Nat} {cs : CS κ α β ρ}
    (hi : css[i]? = some cs) (hcq : CodeQuiet S.name (css.map (CS.prog S)) s i) {p' : Prog ρ}
    (hst : (cs.prog S).step E s = some (p', s')) :
    ∃ cs' g' σ', p' = cs'.prog S ∧ CSim S D P ex M Q g' (css.set i cs') s' σ' ∧ QInv σ' ∧ Grows S i g.H g'.H ∧
      (cs.NoFree → cs'.NoFree) ∧ (∀ c n own o f k, cs = .lock (.inside c n own (.op o f)) k → cs'.ph.isInside = true) := by
  have hgood := h.cl i cs hi
  have hi' : (css.map CS.ph)[i]? = some cs.ph := by rw [List.getElem?_map, hi]; rfl
  cases cs with
  | done r => simp [CS.prog, Prog.step] at hst
  | failed e => simp [CS.prog, Prog.step] at hst
  | free p k =>
    obtain ⟨h1, L, l1, l2, h2⟩ := hgood
    rcases h1 with rfl | ⟨o, f, rfl⟩
    · simp [CS.prog, Prog.attempt, Prog.bind, Prog.catch_, Prog.step] at hst
    · simp only [CS.prog, attempt_bind_op, Prog.step, Option.some.injEq, Prod.mk.injEq] at hst
      obtain ⟨rfl, rfl⟩ := hst
      obtain ⟨hG, h3⟩ := h2 s (RC.refl h.sim.wf)
      have w' := step_wf E o s h.sim.wf
      have hG' : ∀ x, ¬ P i (g.own i) x → (o.step E s).2.names x = s.names x ∧ (o.step E s).2.content x = s.content x :=
        fun x hx => hG x fun hc => hc hx
      have hs := h.sim.foreign (s' := (o.step E s).2) ⟨w', fun x hx => hG' x fun hc => hx (hP.out x (hP.sub i _ x hc))⟩
      have hown : S.restrict i g.H = g.own i := by
        have := h.sim.hist i _ hi'
        simpa [CS.ph, Ph.entry, Ph.res] using this
      have hr : ∀ j, j ≠ i → RC S (P j) j (S.restrict j g.H) s (o.step E s).2 := fun j hj =>
        ⟨⟨w', fun x hx => hG' x (hown ▸ hP.disj g.H h.sim.adm h.disc j i x hj (not_not.1 hx))⟩,
          S.rel_X _ _ _ _ ⟨w', fun x hx => hG' x fun hc => hx (hP.out x (hP.sub i _ x hc)).1⟩,
          S.ever_X _ _ ⟨w', fun x hx => hG' x fun hc => hx (hP.out x (hP.sub i _ x hc)).1⟩⟩
      obtain ⟨g', e1, e2, e3, e4⟩ := install (D := D) (P := P) (ex := ex) (Q := Q) hs hi' (Or.inl rfl)
        (.free (f (o.step E s).1) k) l1 (l2.trans hown.symm) (by rw [hown]; exact h3)
      refine ⟨_, g', σ, (CS.prog_norm S (.free (f (o.step E s).1) k)).symm, h.of hi e2 (e1 ▸ List.prefix_refl _) e3 e4 hr (by rw [e1]; exact h.disc) ?_, hq, by rw [e1]; exact Grows.refl,
        fun hc => hc.elim, fun _ _ _ _ _ _ hc => nomatch hc⟩
      intro x hx hno
      rw [e1] at hno ⊢
      rw [(hG' x (hown ▸ hno i)).2]
      exact h.nobody x hx hno
  | lock ph k =>
    obtain ⟨h1, h2, h3⟩ := hgood
    -- the phase makes the step
    obtain ⟨o, f, hpf⟩ : ∃ o f, ph.prog S.name = .op o f := by
      cases hp : ph.prog S.name with
      | op o f => exact ⟨o, f, rfl⟩
      | ret a =>
        have := h1 (.ok a) (prog_ret S.name hp)
        simp [isOverflow] at this
      | raise e =>
        exfalso
        have he : e = .overflowError := by
          rcases prog_raise S.name hp with h4 | h4 | h4
          · have := h1 _ h4
            cases e <;> simp [isOverflow] at this
            rfl
          · exact h4
          · exact absurd h4 h2
        subst he
        simp [CS.prog, hp, Prog.attempt, Prog.bind, Prog.catch_, afterCall, isOverflow, Prog.step] at hst
      | stuck => simp [CS.prog, hp, Prog.attempt, Prog.bind, Prog.catch_, Prog.step] at hst
    simp only [CS.prog, hpf, attempt_bind_op, Prog.step, Option.some.injEq, Prod.mk.injEq] at hst
    obtain ⟨hp', hs'⟩ := hst
    have hst' : (ph.prog S.name).step E s = some (f (o.step E s).1, s') := by rw [hpf, ← hs']; rfl
    have hcq' : CodeQuiet S.name ((css.map CS.ph).map (Ph.prog S.name)) s i := by
      intro j p hj hp hat o1 k1 hk1
      rw [List.getElem?_map, hi', Option.map_some, Option.some.injEq] at hk1
      rw [List.getElem?_map, List.getElem?_map] at hp
      cases hcj : css[j]? with
      | none => rw [hcj] at hp; simp at hp
      | some cj =>
        rw [hcj] at hp
        simp only [Option.map_some, Option.some.injEq] at hp
        subst hp
        have hat' : AtDoor S.name (cj.prog S) := by
          cases cj with
          | lock q kq =>
            rcases hat with hat | ⟨o2, k2, e2, hd⟩
            · refine Or.inl ?_
              simp only [CS.ph] at hat
              simp [CS.prog, hat, Prog.attempt, Prog.bind, Prog.catch_]
            · simp only [CS.ph] at e2
              exact Or.inr ⟨o2, _, by simp only [CS.prog, e2]; rfl, hd⟩
          | free p k => rcases hat with hat | ⟨o2, k2, e2, hd⟩ <;> simp [CS.ph, Ph.prog] at *
          | done r => rcases hat with hat | ⟨o2, k2, e2, hd⟩ <;> simp [CS.ph, Ph.prog] at *
          | failed e => rcases hat with hat | ⟨o2, k2, e2, hd⟩ <;> simp [CS.ph, Ph.prog] at *
        have hk1 : ph.prog S.name = .op o1 k1 := hk1
        exact hcq j (cj.prog S) hj (by simp [hcj]) hat' o1 _ (by
          rw [List.getElem?_map, hi, Option.map_some]
          simp only [CS.prog, hk1]; rfl)
    by_cases hin : ∃ c n own o f, ph = .inside c n own (.op o f)
    · obtain ⟨c, n, own, o1, f1, rfl⟩ := hin
      obtain ⟨e2, e3⟩ := sim_inside h.sim hq hi'
      rw [prog_inside_op] at hpf
      injection hpf with ho hf
      subst ho
      cases hf
      rw [← hs'] 
      obtain ⟨cs', g', σ'', f1, f2, f3, f4, f5, f6⟩ := csim_lock hP h hi (ph' := .inside c n own (f1 (o1.step E s).1)) hp'.symm e2 e3 (by simp) hq Grew.refl
      exact ⟨cs', g', σ'', f1, f2, f3, f4, f5, fun _ _ _ _ _ _ _ => by rw [f6 rfl]; rfl⟩
    · obtain ⟨ph', H', σ', e1, ⟨e2, e3, e4⟩, e5, e6⟩ := sim_step h.sim hq hi' hcq' hst'
      obtain ⟨cs', g', σ'', f1, f2, f3, f4, f5, _⟩ := csim_lock hP h hi (p' := p') (by rw [← hp', e1]) e2 e3 e4 e5 e6
      exact ⟨cs', g', σ'', f1, f2, f3, f4, f5, fun c n own o f k' e => by
        injection e with e
        exact absurd ⟨c, n, own, o, f, e⟩ hin⟩

theorem CSim.done_hist (h : CSim S D P ex M Q g css s σ) {i : Nat} {r : ρ} (hi : css[i]? = some (.done r)) :
    S.restrict i g.H = g.own i := by
  have := h.sim.hist i .away (by rw [List.getElem?_map, hi]; rfl)
  simpa [Ph.entry, Ph.res] using this

/-- only a client that has ended is a value -/
theorem CSim.of_ret (h : CSim S D P ex M Q g css s σ) {i : Nat} {cs : CS κ α β ρ} (hi : css[i]? = some cs) {r : ρ}
    (ha : cs.prog S = .ret r) : cs = .done r := by
  have hgood := h.cl i cs hi
  cases cs with
  | done r' => injection ha with ha; rw [ha]
  | failed e => simp [CS.prog] at ha
  | free p k =>
    exfalso
    rcases hgood.1 with rfl | ⟨o, f, rfl⟩
    · simp [CS.prog, Prog.attempt, Prog.bind, Prog.catch_] at ha
    · simp [CS.prog, attempt_bind_op] at ha
  | lock ph k =>
    exfalso
    obtain ⟨h1, h2, _⟩ := hgood
    cases hp : ph.prog S.name with
    | op o f => simp [CS.prog, hp, attempt_bind_op] at ha
    | ret a =>
      have := h1 (.ok a) (prog_ret S.name hp)
      simp [isOverflow] at this
    | raise e =>
      have he : e = .overflowError := by
        rcases prog_raise S.name hp with h4 | h4 | h4
        · have := h1 _ h4
          cases e <;> simp [isOverflow] at this
          rfl
        · exact h4
        · exact absurd h4 h2
      subst he
      simp [CS.prog, hp, Prog.attempt, Prog.bind, Prog.catch_, afterCall, isOverflow] at ha
    | stuck => simp [CS.prog, hp, Prog.attempt, Prog.bind, Prog.catch_] at ha

/-- At every point of the schedule the history so far is a beginning of the whole, with all the calls of the clients that
have returned by then, and none by the clients that have not moved. -/
def InOrder (E : Env) (S : Setup E κ α) (ps : List (Prog ρ)) (s : Store) (sched : List Nat) (H0 H : Hist κ α) : Prop :=
  ∀ a b, sched = a ++ b → ∃ Ha, H0 <+: Ha ∧ Ha <+: H ∧
    (∀ i, i ∉ a → S.restrict i Ha = S.restrict i H0) ∧
    ∀ i r, (interleave E a ps s).1[i]? = some (.ret r) → S.restrict i Ha = S.restrict i H

/-- no client `i`, or it has ended -/
def Idle (css : List (CS κ α β ρ)) (i : Nat) : Prop := ∀ cs, css[i]? = some cs → ∃ r, cs = .done r

theorem CSim.nil_ok (h : CSim S D P ex M Q g css s σ) (H : Hist κ α) (h1 : g.H <+: H)
    (h2 : ∀ i, Idle css i → S.restrict i H = S.restrict i g.H) :
    ∃ Ha, g.H <+: Ha ∧ Ha <+: H ∧ (∀ i, i ∉ ([] : List Nat) → S.restrict i Ha = S.restrict i g.H) ∧
      ∀ i r, (interleave E [] (css.map (CS.prog S)) s).1[i]? = some (.ret r) → S.restrict i Ha = S.restrict i H := by
  refine ⟨g.H, List.prefix_refl _, h1, fun _ _ => rfl, fun i r hi => ?_⟩
  simp only [interleave, List.getElem?_map] at hi
  cases hci : css[i]? with
  | none => rw [hci] at hi; simp at hi
  | some cs =>
    rw [hci] at hi
    simp only [Option.map_some, Option.some.injEq] at hi
    rw [h.of_ret hci hi] at hci
    exact (h2 i fun cs' h' => by rw [hci] at h'; injection h' with h'; exact ⟨r, h'.symm⟩).symm

/-- the whole run -/
theorem csim_run (hP : Priv S D P ex M) (h : CSim S D P ex M Q g css s σ) (hq : QInv σ) (sched : List Nat)
    (hcq : CodeQuietRun E S.name sched (css.map (CS.prog S)) s) :
    ∃ (css' : List (CS κ α β ρ)) (g' : Ghost κ α) (σ' : St Nat), (interleave E sched (css.map (CS.prog S)) s).1 = css'.map (CS.prog S) ∧
      CSim S D P ex M Q g' css' (interleave E sched (css.map (CS.prog S)) s).2 σ' ∧ QInv σ' ∧ g.H <+: g'.H ∧
      (∀ i, Idle css i → S.restrict i g'.H = S.restrict i g.H) ∧
      InOrder E S (css.map (CS.prog S)) s sched g.H g'.H := by
  induction sched generalizing css s σ g with
  | nil =>
    refine ⟨css, g, σ, rfl, h, hq, List.prefix_refl _, fun _ _ => rfl, fun a b hab => ?_⟩
    obtain ⟨rfl, rfl⟩ : a = [] ∧ b = [] := by simpa using hab.symm
    exact h.nil_ok _ (List.prefix_refl _) (fun _ _ => rfl)
  | cons i t ih =>
    obtain ⟨h1, h2⟩ := hcq
    -- when the step does nothing
    have skip : interleave E (i :: t) (css.map (CS.prog S)) s = interleave E t (css.map (CS.prog S)) s →
        (∀ a, interleave E (i :: a) (css.map (CS.prog S)) s = interleave E a (css.map (CS.prog S)) s) →
        CodeQuietRun E S.name t (css.map (CS.prog S)) s → ∃ (css' : List (CS κ α β ρ)) (g' : Ghost κ α) (σ' : St Nat),
        (interleave E (i :: t) (css.map (CS.prog S)) s).1 = css'.map (CS.prog S) ∧
        CSim S D P ex M Q g' css' (interleave E (i :: t) (css.map (CS.prog S)) s).2 σ' ∧ QInv σ' ∧ g.H <+: g'.H ∧
        (∀ i, Idle css i → S.restrict i g'.H = S.restrict i g.H) ∧
        InOrder E S (css.map (CS.prog S)) s (i :: t) g.H g'.H := by
      intro e0 e1 hcq'
      obtain ⟨css', g', σ', a1, a2, a3, a4, a5, a6⟩ := ih h hq hcq'
      rw [e0]
      refine ⟨css', g', σ', a1, a2, a3, a4, a5, fun a b hab => ?_⟩
      cases a with
      | nil => exact h.nil_ok _ a4 a5
      | cons x a =>
        simp only [List.cons_append, List.cons.injEq] at hab
        obtain ⟨rfl, rfl⟩ := hab
        rw [e1]
        obtain ⟨Ha, b1, b2, b3, b4⟩ := a6 a b rfl
        exact ⟨Ha, b1, b2, fun j hj => b3 j fun hc => hj (List.mem_cons_of_mem _ hc), b4⟩
    cases hi : css[i]? with
    | none =>
      simp only [List.getElem?_map, hi, Option.map_none] at h2
      have : ∀ a, interleave E (i :: a) (css.map (CS.prog S)) s = interleave E a (css.map (CS.prog S)) s :=
        fun a => by rw [interleave, List.getElem?_map, hi]; rfl
      exact skip (this t) this h2
    | some cs =>
      simp only [List.getElem?_map, hi, Option.map_some] at h2
      cases hst : (cs.prog S).step E s with
      | none =>
        simp only [hst] at h2
        have : ∀ a, interleave E (i :: a) (css.map (CS.prog S)) s = interleave E a (css.map (CS.prog S)) s :=
          fun a => by rw [interleave, List.getElem?_map, hi, Option.map_some]; simp only [hst]
        exact skip (this t) this h2
      | some x =>
        obtain ⟨p', s'⟩ := x
        simp only [hst] at h2
        obtain ⟨cs', g1, σ1, rfl, hs, hq', hgr, _⟩ := csim_step hP h hq hi h1 hst
        have e1 : ∀ a, interleave E (i :: a) (css.map (CS.prog S)) s =
            interleave E a ((css.set i cs').map (CS.prog S)) s' := fun a => by
          rw [interleave, List.getElem?_map, hi, Option.map_some]; simp only [hst]; rw [← List.map_set]
        rw [← List.map_set] at h2
        obtain ⟨css', g', σ', a1, a2, a3, a4, a5, a6⟩ := ih hs hq' h2
        rw [e1]
        have hdn : ∀ j, Idle css j → j ≠ i := by
          intro j hj e
          subst e
          obtain ⟨r, hr⟩ := hj _ hi
          rw [hr] at hst
          simp [CS.prog, Prog.step] at hst
        have a4' : g.H <+: g'.H := hgr.1.trans a4
        have a5' : ∀ j, Idle css j → S.restrict j g'.H = S.restrict j g.H := by
          intro j hj
          have hji := hdn j hj
          rw [a5 j (fun cs0 h0 => hj cs0 (by rw [set_get hi, if_neg hji] at h0; exact h0)), hgr.2 j hji]
        refine ⟨css', g', σ', a1, a2, a3, a4', a5', fun a b hab => ?_⟩
        cases a with
        | nil => exact h.nil_ok _ a4' a5'
        | cons x a =>
          simp only [List.cons_append, List.cons.injEq] at hab
          obtain ⟨rfl, rfl⟩ := hab
          rw [e1]
          obtain ⟨Ha, b1, b2, b3, b4⟩ := a6 a b rfl
          refine ⟨Ha, hgr.1.trans b1, b2, fun j hj => ?_, b4⟩
          rw [b3 j fun hc => hj (List.mem_cons_of_mem _ hc), hgr.2 j fun e => hj (by rw [e]; simp)]

/-- nobody uses the lock -/
theorem sim_start [Inhabited κ] (S : Setup E κ α) {fl : Nat} (w : s.WF) (hc : LockClean s S.name fl)
    (hphs : ∀ (i : Nat) (ph : Ph α), phs[i]? = some ph → ph = .away) (hb : fl < 256 ^ 5) (hJ : S.J [] s) :
    Sim S { H := [], lab := fun _ => default, own := fun _ => [] } phs s (LockTS.start fl) := by
  refine ⟨w, ?_, ?_, hb, fun n => ?_, fun n => ?_, fun i ph hi => Or.inl (hphs i ph hi),
    fun i ph hi => Or.inl (hphs i ph hi), S.adm_of _ _ hJ, ?_, ?_, fun _ => hJ⟩
  · funext i
    cases hi : phs[i]? with
    | none => simp [pcOf, hi, LockTS.start]
    | some ph => rw [pcOf_eq hi, hphs i ph hi]; rfl
  · have hfr : ∀ ph ∈ phs, ph.isFresh = true ∧ ph.handle = none := by
      intro ph hph
      obtain ⟨i, hi⟩ := List.mem_iff_getElem?.1 hph
      rw [hphs i ph hi]
      exact ⟨rfl, rfl⟩
    rcases hc.count with ⟨h1, h2⟩ | h1
    · exact Or.inr ⟨content_none.1 h1, h2, fun ph hph => (hfr ph hph).1⟩
    · obtain ⟨i, h2, h3⟩ := names_of_content h1
      exact Or.inl ⟨i, h2, h3, fun ph hph x hx => by rw [(hfr ph hph).2] at hx; simp at hx⟩
  · rw [content_none.1 (hc.marker n)]; rfl
  · rw [content_none.1 (hc.lock n)]; rfl
  · intro i ph hi
    rw [hphs i ph hi]; rfl
  · intro i c n own p hi
    have := hphs i _ hi
    simp at this

/-- the clients begin, one after the other -/
theorem csim_start (cls : List (Cl κ α β ρ)) {σ : St Nat} :
    ∀ (m : Nat) (g : Ghost κ α), m ≤ cls.length → g.H = [] →
      Sim S g (List.replicate cls.length .away) s σ →
      (∀ (i : Nat) (c : Cl κ α β ρ), cls[i]? = some c → CRG S D (P i) ex i (Q i) c [] [] s) →
      ∃ g' : Ghost κ α, g'.H = [] ∧
        Sim S g' ((cls.take m).map (fun c => (CS.norm S c).ph) ++ List.replicate (cls.length - m) .away) s σ ∧
        ∀ (i : Nat) (c : Cl κ α β ρ), i < m → cls[i]? = some c → (CS.norm S c).Good S D P ex Q i (g'.lab i) (g'.own i) [] s := by
  intro m
  induction m with
  | zero => exact fun g _ hg hs _ => ⟨g, hg, by simpa using hs, fun i c hi => absurd hi (Nat.not_lt_zero _)⟩
  | succ m ih =>
    intro g hm hg hs hc
    obtain ⟨g1, h1, h2, h3⟩ := ih g (by omega) hg hs hc
    obtain ⟨c, hcm⟩ : ∃ c, cls[m]? = some c := ⟨_, List.getElem?_eq_getElem (by omega)⟩
    have hl : ((cls.take m).map (fun c => (CS.norm S c).ph)).length = m := by simp; omega
    have hrep : List.replicate (cls.length - m) (Ph.away : Ph α) = .away :: List.replicate (cls.length - (m + 1)) .away := by
      rw [show cls.length - m = (cls.length - (m + 1)) + 1 by omega, List.replicate_succ]
    have hget : ((cls.take m).map (fun c => (CS.norm S c).ph) ++ List.replicate (cls.length - m) (Ph.away : Ph α))[m]? =
        some .away := by
      rw [hrep, List.getElem?_append_right (by omega), hl]; simp
    obtain ⟨g2, e1, e2, e3, e4⟩ := install (D := D) (P := P) (ex := ex) (Q := Q) h2 hget (Or.inl rfl) c (L := [])
      List.nil_prefix (by rw [h1]) (by rw [h1]; exact hc m c hcm)
    rw [e1, h1] at e4
    refine ⟨g2, e1.trans h1, ?_, fun i c' hi hci => ?_⟩
    · have : (cls.take (m + 1)).map (fun c => (CS.norm S c).ph) ++ List.replicate (cls.length - (m + 1)) (Ph.away : Ph α) =
          ((cls.take m).map (fun c => (CS.norm S c).ph) ++ List.replicate (cls.length - m) (Ph.away : Ph α)).set m
            (CS.norm S c).ph := by
        rw [hrep, List.set_append_right _ _ (by omega), hl, Nat.sub_self, List.set_cons_zero, List.take_add_one, hcm]
        simp
      rw [this]; exact e3
    · by_cases him : i = m
      · subst him
        rw [hcm] at hci; injection hci with hci
        rw [← hci]; exact e4
      · rw [(e2 i him).1, (e2 i him).2]
        exact h3 i c' (by omega) hci

/-- the clients begin -/
theorem csim_init [Inhabited κ] (S : Setup E κ α) {fl : Nat} (w : s.WF) (hc : LockClean s S.name fl)
    (hb : fl < 256 ^ 5) (hJ : S.J [] s) (hd : ∀ i, D i [])
    (hn : ∀ x, M x → (∀ i, ¬ P i [] x) → s.content x = ex [] x) (cls : List (Cl κ α β ρ))
    (hcl : ∀ (i : Nat) (c : Cl κ α β ρ), cls[i]? = some c → CRG S D (P i) ex i (Q i) c [] [] s) :
    ∃ g : Ghost κ α, g.H = [] ∧ CSim S D P ex M Q g (cls.map (CS.norm S)) s (LockTS.start fl) := by
  obtain ⟨g, hg, h1, h2⟩ := csim_start (D := D) (P := P) (ex := ex) (Q := Q) cls cls.length _ (Nat.le_refl _) rfl
    (sim_start (phs := List.replicate cls.length .away) S w hc (fun i ph hi => by
      have := List.mem_of_getElem? hi
      exact (List.mem_replicate.1 this).2) hb hJ) hcl
  refine ⟨g, hg, ?_⟩
  refine ⟨by simpa [Function.comp_def] using h1, fun i cs hi => ?_, by rw [hg]; exact hd, by rw [hg]; exact hn⟩
  rw [List.getElem?_map] at hi
  cases hci : cls[i]? with
  | none => rw [hci] at hi; simp at hi
  | some c =>
    rw [hci] at hi
    simp only [Option.map_some, Option.some.injEq] at hi
    rw [← hi, hg]
    exact h2 i c (List.getElem?_eq_some_iff.1 hci).1 hci

theorem map_norm (S : Setup E κ α) (cls : List (Cl κ α β ρ)) :
    cls.map (Cl.prog S.name S.bodies) = (cls.map (CS.norm S)).map (CS.prog S) := by
  rw [List.map_map]
  exact List.map_congr_left fun c _ => (CS.prog_norm S c).symm

/-- When clients of a lock are interleaved by a schedule that disturbs no doorway, there is one history of all the
critical sections, in an order that agrees with the schedule; each client that has returned has ended as it must with its
part of that history; when all have returned the invariant holds of the history, and nobody holds the lock; and a block
that is nobody's is as expected. -/
theorem clients [Inhabited κ] (S : Setup E κ α) (hP : Priv S D P ex M) {fl : Nat} (w : s.WF) (hc : LockClean s S.name fl)
    (hb : fl < 256 ^ 5) (hJ : S.J [] s) (hd : ∀ i, D i [])
    (hn : ∀ x, M x → (∀ i, ¬ P i [] x) → s.content x = ex [] x) (cls : List (Cl κ α β ρ))
    (hcl : ∀ (i : Nat) (c : Cl κ α β ρ), cls[i]? = some c → CRG S D (P i) ex i (Q i) c [] [] s) (sched : List Nat)
    (hq : CodeQuietRun E S.name sched (cls.map (Cl.prog S.name S.bodies)) s) :
    ∃ H, S.adm H ∧ (interleave E sched (cls.map (Cl.prog S.name S.bodies)) s).2.WF ∧
      InOrder E S (cls.map (Cl.prog S.name S.bodies)) s sched [] H ∧ (∀ i, cls.length ≤ i → S.restrict i H = []) ∧
      (∀ i r, (interleave E sched (cls.map (Cl.prog S.name S.bodies)) s).1[i]? = some (.ret r) →
        ∃ L, L <+: H ∧ S.restrict i L = S.restrict i H ∧
          Q i (S.restrict i H) L r (interleave E sched (cls.map (Cl.prog S.name S.bodies)) s).2) ∧
      ((∀ p ∈ (interleave E sched (cls.map (Cl.prog S.name S.bodies)) s).1, ∃ a, p = .ret a) →
        S.J H (interleave E sched (cls.map (Cl.prog S.name S.bodies)) s).2 ∧
        ∃ fl', LockClean (interleave E sched (cls.map (Cl.prog S.name S.bodies)) s).2 S.name fl' ∧ fl' < 256 ^ 5) ∧
      (∀ i, D i (S.restrict i H)) ∧ ∀ x, M x → (∀ i, ¬ P i (S.restrict i H) x) →
        (interleave E sched (cls.map (Cl.prog S.name S.bodies)) s).2.content x = ex H x := by
  rw [map_norm S cls] at hq ⊢
  obtain ⟨g, hg, hcs⟩ := csim_init (D := D) (P := P) (ex := ex) (M := M) (Q := Q) S w hc hb hJ hd hn cls hcl
  obtain ⟨css', g', σ', e1, e3, e4, e5, e6, e7⟩ := csim_run hP hcs (qinv_start fl) sched hq
  rw [hg] at e7
  have e8 : ∀ i, cls.length ≤ i → S.restrict i g'.H = [] := fun i hi => by
    rw [e6 i fun cs h0 => by rw [List.getElem?_eq_none (by simpa using hi)] at h0; simp at h0, hg]
    rfl
  refine ⟨g'.H, e3.sim.adm, e3.sim.wf, e7, e8, fun i r hi => ?_, fun hret => ?_, e3.disc, e3.nobody⟩
  · rw [e1, List.getElem?_map] at hi
    cases hci : css'[i]? with
    | none => rw [hci] at hi; simp at hi
    | some cs =>
      rw [hci] at hi
      simp only [Option.map_some, Option.some.injEq] at hi
      have := e3.of_ret hci hi
      subst this
      rw [e3.done_hist hci]
      obtain ⟨L, l1, l2, l3⟩ := e3.cl i _ hci
      exact ⟨L, l1, l2, l3 _ (RC.refl e3.sim.wf)⟩
  · have haway : ∀ (i : Nat) (ph : Ph α), (css'.map CS.ph)[i]? = some ph → ph = .away := by
      intro i ph hi
      rw [List.getElem?_map] at hi
      cases hci : css'[i]? with
      | none => rw [hci] at hi; simp at hi
      | some cs =>
        rw [hci] at hi
        obtain ⟨a, ha⟩ := hret (cs.prog S) (by rw [e1]; exact List.mem_map.2 ⟨cs, List.mem_of_getElem? hci, rfl⟩)
        have := e3.of_ret hci ha
        subst this
        simp only [Option.map_some, Option.some.injEq] at hi
        rw [← hi]; rfl
    have hpc : ∀ i, σ'.pc i = .out := by
      intro i
      rw [e3.sim.pc]
      cases hi : (css'.map CS.ph)[i]? with
      | none => simp [pcOf, hi]
      | some ph => rw [pcOf_eq hi, haway i ph hi]; rfl
    refine ⟨e3.sim.outside fun i ph hi => by rw [haway i ph hi]; rfl, σ'.count, ⟨?_, fun n => ?_, fun n => ?_⟩, e3.sim.bound⟩
    · rcases e3.sim.count with ⟨C, c1, c2, _⟩ | ⟨c1, c2, _⟩
      · exact Or.inr (by rw [content_some c1, c2])
      · exact Or.inl ⟨content_none.2 c1, c2⟩
    · have h1 := e3.sim.marker n
      have h2 : σ'.marker n = false := by
        by_contra hc
        obtain ⟨i, hi⟩ := (e4.marker n).1 (by simpa using hc)
        rw [hpc i] at hi; simp [num?] at hi
      rw [h2] at h1
      exact content_none.2 (by simpa using h1)
    · have h1 := e3.sim.lock n
      have h2 : σ'.lock n = false := by
        by_contra hc
        obtain ⟨i, hi⟩ := (e4.lock n).1 (by simpa using hc)
        rw [hpc i] at hi; simp [holds?] at hi
      rw [h2] at h1
      exact content_none.2 (by simpa using h1)

end Verif.Lemmas
