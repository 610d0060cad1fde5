import Verif.Lemmas.LockPhase
/-!
# The programs `withLock (.sliding fuel) name body`, interleaved, take the steps of the transition system

As long as doorways are undisturbed, every run of the programs is (up to the steps of the bodies, and the second step of
opening the count block) a run of `Verif/Model/LockTS.lean`, the bodies run one at a time, and so what each body does to
an invariant `J` when run among users of the lock is done in some order.
-/
namespace Verif.Lemmas
open Verif Verif.Model Verif.Lemmas.LockTS
open Verif.Model.LockTS (Pc St put next)
variable {α : Type} {E : Env}

/-! ## quiet schedules, in terms of the pending operations -/

/-- creation of a marker or a lock block of the lock -/
def DoorOp (name : Str) (o : Op) : Prop := ∃ n, o = .create (markerAddr name n) 1 ∨ o = .create (lockAddr name n) 1

/-- use of the count block -/
def CountOp (name : Str) (s : Store) (o : Op) : Prop :=
  ∃ i, s.names (countAddr name) = some i ∧ (o = .read i ∨ ∃ b, o = .write i b)

/-- about to make a marker or a lock block (or out of fuel) -/
def AtDoor (name : Str) (p : Prog α) : Prop := p = .stuck ∨ ∃ o k, p = .op o k ∧ DoorOp name o

/-- the step of program `i` disturbs no other program at its door -/
def CodeQuiet (name : Str) (ps : List (Prog α)) (s : Store) (i : Nat) : Prop :=
  ∀ j p, j ≠ i → ps[j]? = some p → AtDoor name p → ∀ o k, ps[i]? = some (.op o k) → ¬ DoorOp name o ∧ ¬ CountOp name s o

/-- a schedule none of whose steps disturbs a doorway -/
def CodeQuietRun (E : Env) (name : Str) : List Nat → List (Prog α) → Store → Prop
  | [], _, _ => True
  | i :: sched, ps, s => CodeQuiet name ps s i ∧ match ps[i]? with
    | none => CodeQuietRun E name sched ps s
    | some p => match p.step E s with
      | none => CodeQuietRun E name sched ps s
      | some (p', s') => CodeQuietRun E name sched (ps.set i p') s'

/-! ## the relation -/

def pcOf (phs : List (Ph α)) (i : Nat) : Pc := match phs[i]? with
  | some ph => ph.pc
  | none => .out

theorem pcOf_eq {phs : List (Ph α)} {i : Nat} {ph : Ph α} (h : phs[i]? = some ph) : pcOf phs i = ph.pc := by
  simp [pcOf, h]

theorem get_set {phs : List (Ph α)} {i : Nat} {ph : Ph α} (h : phs[i]? = some ph) (ph' : Ph α) (j : Nat) :
    (phs.set i ph')[j]? = if j = i then some ph' else phs[j]? := by
  obtain ⟨hi, _⟩ := List.getElem?_eq_some_iff.1 h
  rw [List.getElem?_set]
  by_cases hj : i = j
  · subst hj; simp [hi]
  · rw [if_neg hj, if_neg (fun e => hj e.symm)]

theorem pcOf_set {phs : List (Ph α)} {i : Nat} {ph : Ph α} (h : phs[i]? = some ph) (ph' : Ph α) :
    pcOf (phs.set i ph') = put (pcOf phs) i ph'.pc := by
  funext j
  simp only [pcOf, get_set h, put]
  by_cases hj : j = i
  · simp [hj]
  · simp [hj]

theorem put_same {κ β : Type} [DecidableEq κ] (f : κ → β) (k : κ) : put f k (f k) = f := by
  funext x; simp only [put]; split <;> simp_all

/-- what is known of the parameters of a phase of a call with the given body -/
def Ph.OK (bd : Prog α) : Ph α → Prop
  | .fresh fuel body => body = bd ∧ fuel + 256 ^ 5 < 256 ^ 8
  | .opening fuel body => body = bd ∧ fuel + 256 ^ 5 < 256 ^ 8
  | .reading fuel body _ => body = bd ∧ fuel + 256 ^ 5 < 256 ^ 8
  | .marking _ body _ _ fuel' k => body = bd ∧ k + fuel' < 256 ^ 8
  | .placing _ body _ _ n => body = bd ∧ n < 256 ^ 8
  | .scanning body _ _ n _ d => body = bd ∧ n < 256 ^ 8 ∧ 1 ≤ d
  | .away => False
  | _ => True

/-- the count block holds `c`, and all who hold it hold the same segment; or it has not been made -/
def CountOK (name : Str) (phs : List (Ph α)) (s : Store) (c : Nat) : Prop :=
  (∃ C, s.names (countAddr name) = some C ∧ s.segs C = toLE 5 c ∧ ∀ ph ∈ phs, ∀ x, ph.handle = some x → x = C) ∨
  (s.names (countAddr name) = none ∧ c = 0 ∧ ∀ ph ∈ phs, ph.isFresh = true)

/-- a history of completed critical sections: the calls and how their bodies ended, in order -/
abbrev Hist (κ α : Type) := List (κ × Except PyErr α)

/-- The parameters of the simulation: the lock, the blocks `X` that the bodies leave alone (those of the lock, and others),
the bodies of the calls, the client that makes each call, an invariant of the store between critical sections that
depends on the history, what the invariant says of the history alone, what a client with a given history of its own
may rely on outside the lock, of the bodies of the others, and what every client may rely on always, of all bodies. -/
structure Setup (E : Env) (κ α : Type) where
  name : Str
  namesOK : NamesOK E name
  X : Str → Prop
  lockX : ∀ x, lockNames name x → X x
  bodies : κ → Prog α
  who : κ → Nat
  adm : Hist κ α → Prop
  J : Hist κ α → Store → Prop
  stable : ∀ H s s', J H s → RLock X s s' → J H s'
  rel : Nat → Hist κ α → Store → Store → Prop
  rel_X : ∀ i h s s', RLock X s s' → rel i h s s'
  rel_trans : ∀ i h s s' s'', rel i h s s' → rel i h s' s'' → rel i h s s''
  ever : Store → Store → Prop
  ever_X : ∀ s s', RLock X s s' → ever s s'
  ever_trans : ∀ s s' s'', ever s s' → ever s' s'' → ever s s''
  body : ∀ c H s, s.WF → J H s → RG E (RLock X)
    (fun a b => GLock X a b ∧ (∀ j, j ≠ who c → rel j (H.filter fun x => who x.1 == j) a b) ∧ ever a b)
    (fun r s' => J (H ++ [(c, r)]) s') (bodies c) s
  adm_of : ∀ H s, J H s → adm H
  adm_prefix : ∀ H H', adm (H ++ H') → adm H

/-- the part of a history that is a client's -/
def Setup.restrict {κ : Type} (S : Setup E κ α) (i : Nat) (H : Hist κ α) : Hist κ α :=
  H.filter fun x => S.who x.1 == i

/-- what the body of the call `c`, after the history `H`, may do in one step -/
def Setup.G {κ : Type} (S : Setup E κ α) (c : κ) (H : Hist κ α) (a b : Store) : Prop :=
  GLock S.X a b ∧ (∀ j, j ≠ S.who c → S.rel j (S.restrict j H) a b) ∧ S.ever a b

theorem rg_mono {R R' G G' : Store → Store → Prop} {Q Q' : Except PyErr α → Store → Prop} (hR : ∀ a b, R' a b → R a b)
    (hG : ∀ a b, G a b → G' a b) (hQ : ∀ r s, Q r s → Q' r s) {p : Prog α} {s : Store} (h : RG E R G Q p s) :
    RG E R' G' Q' p s := by
  induction p generalizing s with
  | ret a => exact fun s' hr => hQ _ _ (h s' (hR _ _ hr))
  | raise e => exact fun s' hr => hQ _ _ (h s' (hR _ _ hr))
  | stuck => trivial
  | op o k ih => exact fun s' hr => ⟨hG _ _ (h s' (hR _ _ hr)).1, ih _ (h s' (hR _ _ hr)).2⟩

/-- bodies of which nothing is relied on outside the lock -/
theorem body_any {name_X : Str → Prop} {Q : Except PyErr α → Store → Prop} {p : Prog α} {s : Store} {w : Nat}
    (h : LRG E name_X Q p s) : RG E (RLock name_X) (fun a b => GLock name_X a b ∧ (∀ j, j ≠ w → True) ∧ True) Q p s :=
  rg_mono (fun _ _ h => h) (fun _ _ h => ⟨h, fun _ _ => trivial, trivial⟩) (fun _ _ h => h) h

/-- the entry of a phase in the history -/
def Ph.entry {κ : Type} (c : κ) (ph : Ph α) : Hist κ α := match ph.res with
  | some r => [(c, r)]
  | none => []

/-- the history, each client's current call, and each client's earlier calls -/
structure Ghost (κ α : Type) where
  H : Hist κ α
  lab : Nat → κ
  own : Nat → Hist κ α

/-- the programs and the store, and the state of the transition system -/
structure Sim {κ : Type} (S : Setup E κ α) (g : Ghost κ α) (phs : List (Ph α)) (s : Store) (σ : St Nat) : Prop where
  wf : s.WF
  pc : σ.pc = pcOf phs
  count : CountOK S.name phs s σ.count
  bound : σ.count < 256 ^ 5
  marker : ∀ n, (s.names (markerAddr S.name n)).isSome = σ.marker n
  lock : ∀ n, (s.names (lockAddr S.name n)).isSome = σ.lock n
  ok : ∀ (i : Nat) (ph : Ph α), phs[i]? = some ph → ph = .away ∨ ph.OK (S.bodies (g.lab i))
  who : ∀ (i : Nat) (ph : Ph α), phs[i]? = some ph → ph = .away ∨ S.who (g.lab i) = i
  adm : S.adm g.H
  hist : ∀ (i : Nat) (ph : Ph α), phs[i]? = some ph → S.restrict i g.H = g.own i ++ ph.entry (g.lab i)
  inside : ∀ i c n own p, phs[i]? = some (.inside c n own p) →
    RG E (RLock S.X) (S.G (g.lab i) g.H) (fun r s' => S.J (g.H ++ [(g.lab i, r)]) s') p s
  outside : (∀ (i : Nat) (ph : Ph α), phs[i]? = some ph → ph.isInside = false) → S.J g.H s

theorem inside_unique {ι : Type} [DecidableEq ι] {σ : St ι} (h : QInv σ) {i j : ι} {n m : Nat} {o p : Bool}
    (e : σ.pc i = .inside n o) (e' : σ.pc j = .inside m p) : i = j := by
  have h1 := h.rel i
  have h2 := h.rel j
  rw [e] at h1
  rw [e'] at h2
  have h1 : n = _ := h1
  have h2 : m = _ := h2
  exact h.uniq i j n (by rw [e]; rfl) (by rw [e', h2, ← h1]; rfl)

theorem isInside_of {ph : Ph α} (h : ph.isInside = true) :
    ∃ c n o p, ph = .inside c n o p := by
  cases ph <;> simp [Ph.isInside] at h
  exact ⟨_, _, _, _, rfl⟩

theorem countOK_mono {name : Str} {phs : List (Ph α)} {s s' : Store} {c : Nat} (h : CountOK name phs s c)
    (hs : s'.names (countAddr name) = s.names (countAddr name)) (hc : s'.content (countAddr name) = s.content (countAddr name)) :
    CountOK name phs s' c := by
  rcases h with ⟨C, h1, h2, h3⟩ | ⟨h1, h2⟩
  · refine Or.inl ⟨C, by rw [hs]; exact h1, ?_, h3⟩
    rw [content_some (hs.trans h1), content_some h1] at hc
    injection hc with hc
    rw [hc, h2]
  · exact Or.inr ⟨by rw [hs]; exact h1, h2⟩

theorem count_exists {name : Str} {phs : List (Ph α)} {s : Store} {c : Nat} (h : CountOK name phs s c) {i : Nat}
    {ph : Ph α} (hi : phs[i]? = some ph) (hf : ph.isFresh = false) :
    ∃ C, s.names (countAddr name) = some C ∧ s.segs C = toLE 5 c ∧ ∀ x, ph.handle = some x → x = C := by
  rcases h with ⟨C, h1, h2, h3⟩ | ⟨h1, h2, h3⟩
  · exact ⟨C, h1, h2, h3 ph (List.mem_of_getElem? hi)⟩
  · have := h3 ph (List.mem_of_getElem? hi)
    rw [hf] at this; simp at this

/-- the phases after a move that keeps the count block -/
theorem countOK_set {name : Str} {phs : List (Ph α)} {s : Store} {c : Nat} (h : CountOK name phs s c) {i : Nat}
    {ph ph' : Ph α} (hi : phs[i]? = some ph) {C : Nat} (hC : s.names (countAddr name) = some C)
    (hh : ∀ x, ph'.handle = some x → ph.handle = some x ∨ x = C) : CountOK name (phs.set i ph') s c := by
  rcases h with ⟨C', h1, h2, h3⟩ | ⟨h1, h2, h3⟩
  · have : C' = C := by rw [h1] at hC; injection hC
    subst this
    refine Or.inl ⟨C', h1, h2, fun q hq x hx => ?_⟩
    obtain ⟨j, hj⟩ := List.mem_iff_getElem?.1 hq
    rw [get_set hi] at hj
    split at hj
    · injection hj with hj
      subst hj
      rcases hh x hx with h4 | h4
      · exact h3 ph (List.mem_of_getElem? hi) x h4
      · exact h4
    · exact h3 q (List.mem_of_getElem? hj) x hx
  · rw [hC] at h1; simp at h1

variable {κ : Type} {S : Setup E κ α} {g : Ghost κ α} {phs : List (Ph α)} {s s' : Store} {σ : St Nat}

theorem RLock.toX (S : Setup E κ α) (hr : RLock (lockNames S.name) s s') : RLock S.X s s' :=
  ⟨hr.1, fun x hx => hr.2 x fun h => hx (S.lockX x h)⟩

/-- after a step of client `i` (`b`: of the body of its call): the blocks outside the lock that the bodies leave alone are
as they were, and the others find what they rely on -/
def Kept (S : Setup E κ α) (i : Nat) (b : Bool) (H : Hist κ α) (s s' : Store) : Prop :=
  SameOff (fun x => ¬ (S.X x ∧ ¬ lockNames S.name x)) s s' ∧ (∀ j, (j = i → b = false) → S.rel j (S.restrict j H) s s') ∧ S.ever s s'

theorem Kept.of_lock {S : Setup E κ α} {i : Nat} {b : Bool} {H : Hist κ α} (h : RLock (lockNames S.name) s s') :
    Kept S i b H s s' :=
  ⟨fun x hx => h.2 x (not_not.1 hx).2, fun _ _ => S.rel_X _ _ _ _ (h.toX S), S.ever_X _ _ (h.toX S)⟩
theorem Kept.refl {S : Setup E κ α} {i : Nat} {b : Bool} {H : Hist κ α} (w : s.WF) : Kept S i b H s s :=
  Kept.of_lock (RLock.refl w)
theorem Kept.of_body {S : Setup E κ α} {c : κ} {H : Hist κ α} (h : S.G c H s s') : Kept S (S.who c) true H s s' :=
  ⟨fun x hx => h.1 x fun hc => hc (not_not.1 hx).1, fun j hj => h.2.1 j fun e => Bool.noConfusion (hj e), h.2.2⟩

/-- a step of the lock itself, not into or out of the critical section -/
theorem Sim.move (h : Sim S g phs s σ) {i : Nat} {ph ph' : Ph α} (hi : phs[i]? = some ph)
    (hr0 : RLock (lockNames S.name) s s')
    (hni : ph.isInside = false) (hni' : ph'.isInside = false) (hd : ph'.res = ph.res)
    (hok : ph'.OK (S.bodies (g.lab i))) {c' : Nat} {mk lk : Nat → Bool} (hc : CountOK S.name (phs.set i ph') s' c')
    (hb : c' < 256 ^ 5) (hmk : ∀ n, (s'.names (markerAddr S.name n)).isSome = mk n)
    (hlk : ∀ n, (s'.names (lockAddr S.name n)).isSome = lk n) (hna : ph ≠ .away := by simp) :
    Sim S g (phs.set i ph') s' ⟨c', mk, lk, put σ.pc i ph'.pc⟩ ∧ Kept S i ph.isInside g.H s s' ∧ ph' ≠ .away := by
  have hr := hr0.toX S
  refine ⟨?_, Kept.of_lock hr0, fun e => by rw [e] at hok; exact hok⟩
  refine ⟨hr.1, ?_, hc, hb, hmk, hlk, ?_, ?_, h.adm, ?_, ?_, ?_⟩
  · rw [pcOf_set hi]; show put σ.pc _ _ = _; rw [h.pc]
  · intro j q hj
    rw [get_set hi] at hj
    split at hj
    · rename_i hji; injection hj with hj; subst hj; subst hji; exact Or.inr hok
    · exact h.ok j q hj
  · intro j q hj
    rw [get_set hi] at hj
    split at hj
    · rename_i hji; subst hji; exact Or.inr ((h.who j ph hi).resolve_left hna)
    · exact h.who j q hj
  · intro j q hj
    rw [get_set hi] at hj
    split at hj
    · rename_i hji; injection hj with hj; subst hj; subst hji
      rw [h.hist j ph hi, Ph.entry, Ph.entry, hd]
    · exact h.hist j q hj
  · intro j c n own p hj
    rw [get_set hi] at hj
    split at hj
    · injection hj with hj; subst hj; simp [Ph.isInside] at hni'
    · exact rg_rely RLock.trans (h.inside j c n own p hj) hr
  · intro hall
    refine S.stable _ _ _ (h.outside fun j q hj => ?_) hr
    by_cases hji : j = i
    · subst hji; rw [hi] at hj; injection hj with hj; rw [← hj]; exact hni
    · exact hall j q (by rw [get_set hi, if_neg hji]; exact hj)

/-- no one is in a doorway when an operation of a doorway or on the count block is performed -/
theorem nodoor (h : Sim S g phs s σ) {i : Nat} (hq : CodeQuiet S.name (phs.map (Ph.prog S.name)) s i) {ph : Ph α}
    (hi : phs[i]? = some ph) {o : Op} {k : Except PyErr o.Res → Prog α} (hp : ph.prog S.name = .op o k)
    (ho : DoorOp S.name o ∨ CountOp S.name s o) : Quiet σ i := by
  intro j hj hd
  exfalso
  rw [h.pc] at hd
  cases hj' : phs[j]? with
  | none => simp [pcOf, hj', inDoor] at hd
  | some q =>
    rw [pcOf_eq hj'] at hd
    have hat : AtDoor S.name (q.prog S.name) := by
      cases q with
      | marking fuel body c f fuel' k =>
        exact Or.inr ⟨_, _, prog_marking _ _ _ _ _ _ _, k, Or.inl rfl⟩
      | placing fuel body c f n => exact Or.inr ⟨_, _, prog_placing _ _ _ _ _ _, n, Or.inr rfl⟩
      | dead pc => exact Or.inl rfl
      | _ => simp [Ph.pc, inDoor] at hd
    have := hq j (q.prog S.name) hj (by simp [hj']) hat o k (by simp [hi, hp])
    rcases ho with ho | ho
    · exact this.1 ho
    · exact this.2 ho

theorem quiet_of_calm {i : Nat} (h : calm (σ.pc i) = true) : Quiet σ i := fun _ _ _ => h

theorem rlock_of_eff {name a : Str} {v : Option Bytes} (h : Eff s s' a v) (ha : lockNames name a) : RLock (lockNames name) s s' :=
  ⟨h.wf, h.sameOff ha⟩

theorem marker_eff {name a : Str} {v : Option Bytes} (h : Eff s s' a v) (n : Nat) :
    (s'.names (markerAddr name n)).isSome = if markerAddr name n = a then v.isSome else (s.names (markerAddr name n)).isSome := by
  have := h.content (markerAddr name n)
  split
  · rename_i e
    rw [if_pos e] at this
    cases v with
    | none => rw [content_none] at this; rw [this]; rfl
    | some b => obtain ⟨i, hi, _⟩ := names_of_content this; rw [hi]; rfl
  · rename_i e; rw [h.names _ e]

theorem lock_eff {name a : Str} {v : Option Bytes} (h : Eff s s' a v) (n : Nat) :
    (s'.names (lockAddr name n)).isSome = if lockAddr name n = a then v.isSome else (s.names (lockAddr name n)).isSome := by
  have := h.content (lockAddr name n)
  split
  · rename_i e
    rw [if_pos e] at this
    cases v with
    | none => rw [content_none] at this; rw [this]; rfl
    | some b => obtain ⟨i, hi, _⟩ := names_of_content this; rw [hi]; rfl
  · rename_i e; rw [h.names _ e]

theorem marker_ne_count (name : Str) (n : Nat) : markerAddr name n ≠ countAddr name := by
  rw [addr_marker, addr_count, Ne, addr_inj]; simp
theorem lock_ne_count (name : Str) (n : Nat) : lockAddr name n ≠ countAddr name := by
  rw [addr_lock, addr_count, Ne, addr_inj]; simp
theorem marker_ne_lock (name : Str) (m n : Nat) : markerAddr name m ≠ lockAddr name n := by
  rw [addr_marker, addr_lock, Ne, addr_inj]; simp
theorem marker_eq {name : Str} {m n : Nat} : markerAddr name m = markerAddr name n ↔ m = n := by
  rw [addr_marker, addr_marker, addr_inj]; simp
theorem lock_eq {name : Str} {m n : Nat} : lockAddr name m = lockAddr name n ↔ m = n := by
  rw [addr_lock, addr_lock, addr_inj]; simp

/-- a history goes on, with calls of client `i` only -/
def Grows (S : Setup E κ α) (i : Nat) (H H' : Hist κ α) : Prop :=
  H <+: H' ∧ ∀ j, j ≠ i → S.restrict j H' = S.restrict j H

theorem Grows.refl {S : Setup E κ α} {i : Nat} {H : Hist κ α} : Grows S i H H := ⟨List.prefix_refl _, fun _ _ => rfl⟩

theorem Grows.add {S : Setup E κ α} {i : Nat} {H : Hist κ α} {c : κ} {r : Except PyErr α} (h : S.who c = i) :
    Grows S i H (H ++ [(c, r)]) :=
  ⟨List.prefix_append _ _, fun j hj => by
    have : (i == j) = false := by simp; exact fun e => hj e.symm
    simp [Setup.restrict, h, this]⟩

/-- the same, and if it goes on then the invariant holds -/
def Grew (S : Setup E κ α) (i : Nat) (H H' : Hist κ α) (s' : Store) : Prop :=
  Grows S i H H' ∧ (H' = H ∨ S.J H' s')

theorem Grew.refl {S : Setup E κ α} {i : Nat} {H : Hist κ α} : Grew S i H H s' := ⟨Grows.refl, Or.inl rfl⟩

/-- a step of the body -/
theorem sim_inside (h : Sim S g phs s σ) (hq : QInv σ) {i c n : Nat} {own : Bool} {o : Op} {k : Except PyErr o.Res → Prog α}
    (hi : phs[i]? = some (.inside c n own (.op o k))) :
    Sim S { g with H := g.H } (phs.set i (.inside c n own (k (o.step E s).1))) (o.step E s).2 σ ∧
      Kept S i true g.H s (o.step E s).2 := by
  have hpc : σ.pc i = (Ph.inside c n own (.op o k)).pc := by rw [h.pc, pcOf_eq hi]
  obtain ⟨C, hC, hv, hCc⟩ := count_exists h.count hi rfl
  have hcC : c = C := hCc c rfl
  subst hcC
  have hrg := h.inside i c n own _ hi
  have hother : ∀ j c1 n1 o1 p1, j ≠ i → phs[j]? ≠ some (.inside c1 n1 o1 p1) := by
    intro j c1 n1 o1 p1 hji hj
    exact hji (inside_unique hq (i := j) (j := i) (by rw [h.pc, pcOf_eq hj]; rfl) (by rw [hpc]; rfl))
  obtain ⟨hG, hrg'⟩ := hrg s (RLock.refl h.wf)
  have hGG : S.G (g.lab i) g.H s (o.step E s).2 := hG
  have hG : GLock S.X s (o.step E s).2 := hGG.1
  have hwho : S.who (g.lab i) = i := (h.who i _ hi).resolve_left (by simp)
  have hname : ∀ x, lockNames S.name x → (o.step E s).2.names x = s.names x ∧
      (o.step E s).2.content x = s.content x := fun x hx => hG x (fun hc => hc (S.lockX x hx))
  have hcc := countOK_mono h.count (hname _ (lockNames_count _)).1 (hname _ (lockNames_count _)).2
  refine ⟨⟨step_wf E o s h.wf, ?_, countOK_set hcc hi
    (by rw [(hname _ (lockNames_count _)).1]; exact hC) (by simp [Ph.handle]), h.bound, fun m => ?_, fun m => ?_,
    ?_, ?_, h.adm, ?_, ?_, ?_⟩, hwho ▸ Kept.of_body hGG⟩
  · rw [pcOf_set hi, ← h.pc, show (Ph.inside c n own (k (o.step E s).1)).pc = σ.pc i from by rw [hpc]; rfl, put_same]
  · rw [(hname _ (lockNames_marker _ _)).1]; exact h.marker m
  · rw [(hname _ (lockNames_lock _ _)).1]; exact h.lock m
  · intro j q hj
    rw [get_set hi] at hj
    split at hj
    · injection hj with hj; subst hj; exact Or.inr trivial
    · exact h.ok j q hj
  · intro j q hj
    rw [get_set hi] at hj
    split at hj
    · rename_i hji; subst hji; exact Or.inr ((h.who j _ hi).resolve_left (by simp))
    · exact h.who j q hj
  · intro j q hj
    rw [get_set hi] at hj
    split at hj
    · rename_i hji; injection hj with hj; subst hj; subst hji
      have := h.hist j _ hi
      exact this
    · exact h.hist j q hj
  · intro j c1 n1 o1 p1 hj
    rw [get_set hi] at hj
    split at hj
    · rename_i hji
      subst hji
      injection hj with hj
      injection hj with h1 h2 h3 h4
      rw [← h4]
      exact hrg'
    · rename_i hji; exact absurd hj (hother j _ _ _ _ hji)
  · intro hall
    have := hall i (.inside c n own (k (o.step E s).1)) (by rw [get_set hi, if_pos rfl])
    simp [Ph.isInside] at this

theorem sim_step (h : Sim S g phs s σ) (hq : QInv σ) {i : Nat} {ph : Ph α} (hi : phs[i]? = some ph)
    (hcq : CodeQuiet S.name (phs.map (Ph.prog S.name)) s i) {p' : Prog α}
    (hst : (ph.prog S.name).step E s = some (p', s')) :
    ∃ ph' H' σ', p' = ph'.prog S.name ∧ (Sim S { g with H := H' } (phs.set i ph') s' σ' ∧ Kept S i ph.isInside g.H s s' ∧ ph' ≠ .away) ∧ QInv σ' ∧ Grew S i g.H H' s' := by
  have hpc : σ.pc i = ph.pc := by rw [h.pc, pcOf_eq hi]
  have hok := (h.ok i ph hi).resolve_left fun e => by subst e; simp [Ph.prog, Prog.step] at hst
  have hN := S.namesOK
  have hpow : (256 : Nat) ^ 5 < 256 ^ 8 := by decide
  have stay : ∀ ph' : Ph α, ph'.pc = ph.pc → (⟨σ.count, σ.marker, σ.lock, put σ.pc i ph'.pc⟩ : St Nat) = σ :=
    fun ph' e => by rw [e, ← hpc, put_same]
  cases ph with
  | fresh fuel body =>
    rw [prog_fresh] at hst
    cases hn : s.names (countAddr S.name) with
    | some C =>
      have e : (Op.create (countAddr S.name) 5).step E s = (.error .fileExists, s) := by
        simp [Op.step, hN.count, hn]
      simp only [Prog.step, e, Option.some.injEq, Prod.mk.injEq] at hst
      obtain ⟨rfl, rfl⟩ := hst
      refine ⟨.opening fuel body, g.H, _, rfl, h.move hi (ph' := .opening fuel body) (RLock.refl h.wf) rfl rfl rfl hok
        (countOK_set h.count hi hn (by simp [Ph.handle])) h.bound h.marker h.lock, ?_, Grew.refl⟩
      rw [stay (.opening fuel body) rfl]; exact hq
    | none =>
      have e : (Op.create (countAddr S.name) 5).step E s = (.ok s.next, s.created (countAddr S.name) 5) := by
        simp [Op.step, hN.count, hn, Store.created]
      simp only [Prog.step, e, Option.some.injEq, Prod.mk.injEq] at hst
      obtain ⟨rfl, rfl⟩ := hst
      have f := eff_created h.wf (countAddr S.name) 5
      have hq' := qinv_next hq (i := i) (quiet_of_calm (by rw [hpc]; rfl))
      simp only [next, hpc, Ph.pc] at hq'
      refine ⟨.reading fuel body s.next, g.H, _, rfl, h.move hi (ph' := .reading fuel body s.next) (rlock_of_eff f (lockNames_count _)) rfl rfl rfl hok
        ?_ h.bound (fun n => ?_) (fun n => ?_), hq', Grew.refl⟩
      · rcases h.count with ⟨C, h1, _⟩ | ⟨h1, h2, h3⟩
        · rw [hn] at h1; simp at h1
        · refine Or.inl ⟨s.next, by simp, ?_, fun q hq x hx => ?_⟩
          · rw [h2]; simp [Store.created]; decide
          · obtain ⟨j, hj⟩ := List.mem_iff_getElem?.1 hq
            rw [get_set hi] at hj
            split at hj
            · injection hj with hj; subst hj; simp [Ph.handle] at hx; exact hx.symm
            · have := h3 q (List.mem_of_getElem? hj)
              cases q <;> simp [Ph.isFresh, Ph.handle] at this hx
      · rw [marker_eff f, if_neg (marker_ne_count _ _)]; exact h.marker n
      · rw [lock_eff f, if_neg (lock_ne_count _ _)]; exact h.lock n
  | opening fuel body =>
    rw [prog_opening] at hst
    obtain ⟨C, hn, _, _⟩ := count_exists h.count hi rfl
    have e : (Op.attach (countAddr S.name)).step E s = (.ok C, s) := by simp [Op.step, hN.count, hn]
    simp only [Prog.step, e, Option.some.injEq, Prod.mk.injEq] at hst
    obtain ⟨rfl, rfl⟩ := hst
    have hq' := qinv_next hq (i := i) (quiet_of_calm (by rw [hpc]; rfl))
    simp only [next, hpc, Ph.pc] at hq'
    exact ⟨.reading fuel body C, g.H, _, rfl, h.move hi (ph' := .reading fuel body C) (RLock.refl h.wf) rfl rfl rfl hok
      (countOK_set h.count hi hn (by simp [Ph.handle])) h.bound h.marker h.lock, hq', Grew.refl⟩
  | reading fuel body c =>
    have hp := prog_reading S.name fuel body c
    obtain ⟨C, hn, hv, hC⟩ := count_exists h.count hi rfl
    have hc : c = C := hC c rfl
    subst hc
    have hquiet := nodoor h hcq hi hp (Or.inr ⟨c, hn, Or.inl rfl⟩)
    rw [hp] at hst
    have e : (Op.read c).step E s = (.ok (toLE 5 σ.count), s) := by simp [Op.step, hv]
    simp only [Prog.step, e, Option.some.injEq, Prod.mk.injEq] at hst
    rw [fromLE_toLE _ _ h.bound] at hst
    obtain ⟨rfl, rfl⟩ := hst
    have hq' := qinv_next hq hquiet
    simp only [next, hpc, Ph.pc] at hq'
    have hpc' : (afterMark fuel body c σ.count fuel (σ.count + 1)).pc = .marking σ.count (σ.count + 1) := by
      cases fuel <;> rfl
    have hb := h.bound
    rw [← hpc'] at hq'
    refine ⟨_, g.H, _, rfl, h.move hi (RLock.refl h.wf) rfl (by cases fuel <;> rfl) (by cases fuel <;> rfl) ?_
      (countOK_set h.count hi hn ?_) h.bound h.marker h.lock, hq', Grew.refl⟩
    · cases fuel with
      | zero => trivial
      | succ g => exact ⟨hok.1, by have := hok.2; omega⟩
    · cases fuel with
      | zero => simp [afterMark, Ph.handle]
      | succ g => simp [afterMark, Ph.handle]
  | marking fuel body c f fuel' k =>
    have hp := prog_marking S.name fuel body c f fuel' k
    obtain ⟨C, hC, _, _⟩ := count_exists h.count hi rfl
    have hquiet := nodoor h hcq hi hp (Or.inl ⟨k, Or.inl rfl⟩)
    rw [hp] at hst
    obtain ⟨hbody, hk⟩ := hok
    have hokn := hN.marker k (by omega)
    have hq' := qinv_next hq hquiet
    have hmk := h.marker k
    cases hn : s.names (markerAddr S.name k) with
    | some x =>
      rw [hn] at hmk
      have hmk : σ.marker k = true := hmk.symm
      have e : (Op.create (markerAddr S.name k) 1).step E s = (.error .fileExists, s) := by
        simp [Op.step, hokn, hn]
      simp only [Prog.step, e, Option.some.injEq, Prod.mk.injEq] at hst
      obtain ⟨rfl, rfl⟩ := hst
      simp only [next, hpc, Ph.pc, hmk, if_true] at hq'
      have hpc' : (afterMark fuel body c f fuel' (k + 1)).pc = .marking f (k + 1) := by cases fuel' <;> rfl
      rw [← hpc'] at hq'
      refine ⟨_, g.H, _, rfl, h.move hi (RLock.refl h.wf) rfl (by cases fuel' <;> rfl) (by cases fuel' <;> rfl) ?_
        (countOK_set h.count hi hC ?_) h.bound h.marker h.lock, hq', Grew.refl⟩
      · cases fuel' with
        | zero => trivial
        | succ g => exact ⟨hbody, by omega⟩
      · cases fuel' with
        | zero => simp [afterMark, Ph.handle]
        | succ g => simp [afterMark, Ph.handle]
    | none =>
      rw [hn] at hmk
      have hmk : σ.marker k = false := hmk.symm
      have e : (Op.create (markerAddr S.name k) 1).step E s = (.ok s.next, s.created (markerAddr S.name k) 1) := by
        simp [Op.step, hokn, hn, Store.created]
      simp only [Prog.step, e, Option.some.injEq, Prod.mk.injEq] at hst
      obtain ⟨rfl, rfl⟩ := hst
      simp only [next, hpc, Ph.pc, hmk, Bool.false_eq_true, if_false] at hq'
      have f1 := eff_created h.wf (markerAddr S.name k) 1
      have hcc := countOK_mono h.count (f1.names _ (marker_ne_count _ _).symm)
        (by rw [f1.content, if_neg (marker_ne_count _ _).symm])
      refine ⟨.placing fuel body c f k, g.H, _, rfl, h.move hi (ph' := .placing fuel body c f k) (rlock_of_eff f1 (lockNames_marker _ _)) rfl rfl rfl
        ⟨hbody, by omega⟩ (countOK_set hcc hi (by rw [f1.names _ (marker_ne_count _ _).symm]; exact hC)
          (by simp [Ph.handle])) h.bound (fun n => ?_) (fun n => ?_), hq', Grew.refl⟩
      · rw [marker_eff f1]
        simp only [marker_eq, put]
        split
        · rfl
        · exact h.marker n
      · rw [lock_eff f1, if_neg (marker_ne_lock _ _ _).symm]; exact h.lock n
  | placing fuel body c f n =>
    have hp := prog_placing S.name fuel body c f n
    obtain ⟨C, hC, _, _⟩ := count_exists h.count hi rfl
    have hquiet := nodoor h hcq hi hp (Or.inl ⟨n, Or.inr rfl⟩)
    rw [hp] at hst
    obtain ⟨hbody, hk⟩ := hok
    have hokn := hN.lock n hk
    have hq' := qinv_next hq hquiet
    have hlk := h.lock n
    cases hn : s.names (lockAddr S.name n) with
    | some x =>
      rw [hn] at hlk
      have hlk : σ.lock n = true := hlk.symm
      simp only [next, hpc, Ph.pc, hlk, if_true] at hq'
      have := hq'.ok i
      simp [put, PcOK] at this
    | none =>
      rw [hn] at hlk
      have hlk : σ.lock n = false := hlk.symm
      have e : (Op.create (lockAddr S.name n) 1).step E s = (.ok s.next, s.created (lockAddr S.name n) 1) := by
        simp [Op.step, hokn, hn, Store.created]
      simp only [Prog.step, e, Option.some.injEq, Prod.mk.injEq] at hst
      obtain ⟨rfl, rfl⟩ := hst
      simp only [next, hpc, Ph.pc, hlk, Bool.false_eq_true, if_false] at hq'
      have hfn : f < n := by
        have := hq.ok i
        rw [hpc] at this
        exact this
      have f1 := eff_created h.wf (lockAddr S.name n) 1
      have hcc := countOK_mono h.count (f1.names _ (lock_ne_count _ _).symm)
        (by rw [f1.content, if_neg (lock_ne_count _ _).symm])
      have hpc' : (afterScan body c f n fuel).pc = .scanning f n (n - f) := by cases fuel <;> rfl
      rw [← hpc'] at hq'
      refine ⟨_, g.H, _, rfl, h.move hi (rlock_of_eff f1 (lockNames_lock _ _)) rfl (by cases fuel <;> rfl)
        (by cases fuel <;> rfl) ?_ (countOK_set hcc hi (by rw [f1.names _ (lock_ne_count _ _).symm]; exact hC)
          ?_) h.bound (fun m => ?_) (fun m => ?_), hq', Grew.refl⟩
      · cases fuel with
        | zero => trivial
        | succ g => exact ⟨hbody, hk, by omega⟩
      · cases fuel with
        | zero => simp [afterScan, Ph.handle]
        | succ g => simp [afterScan, Ph.handle]
      · rw [marker_eff f1, if_neg (marker_ne_lock _ _ _)]; exact h.marker m
      · rw [lock_eff f1]
        simp only [lock_eq, put]
        split
        · rfl
        · exact h.lock m
  | scanning body c f n fuel' d =>
    obtain ⟨hbody, hnb, hd1⟩ := hok
    obtain ⟨d, rfl⟩ : ∃ d', d = d' + 1 := ⟨d - 1, by omega⟩
    obtain ⟨C, hC, _, hCc⟩ := count_exists h.count hi rfl
    have hcC : c = C := hCc c rfl
    subst hcC
    rw [prog_scanning] at hst
    have hpcok := hq.ok i
    rw [hpc] at hpcok
    obtain ⟨hfn, _, hdn⟩ := hpcok
    have hokn := hN.lock (f + d) (by omega)
    have hq' := qinv_next hq (i := i) (quiet_of_calm (by rw [hpc]; rfl))
    have hlk := h.lock (f + d)
    cases hn : s.names (lockAddr S.name (f + d)) with
    | some x =>
      rw [hn] at hlk
      have hlk : σ.lock (f + (d + 1 - 1)) = true := hlk.symm
      have e : (Op.attach (lockAddr S.name (f + d))).step E s = (.ok x, s) := by simp [Op.step, hokn, hn]
      simp only [Prog.step, e, Option.some.injEq, Prod.mk.injEq] at hst
      obtain ⟨rfl, rfl⟩ := hst
      simp only [next, hpc, Ph.pc, hlk, if_true] at hq'
      have hpc' : (afterScan body c f n fuel').pc = .scanning f n (n - f) := by cases fuel' <;> rfl
      rw [← hpc'] at hq'
      refine ⟨_, g.H, _, rfl, h.move hi (RLock.refl h.wf) rfl (by cases fuel' <;> rfl) (by cases fuel' <;> rfl) ?_
        (countOK_set h.count hi hC ?_) h.bound h.marker h.lock, hq', Grew.refl⟩
      · cases fuel' with
        | zero => trivial
        | succ g => exact ⟨hbody, hnb, by omega⟩
      · cases fuel' with
        | zero => simp [afterScan, Ph.handle]
        | succ g => simp [afterScan, Ph.handle]
    | none =>
      rw [hn] at hlk
      have hlk : σ.lock (f + (d + 1 - 1)) = false := hlk.symm
      have e : (Op.attach (lockAddr S.name (f + d))).step E s = (.error .fileNotFound, s) := by
        simp [Op.step, hokn, hn]
      simp only [Prog.step, e, Option.some.injEq, Prod.mk.injEq] at hst
      obtain ⟨rfl, rfl⟩ := hst
      by_cases hd0 : d = 0
      · -- enters
        simp only [next, hpc, Ph.pc, hlk, Bool.false_eq_true, if_false] at hq'
        rw [if_pos (by omega)] at hq'
        rw [if_pos hd0]
        refine ⟨.inside c n true body, g.H, _, rfl, ⟨?_, Kept.refl h.wf, by simp⟩, hq', Grew.refl⟩
        have hno : ∀ (j : Nat) (q : Ph α), phs[j]? = some q → q.isInside = false := by
          intro j q hj
          by_contra hc
          obtain ⟨c1, n1, o1, p1, rfl⟩ := isInside_of (by simpa using hc)
          have hji : j ≠ i := fun e => by subst e; rw [hi] at hj; simp at hj
          have e1 : put σ.pc i (.inside n true) j = .inside n1 o1 := by
            rw [put_ne _ _ hji, h.pc, pcOf_eq hj]; rfl
          have e2 : put σ.pc i (.inside n true) i = .inside n true := put_self _ _ _
          exact hji (inside_unique hq' e1 e2)
        have hJ := h.outside hno
        refine ⟨h.wf, by rw [pcOf_set hi, ← h.pc]; rfl, countOK_set h.count hi hC (by simp [Ph.handle]), h.bound,
          h.marker, h.lock, ?_, ?_, h.adm, ?_, ?_, ?_⟩
        · intro j q hj
          rw [get_set hi] at hj
          split at hj
          · injection hj with hj; subst hj; exact Or.inr trivial
          · exact h.ok j q hj
        · intro j q hj
          rw [get_set hi] at hj
          split at hj
          · rename_i hji; subst hji; exact Or.inr ((h.who j _ hi).resolve_left (by simp))
          · exact h.who j q hj
        · intro j q hj
          rw [get_set hi] at hj
          split at hj
          · rename_i hji; injection hj with hj; subst hj; subst hji
            have := h.hist j _ hi
            exact this
          · exact h.hist j q hj
        · intro j c1 n1 o1 p1 hj
          rw [get_set hi] at hj
          split at hj
          · rename_i hji
            subst hji
            injection hj with hj
            injection hj with h1 h2 h3 h4
            rw [← h4, hbody]
            exact S.body _ _ s h.wf hJ
          · have := hno j _ hj
            simp [Ph.isInside] at this
        · intro hall
          have := hall i (.inside c n true body) (by rw [get_set hi, if_pos rfl])
          simp [Ph.isInside] at this
      · simp only [next, hpc, Ph.pc, hlk, Bool.false_eq_true, if_false] at hq'
        rw [if_neg (by omega)] at hq'
        rw [if_neg hd0]
        exact ⟨.scanning body c f n fuel' d, g.H, _, rfl, h.move hi (ph' := .scanning body c f n fuel' d) (RLock.refl h.wf) rfl rfl rfl
          ⟨hbody, hnb, by omega⟩ (countOK_set h.count hi hC (by simp [Ph.handle])) h.bound h.marker h.lock, hq', Grew.refl⟩
  | inside c n own p =>
    obtain ⟨C, hC, hv, hCc⟩ := count_exists h.count hi rfl
    have hcC : c = C := hCc c rfl
    subst hcC
    have hrg := h.inside i c n own p hi
    have hother : ∀ j c1 n1 o1 p1, j ≠ i → phs[j]? ≠ some (.inside c1 n1 o1 p1) := by
      intro j c1 n1 o1 p1 hji hj
      exact hji (inside_unique hq (i := j) (j := i) (by rw [h.pc, pcOf_eq hj]; rfl) (by rw [hpc]; rfl))
    -- the end of the body
    have leave : ∀ r, (Ph.inside c n own p).prog S.name = leaveP S.name ⟨c, n, own⟩ r →
        S.J (g.H ++ [(g.lab i, r)]) s →
        ∃ ph' H' σ', p' = ph'.prog S.name ∧ (Sim S { g with H := H' } (phs.set i ph') s' σ' ∧ Kept S i true g.H s s' ∧ ph' ≠ .away) ∧ QInv σ' ∧ Grew S i g.H H' s' := by
      intro r hp hJ
      rw [hp] at hst
      by_cases hn : n < 256 ^ 5
      · rw [leave_shape S.name c n own r hn] at hp hst
        have hquiet := nodoor h hcq hi hp (Or.inr ⟨c, hC, Or.inr ⟨_, rfl⟩⟩)
        have e : (Op.write c (toLE 5 n)).step E s = (.ok (), s.wrote c (toLE 5 n)) := by
          simp only [Op.step]; rw [if_pos (by rw [hv]; simp)]; rfl
        simp only [Prog.step, e, Option.some.injEq, Prod.mk.injEq] at hst
        obtain ⟨rfl, rfl⟩ := hst
        have hq' := qinv_next hq hquiet
        simp only [next, hpc, Ph.pc] at hq'
        have f1 := eff_wrote h.wf hC (toLE 5 n)
        have hr := rlock_of_eff f1 (lockNames_count _)
        generalize hph : (if own = true then Ph.unlocking n r else Ph.unmarking n r : Ph α) = ph'
        have hpc' : ph'.pc = if own = true then .unlocking n else .unmarking n := by
          rw [← hph]; cases own <;> rfl
        have hdn : ph'.res = some r := by rw [← hph]; cases own <;> rfl
        have hin : ph'.isInside = false := by rw [← hph]; cases own <;> rfl
        rw [← hpc'] at hq'
        have hwho : S.who (g.lab i) = i := (h.who i _ hi).resolve_left (by simp)
        refine ⟨ph', g.H ++ [(g.lab i, r)], _, rfl, ⟨⟨f1.wf, by rw [pcOf_set hi, ← h.pc], ?_, hn, fun m => ?_, fun m => ?_, ?_, ?_,
          S.adm_of _ _ hJ, ?_, ?_, ?_⟩, Kept.of_lock hr, by rw [← hph]; cases own <;> simp⟩, hq', ⟨Grows.add hwho, Or.inr (S.stable _ _ _ hJ (hr.toX S))⟩⟩
        · rcases h.count with ⟨C', h1, h2, h3⟩ | ⟨h1, _⟩
          · have : C' = c := by rw [h1] at hC; injection hC
            subst this
            refine Or.inl ⟨C', h1, by simp [Store.wrote], fun q hq x hx => ?_⟩
            obtain ⟨j, hj⟩ := List.mem_iff_getElem?.1 hq
            rw [get_set hi] at hj
            split at hj
            · injection hj with hj; subst hj; rw [← hph] at hx; cases own <;> simp [Ph.handle] at hx
            · exact h3 q (List.mem_of_getElem? hj) x hx
          · rw [hC] at h1; simp at h1
        · rw [marker_eff f1, if_neg (marker_ne_count _ _)]; exact h.marker m
        · rw [lock_eff f1, if_neg (lock_ne_count _ _)]; exact h.lock m
        · intro j q hj
          rw [get_set hi] at hj
          split at hj
          · rename_i hji
            injection hj with hj
            subst hj; subst hji; rw [← hph]
            cases own <;> exact Or.inr trivial
          · exact h.ok j q hj
        · intro j q hj
          rw [get_set hi] at hj
          split at hj
          · rename_i hji; subst hji; exact Or.inr hwho
          · exact h.who j q hj
        · intro j q hj
          rw [get_set hi] at hj
          show S.restrict j (g.H ++ [(g.lab i, r)]) = g.own j ++ q.entry (g.lab j)
          rw [Setup.restrict, List.filter_append]
          split at hj
          · rename_i hji; injection hj with hj; subst hj; subst hji
            have := h.hist j _ hi
            rw [Setup.restrict] at this
            rw [this, Ph.entry, Ph.entry, hdn]
            simp [Ph.res, hwho]
          · rename_i hji
            have := h.hist j q hj
            rw [Setup.restrict] at this
            rw [this]
            have hne : (i == j) = false := by simp; exact fun e => hji e.symm
            simp [hwho, hne]
        · intro j c1 n1 o1 p1 hj
          rw [get_set hi] at hj
          split at hj
          · injection hj with hj; rw [hj] at hin; simp [Ph.isInside] at hin
          · rename_i hji; exact absurd hj (hother j _ _ _ _ hji)
        · intro _
          exact S.stable _ _ _ hJ (hr.toX S)
      · rw [leave_overflow S.name c n own r hn] at hst
        simp [Prog.step] at hst
    cases p with
    | ret a => exact leave _ (prog_inside_ret S.name c n own a) (hrg s (RLock.refl h.wf))
    | raise e => exact leave _ (prog_inside_raise S.name c n own e) (hrg s (RLock.refl h.wf))
    | stuck => rw [prog_inside_stuck] at hst; simp [Prog.step] at hst
    | op o k =>
      rw [prog_inside_op] at hst
      simp only [Prog.step, Option.some.injEq, Prod.mk.injEq] at hst
      obtain ⟨rfl, rfl⟩ := hst
      obtain ⟨e1, e2⟩ := sim_inside h hq hi
      exact ⟨_, g.H, σ, rfl, ⟨e1, e2, by simp⟩, hq, Grew.refl⟩
  | unlocking n r =>
    obtain ⟨C, hC, _, _⟩ := count_exists h.count hi rfl
    rw [prog_unlocking] at hst
    have hq' := qinv_next hq (i := i) (quiet_of_calm (by rw [hpc]; rfl))
    simp only [next, hpc, Ph.pc] at hq'
    have hl : σ.lock n = true := (hq.lock n).2 ⟨i, by rw [hpc]; rfl⟩
    rw [← h.lock n, Option.isSome_iff_exists] at hl
    obtain ⟨x, hx⟩ := hl
    have e : (Op.unlink (lockAddr S.name n)).step E s = (.ok (), s.unlinked (lockAddr S.name n)) := by
      simp [Op.step, hx, Store.unlinked]
    simp only [Prog.step, e, Option.some.injEq, Prod.mk.injEq] at hst
    obtain ⟨rfl, rfl⟩ := hst
    have f1 := eff_unlinked h.wf (lockAddr S.name n)
    have hcc := countOK_mono h.count (f1.names _ (lock_ne_count _ _).symm)
      (by rw [f1.content, if_neg (lock_ne_count _ _).symm])
    refine ⟨.unmarking n r, g.H, _, rfl, h.move hi (ph' := .unmarking n r) (rlock_of_eff f1 (lockNames_lock _ _)) rfl rfl rfl hok
      (countOK_set hcc hi (by rw [f1.names _ (lock_ne_count _ _).symm]; exact hC) (by simp [Ph.handle])) h.bound
      (fun m => ?_) (fun m => ?_), hq', Grew.refl⟩
    · rw [marker_eff f1, if_neg (marker_ne_lock _ _ _)]; exact h.marker m
    · rw [lock_eff f1]
      simp only [lock_eq, put]
      split
      · rfl
      · exact h.lock m
  | unmarking n r =>
    obtain ⟨C, hC, _, _⟩ := count_exists h.count hi rfl
    rw [prog_unmarking] at hst
    have hq' := qinv_next hq (i := i) (quiet_of_calm (by rw [hpc]; rfl))
    simp only [next, hpc, Ph.pc] at hq'
    have hl : σ.marker n = true := (hq.marker n).2 ⟨i, by rw [hpc]; rfl⟩
    rw [← h.marker n, Option.isSome_iff_exists] at hl
    obtain ⟨x, hx⟩ := hl
    have e : (Op.unlink (markerAddr S.name n)).step E s = (.ok (), s.unlinked (markerAddr S.name n)) := by
      simp [Op.step, hx, Store.unlinked]
    simp only [Prog.step, e, Option.some.injEq, Prod.mk.injEq] at hst
    obtain ⟨rfl, rfl⟩ := hst
    have f1 := eff_unlinked h.wf (markerAddr S.name n)
    have hcc := countOK_mono h.count (f1.names _ (marker_ne_count _ _).symm)
      (by rw [f1.content, if_neg (marker_ne_count _ _).symm])
    refine ⟨.ended r, g.H, _, rfl, h.move hi (ph' := .ended r) (rlock_of_eff f1 (lockNames_marker _ _)) rfl rfl rfl hok
      (countOK_set hcc hi (by rw [f1.names _ (marker_ne_count _ _).symm]; exact hC) (by simp [Ph.handle])) h.bound
      (fun m => ?_) (fun m => ?_), hq', Grew.refl⟩
    · rw [marker_eff f1]
      simp only [marker_eq, put]
      split
      · rfl
      · exact h.marker m
    · rw [lock_eff f1, if_neg (marker_ne_lock _ _ _).symm]; exact h.lock m
  | ended r => cases r <;> simp [Ph.prog, Prog.ofExcept, Prog.step] at hst
  | dead pc => simp [Ph.prog, Prog.step] at hst
  | away => simp [Ph.prog, Prog.step] at hst

end Verif.Lemmas
