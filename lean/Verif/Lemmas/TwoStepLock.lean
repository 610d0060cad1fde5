import Verif.Lemmas.LockClients
import Verif.Lemmas.TwoStep
/-!
# Clients of a lock do not notice that creation takes two steps

When no doorway is disturbed, the bodies run one at a time, so that no body opens a block that another is creating; the
lock itself opens only its count block, which is there, and looks for lock blocks with `exists_block`.
-/
namespace Verif.Lemmas
open Verif Verif.Model Verif.Spec Verif.Lemmas.LockTS
open Verif.Model.LockTS (Pc St put next)
variable {κ α β ρ : Type} {E : Env}

/-- the names that clients may open as they like: not those of markers and lock blocks -/
def Openable (name : Str) (n : Str) : Prop := n = countAddr name ∨ ¬ lockNames name n

/-- everything but the count block may be unlinked -/
def NotCount (name : Str) (n : Str) : Prop := n ≠ countAddr name

section rules
variable {A U : Str → Prop} {K : Nat → Prop}

theorem keeps_handles {Q : (Nat → Prop) → α → Prop} {p : Prog α} (h : Keeps A U Q K p) : Handles K p := by
  induction p generalizing K with
  | ret a => trivial
  | raise e => trivial
  | stuck => trivial
  | op o k ih =>
    cases o with
    | create n z => exact fun r => ih r (h r)
    | attach n => exact ⟨.inl trivial, fun r => ih r (h.2 r)⟩
    | unlink n => exact ⟨trivial, fun r => ih r (h.2 r)⟩
    | read n => exact ⟨h.1, fun r => ih r (h.2 r)⟩
    | write n b => exact ⟨h.1, fun r => ih r (h.2 r)⟩
    | writeFront n b => exact ⟨h.1, fun r => ih r (h.2 r)⟩

theorem keeps_openBlock {a : Str} {z : Nat} (hA : A a) (c o : Bool) (hU : o = true → U a) :
    Keeps A U (fun K' h => K' h ∧ ∀ x, K x → K' x) K (openBlock a z c o) := by
  have fin : ∀ (K' : Nat → Prop) (r : Except PyErr Nat), (∀ x, K x → K' x) →
      Keeps A U (fun K' h => K' h ∧ ∀ x, K x → K' x) (fun x => K' x ∨ r = .ok x) (Prog.ofExcept r) := by
    intro K' r hK
    cases r with
    | ok h => exact ⟨.inr rfl, fun x hx => .inl (hK x hx)⟩
    | error e => trivial
  have att : ∀ (K' : Nat → Prop), (∀ x, K x → K' x) → Keeps A U (fun K' h => K' h ∧ ∀ x, K x → K' x) K' (attach a) :=
    fun K' hK => ⟨.inl hA, fun r => by
      have := fin K' r hK
      cases r <;> exact this⟩
  have after : ∀ (K' : Nat → Prop) (r : Except PyErr Nat), (∀ x, K x → K' x) →
      Keeps A U (fun K' h => K' h ∧ ∀ x, K x → K' x) (fun x => K' x ∨ r = .ok x) (match (generalizing := false) r with
        | .ok h => (pure h : Prog Nat)
        | .error .fileExists => if o = false then attach a else do
            let _ ← attach a
            unlink a
            create a z
        | .error e => .raise e) := by
    intro K' r hK
    cases r with
    | ok h => exact ⟨.inr rfl, fun x hx => .inl (hK x hx)⟩
    | error e =>
      cases e
      case fileExists =>
        cases o with
        | false => exact att _ fun x hx => .inl (hK x hx)
        | true =>
          refine ⟨.inl hA, fun r => ?_⟩
          cases r with
          | error e => trivial
          | ok i =>
            refine ⟨hU rfl, fun r => ?_⟩
            cases r with
            | error e => trivial
            | ok u =>
              intro r
              cases r with
              | ok h => exact ⟨.inr rfl, fun x hx => .inl (.inl (.inl (hK x hx)))⟩
              | error e => trivial
      all_goals trivial
  cases c with
  | true => 
    intro r
    have := after K r fun _ h => h
    cases r with
    | ok h => exact this
    | error e => exact this
  | false =>
    refine ⟨.inl hA, fun r => ?_⟩
    have := after K r fun _ h => h
    cases r with
    | ok h => exact this
    | error e => exact this

theorem keeps_existsBlock (a : Str) : Keeps A U (fun K' _ => ∀ x, K x → K' x) K (existsBlock a) := by
  refine ⟨.inr fun i => rfl, fun r => ?_⟩
  cases r with
  | ok h => exact fun x hx => .inl hx
  | error e =>
    cases e
    case fileNotFound => exact fun x hx => .inl hx
    case valueError => exact fun x hx => .inl hx
    all_goals trivial

theorem keeps_scanLocks (name : Str) (f d : Nat) : Keeps A U (fun K' _ => ∀ x, K x → K' x) K (scanLocks name f d) := by
  induction d generalizing K with
  | zero => exact fun x hx => hx
  | succ d ih =>
    refine keeps_bind (keeps_existsBlock (K := K) _) fun K' b _ hK => ?_
    cases b with
    | true => exact hK
    | false => exact keeps_mono (fun _ _ _ h1 h2 x hx => h1 x (h2 x (hK x hx))) (fun _ h => h) (ih (K := K'))

theorem keeps_spin (name : Str) (f n fuel : Nat) : Keeps A U (fun K' _ => ∀ x, K x → K' x) K (spin name f n fuel) := by
  induction fuel generalizing K with
  | zero => trivial
  | succ g ih =>
    refine keeps_bind (keeps_scanLocks (K := K) name f (n - f)) fun K' b _ hK => ?_
    cases b with
    | true => exact hK
    | false => exact keeps_mono (fun _ _ _ h1 h2 x hx => h1 x (h2 x (hK x hx))) (fun _ h => h) (ih (K := K'))

theorem keeps_renumber (name : Str) (fuel k : Nat) : Keeps A U (fun K' _ => ∀ x, K x → K' x) K (renumber name fuel k) := by
  induction fuel generalizing K k with
  | zero => trivial
  | succ g ih =>
    intro r
    cases r with
    | ok h => exact fun x hx => .inl hx
    | error e =>
      cases e
      case fileExists =>
        exact keeps_mono (fun _ _ _ h1 h2 x hx => h1 x (h2 x (.inl hx))) (fun _ h => h) (ih (k + 1))
      all_goals trivial

theorem keeps_lockEnter {name : Str} (hA : A (countAddr name)) (hU : ∀ n, U (markerAddr name n)) (fuel : Nat) :
    Keeps A U (fun K' h => K' h.count ∧ ∀ x, K x → K' x) K (lockEnter fuel name) := by
  refine keeps_bind (keeps_openBlock (K := K) hA true false fun h => nomatch h) fun K1 c _ ⟨hc, h1⟩ => ?_
  refine ⟨hc, fun r => ?_⟩
  cases r with
  | error e => trivial
  | ok b =>
    show Keeps A U _ K1 ((renumber name fuel (fromLE b + 1)).bind _)
    refine keeps_bind (keeps_renumber (K := K1) name fuel _) fun K2 number _ h2 => ?_
    intro r
    cases r with
    | ok h =>
      show Keeps A U _ _ ((spin name (fromLE b) number fuel).bind _)
      refine keeps_bind (keeps_spin (K := fun x => K2 x ∨ (Except.ok h : Except PyErr Nat) = .ok x) name _ _ _) fun K3 _ _ h3 => ?_
      exact ⟨h3 _ (.inl (h2 _ hc)), fun x hx => h3 _ (.inl (h2 _ (h1 _ hx)))⟩
    | error e =>
      cases e
      case fileExists => exact ⟨.inl (h2 _ hc), fun x hx => .inl (h2 _ (h1 _ hx))⟩
      all_goals
        refine ⟨hU _, fun r => ?_⟩
        cases r <;> trivial

theorem keeps_lockRelease {name : Str} (hU : ∀ n, U (markerAddr name n)) (hU' : ∀ n, U (lockAddr name n)) (h : Held) (hc : K h.count) :
    Keeps A U (fun K' _ => ∀ x, K x → K' x) K (lockRelease name h) := by
  unfold lockRelease intBytes
  split
  · refine ⟨hc, fun r => ?_⟩
    cases r with
    | error e => trivial
    | ok u =>
      have last : Keeps A U (fun K' _ => ∀ x, K x → K' x) K (unlink (markerAddr name h.number)) :=
        ⟨hU _, fun r => by cases r with
          | ok u => exact fun x hx => hx
          | error e => trivial⟩
      cases ho : h.own with
      | true =>
        refine ⟨hU' _, fun r => ?_⟩
        cases r with
        | error e => trivial
        | ok u => exact last
      | false => exact last
  · trivial

theorem keeps_withLock {name : Str} (hA : A (countAddr name)) (hU : ∀ n, U (markerAddr name n)) (hU' : ∀ n, U (lockAddr name n))
    (fuel : Nat) {body : Prog α} (hb : Keeps A U (fun _ _ => True) K body) :
    Keeps A U (fun K' _ => ∀ x, K x → K' x) K (withLock (.sliding fuel) name body) := by
  refine keeps_bind (keeps_lockEnter (K := K) hA hU fuel) fun K1 h _ ⟨hc, h1⟩ => ?_
  have hb' : Keeps A U (fun K' _ => ∀ x, K1 x → K' x) K1 body.attempt := by
    have : ∀ {γ : Type} {p : Prog γ} {K2 : Nat → Prop}, (∀ x, K1 x → K2 x) → Keeps A U (fun _ _ => True) K2 p →
        Keeps A U (fun K' _ => ∀ x, K1 x → K' x) K2 p := by
      intro γ p
      induction p with
      | ret a => exact fun h _ => h
      | raise e => exact fun _ _ => trivial
      | stuck => exact fun _ _ => trivial
      | op o k ih =>
        intro K2 hK h
        cases o with
        | create n z => exact fun r => ih r (fun x hx => .inl (hK x hx)) (h r)
        | attach n => exact ⟨h.1, fun r => ih r (fun x hx => .inl (hK x hx)) (h.2 r)⟩
        | unlink n => exact ⟨h.1, fun r => ih r hK (h.2 r)⟩
        | read n => exact ⟨h.1, fun r => ih r hK (h.2 r)⟩
        | write n b => exact ⟨h.1, fun r => ih r hK (h.2 r)⟩
        | writeFront n b => exact ⟨h.1, fun r => ih r hK (h.2 r)⟩
    refine this (fun _ h => h) ?_
    exact keeps_mono (fun _ _ _ _ _ => trivial) h1 (keeps_attempt hb)
  refine keeps_bind hb' fun K2 r _ h2 => ?_
  refine keeps_bind (keeps_lockRelease hU hU' h (h2 _ hc)) fun K3 _ _ h3 => ?_
  cases r with
  | ok a => exact fun x hx => h3 _ (h2 _ (h1 _ hx))
  | error e => trivial

theorem keeps_client {name : Str} (hA : A (countAddr name)) (hU : ∀ n, U (markerAddr name n)) (hU' : ∀ n, U (lockAddr name n))
    {bodies : κ → Prog α} {K0 : Nat → Prop} (hb : ∀ c, Keeps A U (fun _ _ => True) K0 (bodies c)) {c : Cl κ α β ρ} (hc : Cl.NoFree c)
    (hK : ∀ x, K0 x → K x) : Keeps A U (fun _ _ => True) K (c.prog name bodies) := by
  induction c generalizing K with
  | ret r => trivial
  | raise e => trivial
  | free p k => exact hc.elim
  | call fuel c k ih =>
    have hcall := keeps_withLock (K := K) hA hU hU' fuel (keeps_mono (fun _ _ _ _ h => h) hK (hb c))
    have hatt : Keeps A U (fun K' _ => ∀ x, K x → K' x) K (withLock (.sliding fuel) name (bodies c)).attempt :=
      keeps_catch (keeps_bind hcall fun K' a _ hq => hq) fun K' e h => h
    refine keeps_bind hatt fun K1 r _ h1 => ?_
    unfold afterCall
    split
    · trivial
    · exact ih r (hc r) fun x hx => h1 x (hK x hx)

end rules

/-! ## which process opens and creates what -/

section run
variable {S : Setup E κ α} {D : Nat → Hist κ α → Prop} {P : Nat → Hist κ α → Str → Prop} {ex : Hist κ α → Str → Option Bytes}
  {M : Str → Prop} {Q : Nat → Hist κ α → Hist κ α → ρ → Store → Prop} {g : Ghost κ α} {css : List (CS κ α β ρ)} {s s0 : Store} {σ : St Nat}

/-- an operation on a block of the lock -/
def OnLock (name : Str) (o : Op) : Prop :=
  (∀ n z, o = .create n z → lockNames name n) ∧ ∀ n, o = .attach n → lockNames name n

/-- a client opens or creates a block that is not the lock's only inside -/
theorem head_inside (h : CSim S D P ex M Q g css s0 σ) {i : Nat} {cs : CS κ α β ρ} (hi : css[i]? = some cs) (hn : cs.NoFree) {o : Op}
    {k : Except PyErr o.Res → Prog ρ} (hp : cs.prog S = .op o k) :
    OnLock S.name o ∨ ∃ c n own o' f k', cs = .lock (.inside c n own (.op o' f)) k' := by
  cases cs with
  | done r => cases hp
  | failed e => cases hp
  | free p k => exact hn.elim
  | lock ph kk =>
    have hok := h.sim.ok i ph (by rw [List.getElem?_map, hi]; rfl)
    have head : ∀ (o' : Op) (f : Except PyErr o'.Res → Prog α), ph.prog S.name = .op o' f → o = o' := by
      intro o' f e
      simp only [CS.prog, e, attempt_bind_op] at hp
      injection hp with h1 h2
      exact h1.symm
    have onl : ∀ {o' : Op} {f : Except PyErr o'.Res → Prog α}, ph.prog S.name = .op o' f → OnLock S.name o' →
        OnLock S.name o ∨ ∃ c n own o' f k', CS.lock (κ := κ) (β := β) (ρ := ρ) ph kk = .lock (.inside c n own (.op o' f)) k' :=
      fun e ho => .inl (head _ _ e ▸ ho)
    cases ph with
    | fresh fuel body => exact onl (prog_fresh ..) ⟨fun n z e => by cases e; exact lockNames_count _, fun n e => nomatch e⟩
    | opening fuel body => exact onl (prog_opening ..) ⟨fun n z e => (nomatch e), fun n e => by cases e; exact lockNames_count _⟩
    | reading fuel body c => exact onl (prog_reading ..) ⟨fun n z e => (nomatch e), fun n e => nomatch e⟩
    | marking fuel body c f fuel' k => exact onl (prog_marking ..) ⟨fun n z e => by cases e; exact lockNames_marker _ _, fun n e => nomatch e⟩
    | placing fuel body c f n => exact onl (prog_placing ..) ⟨fun n z e => by cases e; exact lockNames_lock _ _, fun n e => nomatch e⟩
    | scanning body c f n fuel' d =>
      rcases hok with hok | hok
      · cases hok
      · obtain ⟨d, rfl⟩ : ∃ d', d = d' + 1 := ⟨d - 1, by have := hok.2.2; omega⟩
        exact onl (prog_scanning ..) ⟨fun n z e => (nomatch e), fun n e => by cases e; exact lockNames_lock _ _⟩
    | inside c n own p =>
      have leave : ∀ r, (Ph.inside c n own p).prog S.name = leaveP S.name ⟨c, n, own⟩ r →
        OnLock S.name o ∨ ∃ c' n' own' o' f k', CS.lock (κ := κ) (β := β) (ρ := ρ) (.inside c n own p) kk = .lock (.inside c' n' own' (.op o' f)) k' := by
        intro r e
        by_cases hn : n < 256 ^ 5
        · exact onl (e.trans (leave_shape S.name c n own r hn)) ⟨fun n z e => (nomatch e), fun n e => nomatch e⟩
        · exfalso
          have := e.trans (leave_overflow S.name c n own r hn)
          simp only [CS.prog, this] at hp
          cases hp
      cases p with
      | op o' f => exact .inr ⟨c, n, own, o', f, kk, rfl⟩
      | ret a => exact leave (.ok a) rfl
      | raise e => exact leave (.error e) rfl
      | stuck => cases hp
    | unlocking n r => exact onl (prog_unlocking ..) ⟨fun n z e => (nomatch e), fun n e => nomatch e⟩
    | unmarking n r => exact onl (prog_unmarking ..) ⟨fun n z e => (nomatch e), fun n e => nomatch e⟩
    | ended r =>
      exfalso
      cases r with
      | ok a => have := (h.cl i _ hi).1 _ rfl; simp [isOverflow] at this
      | error e =>
        have := (h.cl i _ hi).1 _ rfl
        cases e <;> simp [isOverflow] at this
        cases hp
    | dead pc => cases hp
    | away => exact absurd rfl (h.cl i _ hi).2.1

/-- the clients of a lock, in the split and in the whole run -/
structure Lk (S : Setup E κ α) (D : Nat → Hist κ α → Prop) (P : Nat → Hist κ α → Str → Prop) (ex : Hist κ α → Str → Option Bytes)
    (M : Str → Prop) (Q : Nat → Hist κ α → Hist κ α → ρ → Store → Prop) (ps : List (Proc ρ)) (s s0 : Store) (g : Ghost κ α)
    (css : List (CS κ α β ρ)) (σ : St Nat) : Prop where
  two : Two (Openable S.name) (NotCount S.name) ps s s0
  calm : Calm (fun n => n = countAddr S.name) ps s
  sim : CSim S D P ex M Q g css s0 σ
  q : QInv σ
  eq : ps.map overall = css.map (CS.prog S)
  nf : ∀ (i : Nat) (cs : CS κ α β ρ), css[i]? = some cs → cs.NoFree
  who : ∀ (j h z : Nat) (k : Except PyErr Nat → Prog ρ) (n : Str), ps[j]? = some (.sizing h z k) → s.names n = some h →
    lockNames S.name n ∨ ∃ cs, css[j]? = some cs ∧ cs.ph.isInside = true
  full : ∀ (n : Str) (h : Nat), s.names n = some h → s.segs h ≠ [] ∨ Szg ps h

theorem Lk.get {ps : List (Proc ρ)} (H : Lk S D P ex M Q ps s s0 g css σ) {i : Nat} {p : Proc ρ} (hi : ps[i]? = some p) :
    ∃ cs, css[i]? = some cs ∧ overall p = cs.prog S := by
  have := congrArg (fun l => l[i]?) H.eq
  simp only [List.getElem?_map, hi, Option.map_some] at this
  cases hc : css[i]? with
  | none => rw [hc] at this; cases this
  | some cs => rw [hc] at this; exact ⟨cs, rfl, Option.some.inj this⟩

theorem pc_inside (h : CSim S D P ex M Q g css s0 σ) {i : Nat} {cs : CS κ α β ρ} (hi : css[i]? = some cs)
    (hin : cs.ph.isInside = true) : ∃ n own, σ.pc i = .inside n own := by
  rw [h.sim.pc, pcOf_eq (ph := cs.ph) (by rw [List.getElem?_map, hi]; rfl)]
  cases hph : cs.ph <;> simp [hph, Ph.isInside] at hin
  exact ⟨_, _, rfl⟩

theorem set_same {γ : Type} {l : List γ} {i : Nat} {x : γ} (h : l[i]? = some x) : l.set i x = l := by
  apply List.ext_getElem?
  intro j
  rw [set_get h]
  split
  · rename_i e; rw [e, h]
  · rfl

theorem lk_unnoticed (hP : Priv S D P ex M) {ps : List (Proc ρ)} (H : Lk S D P ex M Q ps s s0 g css σ) (sched : List Nat)
    (hq : CodeQuietRun E S.name (begun E sched ps s) (ps.map overall) s0) : Unnoticed E sched ps s := by
  induction sched generalizing ps s s0 g css σ with
  | nil => trivial
  | cons i sched ih =>
    refine ⟨fun h k e he => (H.calm.ok e).resolve_left fun hne => hne he, ?_⟩
    cases hi : ps[i]? with
    | none =>
      simp only [begun, hi] at hq
      exact ih H hq
    | some p =>
      cases hst : p.step E s with
      | none =>
        simp only [begun, hi, hst] at hq
        simp only [hst]
        exact ih H hq
      | some x =>
        obtain ⟨p', s'⟩ := x
        simp only [hst]
        obtain ⟨f1, f2, f3, f4, f5⟩ := step_facts hst fun h z k e => (H.two.half (e ▸ hi)).2.2.1
        have hBU : ∀ n, n = countAddr S.name → ¬ NotCount S.name n := fun n e h => h e
        have get := set_get' hi p'
        obtain ⟨cs, hcs, hov⟩ := H.get hi
        cases p with
        | run q =>
          simp only [begun, hi, hst, CodeQuietRun, List.getElem?_map, Option.map_some, overall] at hq
          obtain ⟨hcq, hq⟩ := hq
          obtain ⟨s0', hst0, hT⟩ := two_run H.two hi hst
          simp only [hst0] at hq
          rw [H.eq] at hcq
          simp only [overall] at hov
          obtain ⟨cs', g', σ', e1, e2, e3, _, e5, e6⟩ := csim_step hP H.sim H.q hcs hcq (by rw [← hov]; exact hst0)
          have getc := set_get hcs cs'
          have hin : ∀ {o : Op} {k : Except PyErr o.Res → Prog ρ}, q = .op o k → ¬ OnLock S.name o →
              cs.ph.isInside = true ∧ cs'.ph.isInside = true := by
            intro o k e ho
            obtain ⟨c, n, own, o', f, k', rfl⟩ := (head_inside H.sim hcs (H.nf i cs hcs) (hov.symm.trans e)).resolve_left ho
            exact ⟨rfl, e6 _ _ _ _ _ _ rfl⟩
          refine ih (g := g') (css := css.set i cs') (σ := σ') (s0 := s0') ⟨hT, calm_step hBU H.two H.calm hi hst ?_, e2, e3, ?_, ?_, ?_, ?_⟩
            (by rw [List.map_set]; exact hq)
          · intro n k h e hA hn
            cases e
            rcases H.full n h hn with hf | ⟨j, z, k', hj⟩
            · exact hf
            · have hne : n ≠ countAddr S.name := by
                rintro rfl
                obtain ⟨h', hh, hne⟩ := H.calm.bound _ rfl
                rw [hn] at hh
                cases hh
                exact hne (H.two.half hj).1
              have hnl : ¬ lockNames S.name n := hA.resolve_left hne
              obtain ⟨cj, hcj, hj'⟩ := (H.who j h z k' n hj hn).resolve_left hnl
              have hi' := (hin rfl fun ho => hnl (ho.2 n rfl)).1
              obtain ⟨_, _, p1⟩ := pc_inside H.sim hcs hi'
              obtain ⟨_, _, p2⟩ := pc_inside H.sim hcj hj'
              have := inside_unique H.q p1 p2
              subst this
              rw [hi] at hj
              cases hj
          · rw [List.map_set, H.eq, List.map_set, e1]
          · intro j c hj
            rw [getc] at hj
            split at hj
            · cases hj; exact e5 (H.nf i cs hcs)
            · exact H.nf j c hj
          · intro j h z k n hj hn
            rw [get] at hj
            rw [getc]
            split at hj
            · rename_i hji
              cases Option.some.inj hj
              have hnext := f5 _ _ _ rfl
              rcases f2 n h hn with hn' | ⟨_, _, z', k', e, _⟩
              · have := H.two.lt hn'; omega
              · cases e
                by_cases hl : lockNames S.name n
                · exact .inl hl
                · refine .inr ⟨cs', by rw [if_pos hji], ?_⟩
                  exact (hin rfl fun ho => hl (ho.1 n _ rfl)).2
            · rename_i hji
              rw [if_neg hji]
              refine H.who j h z k n hj ((f2 n h hn).resolve_right fun e => ?_)
              have := (H.two.half hj).2.2.2
              omega
          · intro n h hn
            rcases f2 n h hn with hn' | ⟨_, _, z, k, _, e⟩
            · refine (H.full n h hn').imp (f1 h (H.two.lt hn')) ?_
              rintro ⟨j, z, k, hj⟩
              refine ⟨j, z, k, ?_⟩
              rw [get, if_neg, hj]
              rintro rfl
              rw [hi] at hj
              cases hj
            · exact .inr ⟨i, z, k, by rw [get, if_pos rfl, e]⟩
        | sizing h0 z0 k0 =>
          simp only [begun, hi, hst] at hq
          have hC := calm_step hBU H.two H.calm hi hst fun n k h e => nomatch e
          cases hst
          have hm : (ps.set i (.run (k0 (.ok h0)))).map overall = ps.map overall := by
            rw [List.map_set]
            exact set_same (by rw [List.getElem?_map, hi]; rfl)
          refine ih (g := g) (css := css) (σ := σ) (s0 := s0) ⟨two_size H.two hi, hC, H.sim, H.q, by rw [hm, H.eq], H.nf, ?_, ?_⟩ (by rw [hm]; exact hq)
          · intro j h z k n hj hn
            rw [get] at hj
            split at hj
            · cases hj
            · exact H.who j h z k n hj hn
          · intro n h hn
            rcases H.full n h hn with hf | ⟨j, z, k, hj⟩
            · exact .inl (f1 h (H.two.lt hn) hf)
            · by_cases hji : j = i
              · subst hji
                rw [hi] at hj
                cases hj
                refine .inl ?_
                simp [Store.sized, (H.two.half hi).2.2.1]
              · exact .inr ⟨j, z, k, by rw [get, if_neg hji, hj]⟩
        | mapping h0 k0 =>
          simp only [begun, hi, hst] at hq
          have hC := calm_step hBU H.two H.calm hi hst fun n k h e => nomatch e
          obtain ⟨m1, m2⟩ := two_map H.two hi fun he => (H.calm.ok hi).resolve_left fun hne => hne he
          cases hst
          have hm : (ps.set i (.run (k0 (if s.segs h0 = [] then .error .valueError else .ok h0)))).map overall = ps.map overall := by
            rw [List.map_set]
            refine set_same ?_
            rw [List.getElem?_map, hi]
            simp only [Option.map_some, overall, m1]
          refine ih (g := g) (css := css) (σ := σ) (s0 := s0) ⟨m2, hC, H.sim, H.q, by rw [hm, H.eq], H.nf, ?_, ?_⟩ (by rw [hm]; exact hq)
          · intro j h z k n hj hn
            rw [get] at hj
            split at hj
            · cases hj
            · exact H.who j h z k n hj hn
          · intro n h hn
            refine (H.full n h hn).imp id ?_
            rintro ⟨j, z, k, hj⟩
            refine ⟨j, z, k, ?_⟩
            rw [get, if_neg, hj]
            rintro rfl
            rw [hi] at hj
            cases hj

/-- Clients of a lock that use nothing outside it, and whose bodies use only blocks that they have created or opened, or were
given, and leave the blocks of the lock alone, do not notice that creation takes two steps, when the count block is there. -/
theorem clients_unnoticed [Inhabited κ] (S : Setup E κ α) (hP : Priv S D P ex M) {fl : Nat} (w : s.WF) (hc : LockClean s S.name fl)
    (hb : fl < 256 ^ 5) (hJ : S.J [] s) (hd : ∀ i, D i [])
    (hn : ∀ x, M x → (∀ i, ¬ P i [] x) → s.content x = ex [] x) (cls : List (Cl κ α β ρ))
    (hcl : ∀ (i : Nat) (c : Cl κ α β ρ), cls[i]? = some c → CRG S D (P i) ex i (Q i) c [] [] s)
    (hnf : ∀ c ∈ cls, Cl.NoFree c) {K : Nat → Prop} (hK : ∀ h, K h → h < s.next)
    (hbd : ∀ c, Keeps (Openable S.name) (NotCount S.name) (fun _ _ => True) K (S.bodies c))
    (hcount : (s.names (countAddr S.name)).isSome = true) (hfull : ∀ n h, s.names n = some h → s.segs h ≠ []) (sched : List Nat)
    (hq : CodeQuietRun E S.name (begun E sched ((cls.map (Cl.prog S.name S.bodies)).map .run) s) (cls.map (Cl.prog S.name S.bodies)) s) :
    Unnoticed E sched ((cls.map (Cl.prog S.name S.bodies)).map .run) s ∧
      ∀ p ∈ cls.map (Cl.prog S.name S.bodies), Handles K p := by
  have hkeep : ∀ p ∈ cls.map (Cl.prog S.name S.bodies), Keeps (Openable S.name) (NotCount S.name) (fun _ _ => True) K p := by
    intro p hp
    obtain ⟨c, hc, rfl⟩ := List.mem_map.1 hp
    exact keeps_client (.inl rfl) (fun n => marker_ne_count _ _) (fun n => lock_ne_count _ _) hbd (hnf c hc) fun _ h => h
  have hov : ((cls.map (Cl.prog S.name S.bodies)).map Proc.run).map overall = cls.map (Cl.prog S.name S.bodies) := by
    rw [List.map_map]
    exact (List.map_congr_left fun p _ => rfl).trans (List.map_id _)
  obtain ⟨g, hg, hcs⟩ := csim_init (D := D) (P := P) (ex := ex) (M := M) (Q := Q) S w hc hb hJ hd hn cls hcl
  have nosz : ∀ (i h z : Nat) (k : Except PyErr Nat → Prog ρ), ((cls.map (Cl.prog S.name S.bodies)).map Proc.run)[i]? ≠ some (.sizing h z k) := by
    intro i h z k e
    rw [List.getElem?_map] at e
    cases hx : (cls.map (Cl.prog S.name S.bodies))[i]? with
    | none => rw [hx] at e; cases e
    | some x => rw [hx] at e; cases e
  refine ⟨lk_unnoticed (D := D) (P := P) (ex := ex) (M := M) (Q := Q) hP (s0 := s) (g := g) (css := cls.map (CS.norm S)) (σ := LockTS.start fl)
    ⟨two_start w.lt hK hkeep, ⟨?_, ?_⟩, hcs, qinv_start fl, by rw [hov, map_norm], ?_, ?_, fun n h hn => .inl (hfull n h hn)⟩ sched (by rw [hov]; exact hq), ?_⟩
  · rintro n rfl
    obtain ⟨h, hh⟩ := Option.isSome_iff_exists.1 hcount
    exact ⟨h, hh, hfull _ h hh⟩
  · intro i h k e
    rw [List.getElem?_map] at e
    cases hx : (cls.map (Cl.prog S.name S.bodies))[i]? with
    | none => rw [hx] at e; cases e
    | some x => rw [hx] at e; cases e
  · intro i cs hi
    rw [List.getElem?_map] at hi
    cases hx : cls[i]? with
    | none => rw [hx] at hi; cases hi
    | some x =>
      rw [hx] at hi
      cases hi
      exact CS.noFree_norm (hnf x (List.mem_of_getElem? hx))
  · intro j h z k n e _
    exact absurd e (nosz j h z k)
  · intro p hp
    exact keeps_handles (hkeep p hp)

end run
end Verif.Lemmas
