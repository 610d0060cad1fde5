import Verif.Lemmas.Shm
import Verif.Spec.TwoStep
/-!
# Runs with two-step creation are runs with one-step creation
-/
namespace Verif.Lemmas
open Verif Verif.Model Verif.Spec
variable {α β : Type} {E : Env} {A U : Str → Prop}

theorem keeps_mono {Q Q' : (Nat → Prop) → α → Prop} (hQ : ∀ K K' a, (∀ x, K x → K' x) → Q K a → Q' K' a) {K K' : Nat → Prop}
    (hK : ∀ x, K x → K' x) {p : Prog α} (h : Keeps A U Q K p) : Keeps A U Q' K' p := by
  induction p generalizing K K' with
  | ret a => exact hQ _ _ _ hK h
  | raise e => trivial
  | stuck => trivial
  | op o k ih =>
    cases o with
    | create n z => exact fun r => ih r (fun x hx => hx.imp (hK x) id) (h r)
    | attach n => exact ⟨h.1, fun r => ih r (fun x hx => hx.imp (hK x) id) (h.2 r)⟩
    | unlink n => exact ⟨h.1, fun r => ih r hK (h.2 r)⟩
    | read n => exact ⟨hK _ h.1, fun r => ih r hK (h.2 r)⟩
    | write n b => exact ⟨hK _ h.1, fun r => ih r hK (h.2 r)⟩
    | writeFront n b => exact ⟨hK _ h.1, fun r => ih r hK (h.2 r)⟩

theorem keeps_bind {Q : (Nat → Prop) → α → Prop} {R : (Nat → Prop) → β → Prop} {f : α → Prog β} {K : Nat → Prop} {p : Prog α}
    (h : Keeps A U Q K p) (hf : ∀ K' a, (∀ x, K x → K' x) → Q K' a → Keeps A U R K' (f a)) : Keeps A U R K (p.bind f) := by
  induction p generalizing K with
  | ret a => exact hf K a (fun _ hx => hx) h
  | raise e => trivial
  | stuck => trivial
  | op o k ih =>
    cases o with
    | create n z => exact fun r => ih r (h r) fun K' a hK => hf K' a fun x hx => hK x (.inl hx)
    | attach n =>
      refine ⟨h.1.imp id fun e i => ?_, fun r => ih r (h.2 r) fun K' a hK => hf K' a fun x hx => hK x (.inl hx)⟩
      show (k _).bind f = (k _).bind f
      rw [e i]
    | unlink n => exact ⟨h.1, fun r => ih r (h.2 r) hf⟩
    | read n => exact ⟨h.1, fun r => ih r (h.2 r) hf⟩
    | write n b => exact ⟨h.1, fun r => ih r (h.2 r) hf⟩
    | writeFront n b => exact ⟨h.1, fun r => ih r (h.2 r) hf⟩

theorem keeps_catch {Q : (Nat → Prop) → α → Prop} {f : PyErr → Prog α} {K : Nat → Prop} {p : Prog α}
    (h : Keeps A U Q K p) (hf : ∀ K' e, (∀ x, K x → K' x) → Keeps A U Q K' (f e)) : Keeps A U Q K (p.catch_ f) := by
  induction p generalizing K with
  | ret a => exact h
  | raise e => exact hf K e fun _ hx => hx
  | stuck => trivial
  | op o k ih =>
    cases o with
    | create n z => exact fun r => ih r (h r) fun K' a hK => hf K' a fun x hx => hK x (.inl hx)
    | attach n =>
      refine ⟨h.1.imp id fun e i => ?_, fun r => ih r (h.2 r) fun K' a hK => hf K' a fun x hx => hK x (.inl hx)⟩
      show (k _).catch_ f = (k _).catch_ f
      rw [e i]
    | unlink n => exact ⟨h.1, fun r => ih r (h.2 r) hf⟩
    | read n => exact ⟨h.1, fun r => ih r (h.2 r) hf⟩
    | write n b => exact ⟨h.1, fun r => ih r (h.2 r) hf⟩
    | writeFront n b => exact ⟨h.1, fun r => ih r (h.2 r) hf⟩

theorem keeps_attempt {Q : (Nat → Prop) → α → Prop} {K : Nat → Prop} {p : Prog α} (h : Keeps A U Q K p) :
    Keeps A U (fun K r => ∀ a, r = .ok a → Q K a) K p.attempt :=
  keeps_catch (keeps_bind h fun K' a _ hq b e => by cases e; exact hq) fun K' e _ a h => nomatch h

/-! ## the relation -/

/-- a process is giving this segment its size -/
def Szg (ps : List (Proc α)) (h : Nat) : Prop := ∃ (i z : Nat) (k : Except PyErr Nat → Prog α), ps[i]? = some (.sizing h z k)

/-- the process keeps to the rules from where it is -/
def KeepsP (A U : Str → Prop) (K : Nat → Prop) : Proc α → Prop
  | .run p => Keeps A U (fun _ _ => True) K p
  | .sizing h _ k => Keeps A U (fun _ _ => True) (fun x => K x ∨ x = h) (k (.ok h))
  | .mapping _ k => ∀ r : Except PyErr Nat, Keeps A U (fun _ _ => True) (fun x => K x ∨ r = .ok x) (k r)

structure Two (A U : Str → Prop) (ps : List (Proc α)) (s s0 : Store) : Prop where
  names : s0.names = s.names
  next : s0.next = s.next
  lt : ∀ {n h}, s.names n = some h → h < s.next
  half : ∀ {i h z : Nat} {k : Except PyErr Nat → Prog α}, ps[i]? = some (.sizing h z k) →
    s.segs h = [] ∧ s0.segs h = List.replicate z 0 ∧ z ≠ 0 ∧ h < s.next
  uniq : ∀ {i j h z z' : Nat} {k k' : Except PyErr Nat → Prog α}, ps[i]? = some (.sizing h z k) →
    ps[j]? = some (.sizing h z' k') → i = j
  rest : ∀ h, ¬ Szg ps h → s0.segs h = s.segs h
  map : ∀ {i h : Nat} {k : Except PyErr Nat → Prog α}, ps[i]? = some (.mapping h k) → h < s.next
  own : ∀ {i : Nat} {p : Proc α}, ps[i]? = some p → ∃ K : Nat → Prop, (∀ h, K h → h < s.next ∧ ¬ Szg ps h) ∧ KeepsP A U K p

/-- a process changes, and no segment is being sized before or after that was not so the other way round -/
theorem two_keep {ps : List (Proc α)} {s s0 s' s0' : Store} (H : Two A U ps s s0) {i : Nat} {p p' : Proc α} (hi : ps[i]? = some p)
    (hp : ∀ h z k, p ≠ .sizing h z k) (hp' : ∀ h z k, p' ≠ .sizing h z k)
    (hn : s0'.names = s'.names) (hx : s'.next = s.next) (hx0 : s0'.next = s.next)
    (hlt : ∀ {n h}, s'.names n = some h → h < s.next)
    (hseg : ∀ h, Szg ps h → s'.segs h = s.segs h ∧ s0'.segs h = s0.segs h)
    (hseg' : ∀ h, ¬ Szg ps h → s0'.segs h = s'.segs h)
    (hmap : ∀ h k, p' = .mapping h k → h < s.next)
    (hown : ∀ K : Nat → Prop, (∀ h, K h → h < s.next ∧ ¬ Szg ps h) → KeepsP A U K p →
      ∃ K' : Nat → Prop, (∀ h, K' h → h < s.next ∧ ¬ Szg ps h) ∧ KeepsP A U K' p') :
    Two A U (ps.set i p') s' s0' := by
  obtain ⟨hil, _⟩ := List.getElem?_eq_some_iff.1 hi
  have get : ∀ j, (ps.set i p')[j]? = if j = i then some p' else ps[j]? := by
    intro j
    rw [List.getElem?_set]
    by_cases hj : i = j
    · subst hj; simp [hil]
    · rw [if_neg hj, if_neg (fun e => hj e.symm)]
  have sz : ∀ {j h z : Nat} {k : Except PyErr Nat → Prog α}, (ps.set i p')[j]? = some (.sizing h z k) ↔ ps[j]? = some (.sizing h z k) := by
    intro j h z k
    rw [get]
    split
    · rename_i e
      subst e
      constructor
      · intro e; exact absurd (Option.some.inj e) (hp' h z k)
      · intro e; rw [hi] at e; exact absurd (Option.some.inj e) (hp h z k)
    · rfl
  have szg : ∀ h, Szg (ps.set i p') h ↔ Szg ps h := fun h => by simp only [Szg, sz]
  refine ⟨hn, by rw [hx0, hx], fun e => by rw [hx]; exact hlt e, fun e => ?_, fun e e' => H.uniq (sz.1 e) (sz.1 e'), fun h hh => ?_,
    fun {j h k} e => ?_, fun {j q} e => ?_⟩
  · obtain ⟨a, b, c, d⟩ := H.half (sz.1 e)
    obtain ⟨a', b'⟩ := hseg _ ⟨_, _, _, sz.1 e⟩
    exact ⟨a'.trans a, b'.trans b, c, by rw [hx]; exact d⟩
  · exact hseg' h (fun a => hh ((szg h).2 a))
  · rw [hx]
    rw [get] at e
    split at e
    · exact hmap h k (Option.some.inj e)
    · exact H.map e
  · simp only [hx, szg]
    rw [get] at e
    split at e
    · obtain ⟨K, hK, hk⟩ := H.own hi
      cases Option.some.inj e
      exact hown K hK hk
    · exact H.own e

theorem set_get' {ps : List (Proc α)} {i : Nat} {p : Proc α} (hi : ps[i]? = some p) (p' : Proc α) (j : Nat) :
    (ps.set i p')[j]? = if j = i then some p' else ps[j]? := by
  obtain ⟨hil, _⟩ := List.getElem?_eq_some_iff.1 hi
  rw [List.getElem?_set]
  by_cases hj : i = j
  · subst hj; simp [hil]
  · rw [if_neg hj, if_neg (fun e => hj e.symm)]

/-- a creation begins -/
theorem two_open {ps : List (Proc α)} {s s0 : Store} (H : Two A U ps s s0) {i : Nat} {n : Str} {z : Nat}
    {k : Except PyErr Nat → Prog α} (hi : ps[i]? = some (.run (.op (.create n z) k))) (hz : z ≠ 0) :
    Two A U (ps.set i (.sizing s.next z k)) (s.opened n) (s0.created n z) := by
  have get := set_get' hi (.sizing s.next z k)
  have old : ∀ {j h z' : Nat} {k' : Except PyErr Nat → Prog α}, (ps.set i (.sizing s.next z k))[j]? = some (.sizing h z' k') →
      (j = i ∧ h = s.next ∧ z' = z) ∨ (j ≠ i ∧ ps[j]? = some (.sizing h z' k')) := by
    intro j h z' k' e
    rw [get] at e
    split at e
    · cases Option.some.inj e
      exact .inl ⟨by assumption, rfl, rfl⟩
    · exact .inr ⟨by assumption, e⟩
  have szg : ∀ h, Szg (ps.set i (.sizing s.next z k)) h ↔ h = s.next ∨ Szg ps h := by
    intro h
    constructor
    · rintro ⟨j, z', k', e⟩
      rcases old e with ⟨_, e, _⟩ | ⟨_, e⟩
      · exact .inl e
      · exact .inr ⟨j, z', k', e⟩
    · rintro (e | ⟨j, z', k', e⟩)
      · subst e
        exact ⟨i, z, k, by rw [get, if_pos rfl]⟩
      · refine ⟨j, z', k', ?_⟩
        rw [get, if_neg, e]
        rintro rfl
        rw [hi] at e
        cases e
  refine ⟨?_, ?_, fun {m h} e => ?_, fun {j h z' k'} e => ?_, fun {j j' h z1 z2 k1 k2} e e' => ?_, fun h hh => ?_, fun {j h k'} e => ?_, fun {j q} e => ?_⟩
  · funext x
    simp only [Store.created, Store.opened, H.names, H.next]
  · simp only [Store.created, Store.opened, H.next]
  · simp only [Store.opened] at e ⊢
    split at e
    · cases e; omega
    · have := H.lt e; omega
  · rcases old e with ⟨_, rfl, rfl⟩ | ⟨_, e⟩
    · simp [Store.opened, Store.created, H.next, hz]
    · obtain ⟨a, b, c, d⟩ := H.half e
      have : h ≠ s.next := by omega
      simp only [Store.opened, Store.created, H.next, if_neg this]
      exact ⟨a, b, c, by omega⟩
  · rcases old e with ⟨a1, a2, _⟩ | ⟨_, a⟩ <;> rcases old e' with ⟨b1, b2, _⟩ | ⟨_, b⟩
    · rw [a1, b1]
    · have := (H.half b).2.2.2; omega
    · have := (H.half a).2.2.2; omega
    · exact H.uniq a b
  · have h1 : h ≠ s.next := fun e => hh ((szg h).2 (.inl e))
    simp only [Store.opened, Store.created, H.next, if_neg h1]
    exact H.rest h fun a => hh ((szg h).2 (.inr a))
  · rw [get] at e
    split at e
    · cases e
    · have := H.map e
      show h < s.next + 1
      omega
  · rw [get] at e
    have lift : ∀ K : Nat → Prop, (∀ h, K h → h < s.next ∧ ¬ Szg ps h) →
        ∀ h, K h → h < (s.opened n).next ∧ ¬ Szg (ps.set i (.sizing s.next z k)) h := by
      intro K hK h hh
      obtain ⟨a, b⟩ := hK h hh
      refine ⟨Nat.lt_succ_of_lt a, fun c => ?_⟩
      rcases (szg h).1 c with c | c
      · omega
      · exact b c
    split at e
    · cases Option.some.inj e
      obtain ⟨K, hK, hk⟩ := H.own hi
      refine ⟨K, lift K hK, ?_⟩
      exact keeps_mono (fun _ _ _ _ h => h) (fun x hx => hx.imp id fun e => by cases e; rfl) (hk (.ok s.next))
    · obtain ⟨K, hK, hk⟩ := H.own e
      exact ⟨K, lift K hK, hk⟩

/-- a creation is completed -/
theorem two_size {ps : List (Proc α)} {s s0 : Store} (H : Two A U ps s s0) {i h z : Nat}
    {k : Except PyErr Nat → Prog α} (hi : ps[i]? = some (.sizing h z k)) :
    Two A U (ps.set i (.run (k (.ok h)))) (s.sized h z) s0 := by
  have get := set_get' hi (.run (k (.ok h)))
  obtain ⟨h1, h2, h3, h4⟩ := H.half hi
  have old : ∀ {j h' z' : Nat} {k' : Except PyErr Nat → Prog α}, (ps.set i (.run (k (.ok h))))[j]? = some (.sizing h' z' k') →
      h' ≠ h ∧ ps[j]? = some (.sizing h' z' k') := by
    intro j h' z' k' e
    rw [get] at e
    split at e
    · cases Option.some.inj e
    · rename_i hj
      refine ⟨?_, e⟩
      rintro rfl
      exact hj (H.uniq e hi)
  have szg : ∀ h', Szg (ps.set i (.run (k (.ok h)))) h' ↔ h' ≠ h ∧ Szg ps h' := by
    intro h'
    constructor
    · rintro ⟨j, z', k', e⟩
      exact ⟨(old e).1, j, z', k', (old e).2⟩
    · rintro ⟨hh, j, z', k', e⟩
      refine ⟨j, z', k', ?_⟩
      rw [get, if_neg, e]
      rintro rfl
      rw [hi] at e
      cases e
      exact hh rfl
  refine ⟨H.names, H.next, fun e => H.lt e, fun {j h' z' k'} e => ?_, fun e e' => H.uniq (old e).2 (old e').2, fun h' hh => ?_, fun {j h' k'} e => ?_,
    fun {j q} e => ?_⟩
  · obtain ⟨a, b, c, d⟩ := H.half (old e).2
    simp only [Store.sized, if_neg (old e).1]
    exact ⟨a, b, c, d⟩
  · simp only [Store.sized]
    split
    · rename_i e; rw [e]; exact h2
    · rename_i hne
      exact H.rest h' fun a => hh ((szg h').2 ⟨hne, a⟩)
  · rw [get] at e
    split at e
    · cases e
    · exact H.map e
  · rw [get] at e
    split at e
    · cases Option.some.inj e
      obtain ⟨K, hK, hk⟩ := H.own hi
      refine ⟨fun x => K x ∨ x = h, fun x hx => ?_, hk⟩
      rcases hx with hx | rfl
      · exact ⟨(hK x hx).1, fun a => (hK x hx).2 ((szg x).1 a).2⟩
      · exact ⟨h4, fun a => ((szg x).1 a).1 rfl⟩
    · obtain ⟨K, hK, hk⟩ := H.own e
      exact ⟨K, fun x hx => ⟨(hK x hx).1, fun a => (hK x hx).2 ((szg x).1 a).2⟩, hk⟩

/-- one step of a process that is between two operations is the whole operation -/
theorem two_run {ps : List (Proc α)} {s s0 : Store} (H : Two A U ps s s0) {i : Nat} {p : Prog α} (hi : ps[i]? = some (.run p))
    {p' : Proc α} {s' : Store} (e : (Proc.run p).step E s = some (p', s')) :
    ∃ s0', p.step E s0 = some (overall p', s0') ∧ Two A U (ps.set i p') s' s0' := by
  have hs : ∀ h z (k : Except PyErr Nat → Prog α), Proc.run p ≠ .sizing h z k := fun _ _ _ e => nomatch e
  have hr : ∀ (q : Prog α) h z (k : Except PyErr Nat → Prog α), Proc.run q ≠ .sizing h z k := fun _ _ _ _ e => nomatch e
  -- nothing happens but that the process goes on
  have stay : ∀ q : Prog α, (∀ K : Nat → Prop, (∀ h, K h → h < s.next ∧ ¬ Szg ps h) → KeepsP A U K (.run p) →
      Keeps A U (fun _ _ => True) K q) → Two A U (ps.set i (.run q)) s s0 := fun q hq =>
    two_keep H hi hs (hr q) H.names rfl H.next (fun e => H.lt e) (fun _ _ => ⟨rfl, rfl⟩) H.rest (fun _ _ e => nomatch e)
      fun K hK hk => ⟨K, hK, hq K hK hk⟩
  cases p with
  | ret a => cases e
  | raise e' => cases e
  | stuck => cases e
  | op o k =>
    cases o with
    | create n z =>
      simp only [Proc.step] at e
      have er : ∀ (x : PyErr) (K : Nat → Prop), KeepsP A U K (.run (.op (.create n z) k)) → Keeps A U (fun _ _ => True) K (k (.error x)) :=
        fun x K hk => keeps_mono (fun _ _ _ _ h => h) (fun x hx => hx.resolve_right fun e => nomatch e) (hk (.error x))
      split at e
      · cases e
        exact ⟨s0, by simp [Prog.step, Op.step, overall, *], stay _ fun K _ hk => er _ K hk⟩
      · split at e
        · cases e
          exact ⟨s0, by simp [Prog.step, Op.step, overall, *], stay _ fun K _ hk => er _ K hk⟩
        · split at e
          · rename_i hz hn _ i' hi'
            cases e
            exact ⟨s0, by simp [Prog.step, Op.step, overall, H.names, *], stay _ fun K _ hk => er _ K hk⟩
          · rename_i hz hn _ hnone
            cases e
            refine ⟨s0.created n z, ?_, two_open H hi hz⟩
            simp [Prog.step, Op.step, overall, H.names, hz, hn, hnone, Store.created, H.next]
            rfl
    | attach n =>
      simp only [Proc.step] at e
      have er : ∀ (x : PyErr) (K : Nat → Prop), KeepsP A U K (.run (.op (.attach n) k)) → Keeps A U (fun _ _ => True) K (k (.error x)) :=
        fun x K hk => keeps_mono (fun _ _ _ _ h => h) (fun x hx => hx.resolve_right fun e => nomatch e) (hk.2 (.error x))
      split at e
      · cases e
        exact ⟨s0, by simp [Prog.step, Op.step, overall, *], stay _ fun K _ hk => er _ K hk⟩
      · split at e
        · rename_i hn _ h hh
          cases e
          refine ⟨s0, by simp [Prog.step, Op.step, overall, H.names, hn, hh]; rfl, ?_⟩
          exact two_keep H hi hs (fun _ _ _ e => nomatch e) H.names rfl H.next (fun e => H.lt e) (fun _ _ => ⟨rfl, rfl⟩) H.rest
            (fun _ _ e => by cases e; exact H.lt hh) fun K hK hk => ⟨K, hK, hk.2⟩
        · cases e
          exact ⟨s0, by simp [Prog.step, Op.step, overall, H.names, *], stay _ fun K _ hk => er _ K hk⟩
    | unlink n =>
      simp only [Proc.step, Option.some.injEq, Prod.mk.injEq] at e
      obtain ⟨rfl, rfl⟩ := e
      simp only [Prog.step, overall, Op.step, H.names]
      split
      · refine ⟨_, rfl, ?_⟩
        refine two_keep H hi hs (hr _) ?_ rfl H.next (fun e => ?_) (fun _ _ => ⟨rfl, rfl⟩) H.rest (fun _ _ e => nomatch e)
          fun K hK hk => ⟨K, hK, hk.2 _⟩
        · rfl
        · simp only at e
          split at e
          · cases e
          · exact H.lt e
      · exact ⟨_, rfl, stay _ fun K _ hk => hk.2 _⟩
    | read h =>
      simp only [Proc.step, Option.some.injEq, Prod.mk.injEq] at e
      obtain ⟨rfl, rfl⟩ := e
      obtain ⟨K, hK, hk⟩ := H.own hi
      refine ⟨s0, ?_, stay _ fun K _ hk => hk.2 _⟩
      simp only [Prog.step, overall, Op.step, H.rest h (hK h hk.1).2]
    | write h b =>
      simp only [Proc.step, Option.some.injEq, Prod.mk.injEq] at e
      obtain ⟨rfl, rfl⟩ := e
      obtain ⟨K, hK, hk⟩ := H.own hi
      have hh := (hK h hk.1).2
      simp only [Prog.step, overall, Op.step, H.rest h hh]
      split
      · refine ⟨_, rfl, ?_⟩
        refine two_keep H hi hs (hr _) H.names rfl H.next (fun e => H.lt e) (fun h' a => ?_) (fun h' a => ?_) (fun _ _ e => nomatch e)
          fun K hK hk => ⟨K, hK, hk.2 _⟩
        · have : h' ≠ h := fun e => hh (e ▸ a)
          simp [this]
        · simp only []
          split
          · rfl
          · exact H.rest h' a
      · exact ⟨_, rfl, stay _ fun K _ hk => hk.2 _⟩
    | writeFront h b =>
      simp only [Proc.step, Option.some.injEq, Prod.mk.injEq] at e
      obtain ⟨rfl, rfl⟩ := e
      obtain ⟨K, hK, hk⟩ := H.own hi
      have hh := (hK h hk.1).2
      simp only [Prog.step, overall, Op.step, H.rest h hh]
      refine ⟨_, rfl, ?_⟩
      refine two_keep H hi hs (hr _) H.names rfl H.next (fun e => H.lt e) (fun h' a => ?_) (fun h' a => ?_) (fun _ _ e => nomatch e)
          fun K hK hk => ⟨K, hK, hk.2 _⟩
      · have : h' ≠ h := fun e => hh (e ▸ a)
        simp [this]
      · simp only []
        split
        · rfl
        · exact H.rest h' a

/-- the second half of an opening, unnoticed or successful -/
theorem two_map {ps : List (Proc α)} {s s0 : Store} (H : Two A U ps s s0) {i h : Nat} {k : Except PyErr Nat → Prog α}
    (hi : ps[i]? = some (.mapping h k)) (hu : s.segs h = [] → k (.error .valueError) = k (.ok h)) :
    k (if s.segs h = [] then .error .valueError else .ok h) = k (.ok h) ∧
      Two A U (ps.set i (.run (k (if s.segs h = [] then .error .valueError else .ok h)))) s s0 := by
  constructor
  · split
    · exact hu (by assumption)
    · rfl
  · refine two_keep H hi (fun _ _ _ e => nomatch e) (fun _ _ _ e => nomatch e) H.names rfl H.next (fun e => H.lt e) (fun _ _ => ⟨rfl, rfl⟩) H.rest
      (fun _ _ e => nomatch e) fun K hK hk => ?_
    split
    · exact ⟨K, hK, keeps_mono (fun _ _ _ _ h => h) (fun x hx => hx.resolve_right fun e => nomatch e) (hk (.error .valueError))⟩
    · rename_i hne
      refine ⟨fun x => K x ∨ x = h, fun x hx => ?_, keeps_mono (fun _ _ _ _ h => h) (fun x hx => hx.imp id fun e => by cases e; rfl) (hk (.ok h))⟩
      rcases hx with hx | rfl
      · exact hK x hx
      · refine ⟨H.map hi, fun ⟨j, z, k', e⟩ => hne (H.half e).1⟩

theorem overall_set {ps : List (Proc α)} (i : Nat) (p : Proc α) : (ps.set i p).map overall = (ps.map overall).set i (overall p) := by
  rw [List.map_set]

theorem two_interleave {ps : List (Proc α)} {s s0 : Store} (H : Two A U ps s s0) (sched : List Nat) (hu : Unnoticed E sched ps s) :
    ∃ s0', interleave E (begun E sched ps s) (ps.map overall) s0 = ((interleave2 E sched ps s).1.map overall, s0') ∧
      Two A U (interleave2 E sched ps s).1 (interleave2 E sched ps s).2 s0' := by
  induction sched generalizing ps s s0 with
  | nil => exact ⟨s0, rfl, H⟩
  | cons i sched ih =>
    obtain ⟨h1, h2⟩ := hu
    cases hi : ps[i]? with
    | none =>
      simp only [hi] at h2
      simp only [interleave2, begun, hi]
      exact ih H h2
    | some p =>
      simp only [hi] at h2
      cases hst : p.step E s with
      | none =>
        simp only [hst] at h2
        simp only [interleave2, begun, hi, hst]
        exact ih H h2
      | some q =>
        obtain ⟨p', s'⟩ := q
        simp only [hst] at h2
        simp only [interleave2, begun, hi, hst]
        cases p with
        | run p =>
          obtain ⟨s0', e1, H'⟩ := two_run H hi hst
          have hm : (ps.map overall)[i]? = some p := by rw [List.getElem?_map, hi]; rfl
          simp only [interleave, hm, e1]
          rw [← overall_set]
          exact ih H' h2
        | sizing h z k =>
          cases hst
          have H' := two_size H hi
          have hm : ps.map overall = (ps.set i (.run (k (.ok h)))).map overall := by
            rw [overall_set, show overall (Proc.run (k (.ok h))) = overall (Proc.sizing h z k) from rfl, ← overall_set]
            congr 1
            obtain ⟨hil, e⟩ := List.getElem?_eq_some_iff.1 hi
            rw [← e, List.set_getElem_self]
          rw [hm]
          exact ih H' h2
        | mapping h k =>
          cases hst
          obtain ⟨e1, H'⟩ := two_map H hi (h1 h k hi)
          have hm : ps.map overall = (ps.set i (.run (k (if s.segs h = [] then .error .valueError else .ok h)))).map overall := by
            rw [overall_set, show overall (Proc.run (k (if s.segs h = [] then .error .valueError else .ok h))) = overall (Proc.mapping h k) from e1,
              ← overall_set]
            congr 1
            obtain ⟨hil, e⟩ := List.getElem?_eq_some_iff.1 hi
            rw [← e, List.set_getElem_self]
          rw [hm]
          exact ih H' h2

theorem Two.same {ps : List (Proc α)} {s s0 : Store} (H : Two A U ps s s0) : SameButHalf ps s s0 :=
  ⟨H.names, H.next, fun _ _ _ _ e => ⟨(H.half e).1, (H.half e).2.1⟩, fun h hh => H.rest h fun ⟨i, z, k, e⟩ => hh i z k e⟩

theorem two_start {ps : List (Prog α)} {s : Store} (hlt : ∀ {n h}, s.names n = some h → h < s.next) {K : Nat → Prop}
    (hK : ∀ h, K h → h < s.next) (hp : ∀ p ∈ ps, Keeps A U (fun _ _ => True) K p) : Two A U (ps.map .run) s s := by
  have no : ∀ {i h z : Nat} {k : Except PyErr Nat → Prog α}, (ps.map Proc.run)[i]? ≠ some (.sizing h z k) := by
    intro i h z k e
    rw [List.getElem?_map] at e
    cases hi : ps[i]? <;> rw [hi] at e <;> cases e
  have no' : ∀ {i h : Nat} {k : Except PyErr Nat → Prog α}, (ps.map Proc.run)[i]? ≠ some (.mapping h k) := by
    intro i h k e
    rw [List.getElem?_map] at e
    cases hi : ps[i]? <;> rw [hi] at e <;> cases e
  refine ⟨rfl, rfl, hlt, fun e => absurd e no, fun e => absurd e no, fun _ _ => rfl, fun e => absurd e no', fun {i p} e => ?_⟩
  rw [List.getElem?_map] at e
  cases hi : ps[i]? with
  | none => rw [hi] at e; cases e
  | some q =>
    rw [hi] at e
    cases e
    exact ⟨K, fun h hh => ⟨hK h hh, fun ⟨_, _, _, e⟩ => no e⟩, hp q (List.mem_of_getElem? hi)⟩

/-! ## programs that notice nothing -/

/-- what is complete stays complete; a name is bound to a segment only by its creation, and unbound only when it is unlinked -/
theorem step_facts {p p' : Proc α} {s s' : Store} (e : p.step E s = some (p', s')) (hz : ∀ h z k, p = .sizing h z k → z ≠ 0) :
    (∀ h, h < s.next → s.segs h ≠ [] → s'.segs h ≠ []) ∧
    (∀ n h, s'.names n = some h → s.names n = some h ∨
      (h = s.next ∧ s.names n = none ∧ ∃ z k, p = .run (.op (.create n z) k) ∧ p' = .sizing h z k)) ∧
    (∀ n h, s.names n = some h → s'.names n = some h ∨ ∃ k, p = .run (.op (.unlink n) k)) ∧
    (∀ h k, p' = .mapping h k → ∃ n, p = .run (.op (.attach n) k) ∧ s.names n = some h ∧ s' = s) ∧
    (∀ h z k, p' = .sizing h z k → h = s.next) := by
  have idle : ∀ q : Prog α, s' = s → p' = .run q → (∀ h, h < s.next → s.segs h ≠ [] → s'.segs h ≠ []) ∧
      (∀ n h, s'.names n = some h → s.names n = some h ∨
        (h = s.next ∧ s.names n = none ∧ ∃ z k, p = .run (.op (.create n z) k) ∧ p' = .sizing h z k)) ∧
      (∀ n h, s.names n = some h → s'.names n = some h ∨ ∃ k, p = .run (.op (.unlink n) k)) ∧
      (∀ h k, p' = .mapping h k → ∃ n, p = .run (.op (.attach n) k) ∧ s.names n = some h ∧ s' = s) ∧
      (∀ h z k, p' = .sizing h z k → h = s.next) := by
    rintro q rfl rfl
    exact ⟨fun _ _ h => h, fun _ _ h => .inl h, fun _ _ h => .inl h, fun _ _ e => (nomatch e), fun _ _ _ e => nomatch e⟩
  cases p with
  | sizing h z k =>
    cases e
    refine ⟨fun h' _ hh => ?_, fun _ _ h => .inl h, fun _ _ h => .inl h, fun _ _ e => (nomatch e), fun _ _ _ e => nomatch e⟩
    simp only [Store.sized]
    split
    · simp [hz h z k rfl]
    · exact hh
  | mapping h k => cases e; exact idle _ rfl rfl
  | run p =>
    cases p with
    | ret a => cases e
    | raise e' => cases e
    | stuck => cases e
    | op o k =>
      cases o with
      | create n z =>
        simp only [Proc.step] at e
        split at e
        · cases e; exact idle _ rfl rfl
        · split at e
          · cases e; exact idle _ rfl rfl
          · split at e
            · cases e; exact idle _ rfl rfl
            · rename_i hnone
              cases e
              refine ⟨fun h hl hh => ?_, fun m h hm => ?_, fun m h hm => .inl ?_, fun _ _ e => (nomatch e), fun _ _ _ e => by cases e; rfl⟩
              · simp only [Store.opened]
                rw [if_neg (by omega)]
                exact hh
              · simp only [Store.opened] at hm
                split at hm
                · rename_i em
                  subst em
                  cases hm
                  exact .inr ⟨rfl, hnone, z, k, rfl, rfl⟩
                · exact .inl hm
              · simp only [Store.opened]
                rw [if_neg, hm]
                rintro rfl
                rw [hnone] at hm
                cases hm
      | attach n =>
        simp only [Proc.step] at e
        split at e
        · cases e; exact idle _ rfl rfl
        · split at e
          · rename_i hh
            cases e
            refine ⟨fun _ _ hh => hh, fun _ _ h => .inl h, fun _ _ h => .inl h, fun _ _ e => ?_, fun _ _ _ e => nomatch e⟩
            cases e
            exact ⟨n, rfl, hh, rfl⟩
          · cases e; exact idle _ rfl rfl
      | unlink n =>
        simp only [Proc.step, Op.step, Option.some.injEq, Prod.mk.injEq] at e
        obtain ⟨rfl, rfl⟩ := e
        split
        · refine ⟨fun _ _ hh => hh, fun m h hm => ?_, fun m h hm => ?_, fun _ _ e => (nomatch e), fun _ _ _ e => nomatch e⟩
          · simp only [] at hm
            split at hm
            · cases hm
            · exact .inl hm
          · by_cases em : m = n
            · subst em; exact .inr ⟨k, rfl⟩
            · refine .inl ?_
              simp only []
              rw [if_neg em, hm]
        · exact ⟨fun _ _ hh => hh, fun _ _ h => .inl h, fun _ _ h => .inl h, fun _ _ e => (nomatch e), fun _ _ _ e => nomatch e⟩
      | read h => cases e; exact idle _ rfl rfl
      | write h b =>
        simp only [Proc.step, Op.step, Option.some.injEq, Prod.mk.injEq] at e
        obtain ⟨rfl, rfl⟩ := e
        split
        · rename_i hl
          refine ⟨fun h' _ hh => ?_, fun _ _ h => .inl h, fun _ _ h => .inl h, fun _ _ e => (nomatch e), fun _ _ _ e => nomatch e⟩
          simp only []
          split
          · rename_i e
            subst e
            intro hb
            subst hb
            exact hh (List.eq_nil_of_length_eq_zero hl.symm)
          · exact hh
        · exact ⟨fun _ _ hh => hh, fun _ _ h => .inl h, fun _ _ h => .inl h, fun _ _ e => (nomatch e), fun _ _ _ e => nomatch e⟩
      | writeFront h b =>
        simp only [Proc.step, Op.step, Option.some.injEq, Prod.mk.injEq] at e
        obtain ⟨rfl, rfl⟩ := e
        refine ⟨fun h' _ hh => ?_, fun _ _ h => .inl h, fun _ _ h => .inl h, fun _ _ e => (nomatch e), fun _ _ _ e => nomatch e⟩
        simp only []
        split
        · rename_i e
          subst e
          intro hb
          simp only [List.append_eq_nil_iff] at hb
          obtain ⟨rfl, hb⟩ := hb
          exact hh (by simpa using hb)
        · exact hh

/-- the names in `B` are bound to complete blocks, and every process about to map a block either finds it complete or
does not mind -/
structure Calm (B : Str → Prop) (ps : List (Proc α)) (s : Store) : Prop where
  bound : ∀ n, B n → ∃ h, s.names n = some h ∧ s.segs h ≠ []
  ok : ∀ {i h : Nat} {k : Except PyErr Nat → Prog α}, ps[i]? = some (.mapping h k) → s.segs h ≠ [] ∨ k (.error .valueError) = k (.ok h)

theorem calm_step {B : Str → Prop} {ps : List (Proc α)} {s s0 : Store} (hBU : ∀ n, B n → ¬ U n) (H : Two A U ps s s0) (C : Calm B ps s) {i : Nat}
    {p : Proc α} (hi : ps[i]? = some p) {p' : Proc α} {s' : Store} (e : p.step E s = some (p', s'))
    (hnew : ∀ n k h, p = .run (.op (.attach n) k) → A n → s.names n = some h → s.segs h ≠ []) : Calm B (ps.set i p') s' := by
  obtain ⟨K, hK, hk⟩ := H.own hi
  obtain ⟨k1, _, k2, k3, _⟩ := step_facts e fun h z k e' => (H.half (e' ▸ hi)).2.2.1
  refine ⟨fun n hn => ?_, fun {j h k} e' => ?_⟩
  · obtain ⟨h, hh, hne⟩ := C.bound n hn
    refine ⟨h, (k2 n h hh).resolve_right ?_, k1 h (H.lt hh) hne⟩
    rintro ⟨k, rfl⟩
    exact hBU n hn hk.1
  · rw [set_get' hi] at e'
    split at e'
    · obtain ⟨n, rfl, hn, rfl⟩ := k3 h k (Option.some.inj e')
      rcases hk.1 with ha | ht
      · exact .inl (hnew n k h rfl ha hn)
      · exact .inr (ht h)
    · exact (C.ok e').imp (k1 h (H.map e')) id

theorem calm_unnoticed {ps : List (Proc α)} {s s0 : Store} (hAU : ∀ n, A n → ¬ U n) (H : Two A U ps s s0) (C : Calm A ps s)
    (sched : List Nat) : Unnoticed E sched ps s := by
  induction sched generalizing ps s s0 with
  | nil => trivial
  | cons i sched ih =>
    have h1 : ∀ h k, ps[i]? = some (.mapping h k) → s.segs h = [] → k (.error .valueError) = k (.ok h) :=
      fun h k e hh => (C.ok e).resolve_left fun hne => hne hh
    refine ⟨h1, ?_⟩
    cases hi : ps[i]? with
    | none => exact ih H C
    | some p =>
      simp only []
      cases hst : p.step E s with
      | none => exact ih H C
      | some q =>
        obtain ⟨p', s'⟩ := q
        simp only []
        have C' := calm_step hAU H C hi hst fun n k h _ hA hn => by
          obtain ⟨h', hh, hne⟩ := C.bound n hA
          rw [hn] at hh
          cases hh
          exact hne
        cases p with
        | run p =>
          obtain ⟨s0', _, H'⟩ := two_run H hi hst
          exact ih H' C'
        | sizing h z k => cases hst; exact ih (two_size H hi) C'
        | mapping h k => cases hst; exact ih (two_map H hi (h1 h k hi)).2 C'

end Verif.Lemmas
