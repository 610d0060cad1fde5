import Verif.Model.AtExit
import Verif.Props.Notepad
import Verif.Props.Grid
import Mathlib.Data.List.Induction
/-!
# C127: `cleanup_on_exit`
-/
namespace Verif.Props
open Verif Verif.Model Verif.Lemmas Verif.Spec

variable {V : Type} {E : Env} {c : Codec V} {isNone : V → Bool}

/-- what the process registers for its notepads, numbered as they were made -/
def registeredPads (E : Env) : Nat → List Pad → List AtExit
  | _, [] => []
  | n, p :: t => padCleanup E n p ++ registeredPads E (n + 1) t

theorem registeredPads_append (E : Env) (a b : List Pad) (n : Nat) :
    registeredPads E n (a ++ b) = registeredPads E n a ++ registeredPads E (n + a.length) b := by
  induction a generalizing n with
  | nil => rfl
  | cons p t ih => simp [registeredPads, ih, Nat.add_comm, Nat.add_left_comm]

/-- the notepads of these prefixes, all closed -/
theorem exit_spec (mine : List Pad) (hap : mine.Pairwise fun p q => Apart p.pre q.pre) (gone : List ExitObj) (s : Store)
    (w : s.WF) (hgone : ∀ n, n < mine.length → ExitObj.obj n ∉ gone)
    (hrep : ∀ p ∈ mine, p.mode.Runs ∧ ∃ U ix m keys fl, KeysOK E p.pre U ∧ NamesOK E (indexName p.pre) ∧
      p.index = .tag ix ∧ PadRep E c isNone p.pre U s ix m keys fl ∧ fl + keys.length + 2 < 256 ^ 5) :
    ∃ s', runExit E (registeredPads E 0 mine).reverse gone s = ⟨[], false, s'⟩ ∧ s'.WF ∧
      (∀ p ∈ mine, NoPad s' p.pre) ∧ SameOff (fun x => ∃ p ∈ mine, padTouch p.pre x) s s' := by
  induction mine using List.reverseRecOn generalizing gone s with
  | nil => exact ⟨s, rfl, w, by simp, SameOff.refl _ _⟩
  | append_singleton t p ih =>
    obtain ⟨hap1, _, hap2⟩ := List.pairwise_append.1 hap
    obtain ⟨hmode, U, ix, m, keys, fl, hU, hok, hpi, hr, hfl⟩ := hrep p (by simp)
    obtain ⟨s1, e1, w1, hn1, hs1⟩ := run_padClose hU hok rfl hpi hmode w hr hfl
    have hg : ExitObj.obj t.length ∉ gone := hgone t.length (by simp)
    have hstep : runExit E (registeredPads E 0 (t ++ [p])).reverse gone s =
        runExit E (registeredPads E 0 t).reverse ([.indexOf t.length, .obj t.length] ++ gone) s1 := by
      rw [registeredPads_append]
      simp only [registeredPads, padCleanup, hpi, Nat.zero_add, List.append_nil, List.reverse_append, List.reverse_cons,
        List.reverse_nil, List.nil_append, List.cons_append, runExit, hg, if_false, e1, List.mem_cons, true_or, if_true]
    obtain ⟨s2, e2, w2, hn2, hs2⟩ := ih hap1 ([.indexOf t.length, .obj t.length] ++ gone) s1 w1
      (by
        intro n hn hm
        simp only [List.mem_append, List.mem_cons, List.not_mem_nil, or_false, reduceCtorEq, ExitObj.obj.injEq,
          false_or] at hm
        rcases hm with hm | hm
        · omega
        · exact hgone n (by simp; omega) hm)
      (by
        intro q hq
        obtain ⟨hqm, U', ix', m', keys', fl', hU', hok', h1, h2, h3⟩ := hrep q (by simp [hq])
        exact ⟨hqm, U', ix', m', keys', fl', hU', hok', h1, h2.same hU' hs1 fun x hx =>
          (hap2 q hq p (by simp)).touch hx, h3⟩)
    refine ⟨s2, hstep.trans e2, w2, ?_, ?_⟩
    · intro q hq
      rcases List.mem_append.1 hq with hq | hq
      · exact hn2 q hq
      · simp only [List.mem_singleton] at hq
        subst hq
        intro x hx
        rw [(hs2 x fun ⟨r, hr, hx'⟩ => (hap2 r hr q (by simp)).touch hx' hx).2]
        exact hn1 x hx
    · exact (hs1.mono fun x hx => ⟨p, by simp, hx⟩).trans (hs2.mono fun x ⟨q, hq, hx⟩ => ⟨q, by simp [hq], hx⟩)

/-- **C127** (partial: notepads not closed and made anew by others). After any history of calls on any number of notepads
whose prefixes are apart, let a process that is a client of some of them, with `cleanup_on_exit=True`, end. Then no
exception is printed, all blocks of these notepads are gone, and all other blocks are as they were. -/
theorem C127_exit_partial {ι : Type} [DecidableEq ι] (E : Env) (c : Codec V) (isNone : V → Bool) (pre : ι → Str)
    (U : ι → Str → Prop) (hU : ∀ i, KeysOK E (pre i) (U i)) (hok : ∀ i, NamesOK E (indexName (pre i)))
    (hap : ∀ i j, i ≠ j → Apart (pre i) (pre j)) (h : List (ι × NoteOp V)) (hh : ∀ x ∈ h, OpOK E c isNone (U x.1) x.2)
    (hlen : 2 * h.length + 2 < 256 ^ 5) (s0 : Store) (w : s0.WF) (hno : ∀ i, NoPad s0 (pre i)) (mine : List (ι × Pad))
    (hnd : (mine.map Prod.fst).Nodup)
    (hmine : ∀ x ∈ mine, x.2 ∈ (playPads E c isNone pre h (fun _ => []) s0).2.1 x.1) :
    let s := (playPads E c isNone pre h (fun _ => []) s0).2.2
    let r := exitProcess E (registeredPads E 0 (mine.map Prod.snd)) s
    r.printed = [] ∧ r.hangs = false ∧
    (∀ x ∈ mine, ∀ a, padTouch (pre x.1) a → r.store.content a = none) ∧
    ∀ a, (∀ x ∈ mine, ¬ (pre x.1 ++ ['_']) <+: a) → r.store.content a = s.content a := by
  obtain ⟨w', h1, _⟩ := playPads_spec (c := c) (isNone := isNone) pre U hU hok hap h hh (fun _ => []) s0 w
    (fun _ => noteStart) 0 (fun i => ⟨rfl, rfl, hno i⟩) (by omega)
  have hcl : ∀ x ∈ mine, x.2.pre = pre x.1 ∧ x.2.mode.Runs ∧ ∃ ix m keys fl, x.2.index = .tag ix ∧
      PadRep E c isNone (pre x.1) (U x.1) (playPads E c isNone pre h (fun _ => []) s0).2.2 ix m keys fl ∧
      fl + keys.length + 2 < 256 ^ 5 := by
    intro x hx
    have h2 := (h1 x.1).2.2
    have hm := hmine x hx
    cases hmap : (noteEnd (V := V) noteStart (callsOf x.1 h)).map with
    | none =>
      rw [hmap] at h2
      rw [h2.1] at hm
      cases hm
    | some m =>
      rw [hmap] at h2
      obtain ⟨ix, keys, fl, h3, h4, h5⟩ := h2
      obtain ⟨q1, q2, q3⟩ := h5 x.2 hm
      exact ⟨q1, q3, ix, m, keys, fl, q2, h3, by omega⟩
  obtain ⟨s', e, _, hn, hs⟩ := exit_spec (E := E) (c := c) (isNone := isNone) (mine.map Prod.snd)
    (by
      refine List.pairwise_map.2 ((List.pairwise_map.1 hnd).imp_of_mem ?_)
      intro x y hx hy hxy
      rw [(hcl x hx).1, (hcl y hy).1]
      exact hap _ _ hxy) [] _ w' (by simp)
    (by
      intro p hp
      obtain ⟨x, hx, rfl⟩ := List.mem_map.1 hp
      obtain ⟨q1, q2, ix, m, keys, fl, q3, q4, q5⟩ := hcl x hx
      refine ⟨q2, U x.1, ix, m, keys, fl, ?_, ?_, q3, ?_, q5⟩ <;> rw [q1]
      · exact hU x.1
      · exact hok x.1
      · exact q4)
  simp only [exitProcess, e]
  refine ⟨trivial, trivial, ?_, ?_⟩
  · intro x hx a ha
    have := hn x.2 (List.mem_map_of_mem hx)
    rw [(hcl x hx).1] at this
    exact this a ha
  · intro a ha
    refine (hs a ?_).2
    rintro ⟨p, hp, ht⟩
    obtain ⟨x, hx, rfl⟩ := List.mem_map.1 hp
    rw [(hcl x hx).1] at ht
    exact ha x hx (touch_prefix ht)

/-- the memory `twoNotes` leaves; the process of the second client ends -/
example : ∃ s : Store,
    let r := exitProcess labEnv (registeredPads labEnv 0 [padTwo]) s
    s.content (padAddr np kA.text) ≠ none ∧ r.printed = [] ∧ r.store.content (padAddr np kA.text) = none := by
  refine ⟨twoStore, by decide, ?_⟩
  have := C127_exit_partial (ι := Unit) labEnv demoCodec (fun _ => false) (fun _ => np) (fun _ => labKeys)
    (fun _ => labKeysOK np) (fun _ => labIndexOK np) (fun i j h => absurd rfl h) (twoNotes.map fun o => ((), o))
    (by intro x hx; obtain ⟨o, ho, rfl⟩ := List.mem_map.1 hx; exact twoNotes_ok o ho) (by decide) Store.empty wf_empty
    (fun _ _ _ => rfl) [((), padTwo)] (by decide)
    (by intro x hx; simp only [List.mem_singleton] at hx; subst hx; exact List.mem_cons_of_mem _ List.mem_cons_self)
  exact ⟨this.1, this.2.2.1 _ (List.mem_singleton.2 rfl) _ (Or.inr ⟨kA.text, (labKey_lab kA (by simp)).2.2, rfl⟩)⟩

/-- **C127**: a notepad with a `FakeIndex` is left as it is -/
theorem C127_fake_index (E : Env) (p : Pad) (h : p.index = .fake) (s : Store) :
    exitProcess E (registeredPads E 0 [p]) s = ⟨[], false, s⟩ := by
  simp only [exitProcess, registeredPads, padCleanup, h, List.append_nil, List.reverse_cons, List.reverse_nil, List.nil_append,
    runExit, List.not_mem_nil, if_false, padClose]
  rfl

/-- **C127** (GridPaper): with the default lock, a process that has a GridPaper with `cleanup_on_exit=True` and a key in it
does not end, however long it is given -/
theorem C127_grid_hangs (E : Env) (c : Codec ArrMeta) (nbytes : Str → List Nat → Nat) (pre : Str) (U : Str → Prop)
    (hU : KeysOK E pre U) (hok : NamesOK E (indexName pre)) (noLock : Bool) (s : Store) (gs : List Grid)
    (m : Str → Option (Arr × Nat)) (h : GridInUse E c nbytes pre U noLock s gs m) (g : Grid) (hg : g ∈ gs) (k : Str)
    (hmk : m k ≠ none) (n fuel : Nat) :
    (exitProcess E (gridCleanup E n { g with mode := .sliding fuel }) s).hangs = true := by
  obtain ⟨w, ix, keys, f, fl, hrep, hfl, hcl⟩ := h.rep hU hok
  obtain ⟨hg1, hg2, _, _⟩ := hcl g hg
  have hokn : NamesOK E ix.name := by rw [hrep.name]; exact hok
  cases hks : keys with
  | nil =>
    have := (hrep.live k).2 hmk
    rw [hks] at this
    cases this
  | cons k0 t =>
    have hk0 : k0 ∈ keys := by rw [hks]; exact List.mem_cons_self
    obtain ⟨s', e, _⟩ := C54_grid_del_hangs E c nbytes pre U hU hok noLock s gs m h g hg (.str k0) (hrep.used k0 hk0)
      ((hrep.live k0).1 hk0) fuel
    have hc : (gridClose E { g with mode := .sliding fuel }).run E s = (.stuck, s') := by
      rw [gridClose, run_bind, show (indexUpdate E g.index).run E s = (.ok keys, s) by
        rw [hg2]; exact run_indexUpdate hrep.rep.rep hokn, andThen_ok, hks, run_bind, gridDelAll, run_bind, e]
      rfl
    simp only [exitProcess, gridCleanup, List.reverse_cons, List.reverse_nil, List.nil_append, List.cons_append, runExit,
      List.not_mem_nil, if_false, hc]

example : ∃ s, exitProcess labEnv (gridCleanup labEnv 0 gridTwo) twoGridStore = ⟨[], true, s⟩ := ⟨_, rfl⟩

/-- C127, in full: when a process ends, the notepads it has a client of with `cleanup_on_exit=True` are removed, without an
exception -/
def C127_full : Prop :=
  ∀ (V : Type) (E : Env) (c : Codec V) (isNone : V → Bool) (pre : Str) (U : Str → Prop), KeysOK E pre U →
    NamesOK E (indexName pre) → ∀ (s : Store) (cl : List Pad) (m : Str → Option V), InUse E c isNone pre U s cl m →
    ∀ mine : List Pad, (∀ p ∈ mine, p ∈ cl) →
      (exitProcess E (registeredPads E 0 mine) s).printed = []

/-- **C127**: of two clients of the same notepad, the second prints `FileNotFoundError` twice -/
theorem C127_two_clients :
    (exitProcess labEnv (registeredPads labEnv 0 [padOne, padTwo]) twoStore).printed = [.fileNotFound, .fileNotFound] := by
  decide

/-- C127 is false of the code -/
theorem C127_full_false : ¬ C127_full := by
  intro h
  have h1 := h Nat labEnv demoCodec (fun _ => false) np labKeys (labKeysOK np) (labIndexOK np) _ _ _ two_inUse [padOne, padTwo]
    (fun p hp => hp)
  rw [C127_two_clients] at h1
  cases h1

/-- `twoNotes`, then the second client closes the notepad, and somebody makes it anew -/
def anewNotes : List (NoteOp Nat) := twoNotes ++ [.close 1, .create .fake, .set 0 kA 2 true]
def anewStore : Store := (padHistory labEnv demoCodec (fun _ => false) np anewNotes Store.empty).2.2

/-- **C127**: the process of the first client ends. Nothing is printed; the new notepad, which that process never saw, can no
longer be joined, and its values stay in memory -/
theorem C127_stale :
    (∃ p, ((padInit np false .fake).run labEnv anewStore).1 = .ok p) ∧
    (exitProcess labEnv (registeredPads labEnv 0 [padOne]) anewStore).printed = [] ∧
    ((padInit np false .fake).run labEnv (exitProcess labEnv (registeredPads labEnv 0 [padOne]) anewStore).store).1 =
      .err .fileNotFound ∧
    (exitProcess labEnv (registeredPads labEnv 0 [padOne]) anewStore).store.content (padAddr np kA.text) ≠ none := by
  exact ⟨⟨_, rfl⟩, by decide, rfl, by decide⟩

/-- **C127**: a `Sticky` that is there is removed at exit; one that has been pulled prints `FileNotFoundError` -/
theorem C127_sticky (E : Env) (n : Nat) (st : Sticky V) (hok : E.okName st.address = true) (s : Store) :
    let r := exitProcess E (stickyCleanup n st) s
    r.hangs = false ∧ (∀ x, r.store.content x = if x = st.address then none else s.content x) ∧
    r.printed = if s.content st.address = none then [.fileNotFound] else [] := by
  cases hn : s.names st.address with
  | none =>
    have e : (stickyClose st).run E s = (.err .fileNotFound, s) := by
      rw [stickyClose, run_bind, run_attach_none hok hn]; rfl
    have hc : s.content st.address = none := by simp [Store.content, hn]
    simp only [exitProcess, stickyCleanup, List.reverse_cons, List.reverse_nil, List.nil_append, runExit, List.not_mem_nil,
      if_false, e, hc, if_true]
    refine ⟨trivial, fun x => ?_, trivial⟩
    by_cases hx : x = st.address
    · rw [if_pos hx, hx, hc]
    · rw [if_neg hx]
  | some i =>
    have e : (stickyClose st).run E s =
        (.ok (), { s with names := fun x => if x = st.address then none else s.names x }) := by
      rw [stickyClose, run_bind, run_attach hok hn, andThen_ok, run_unlink hn]; rfl
    have hc : s.content st.address ≠ none := by simp [Store.content, hn]
    simp only [exitProcess, stickyCleanup, List.reverse_cons, List.reverse_nil, List.nil_append, runExit, List.not_mem_nil,
      if_false, e, hc]
    refine ⟨trivial, fun x => ?_, trivial⟩
    by_cases hx : x = st.address <;> simp [Store.content, hx]

end Verif.Props
