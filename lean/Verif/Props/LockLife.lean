import Verif.Lemmas.LockLife
import Verif.Props.LockTimeout
/-!
# C175: `SlidingLock` objects, and closing them
-/
namespace Verif.Props
open Verif Verif.Model Verif.Lemmas Verif.Spec
variable {E : Env}

/-- C175, in full: whatever objects are made, entered, left and closed, no two are entered at the same time -/
def C175_full : Prop :=
  ∀ (E : Env) (fuel : Nat) (name : Str), NamesOK E name → ∀ ops : List LifeOp, ops.length < 2 ^ 40 → proper false [] [] ops →
    ∀ st, lifeRun E fuel name ops (.fresh Store.empty) = (.ok (), st) →
      ∀ i j, st.inside i ≠ none → st.inside j ≠ none → i = j

/-- three objects; the first has been used and is closed; the second, made before that, and the third, made after it -/
def closedEarly : List LifeOp := [.new 0, .enter 0, .exit 0, .new 1, .close 0, .new 2, .enter 1, .enter 2]

/-- an object is closed while another is entered -/
def closedUnder : List LifeOp := [.new 0, .enter 0, .exit 0, .new 1, .enter 1, .close 0, .new 2, .enter 2]

theorem both_enter : ∃ st, lifeRun labEnv 1 ['n'] closedEarly (.fresh Store.empty) = (.ok (), st) ∧ st.inside 1 ≠ none ∧
    st.inside 2 ≠ none :=
  ⟨_, rfl, by simp [setAt], by simp [setAt]⟩

/-- C175 is false of the code: the object made before the count block was unlinked keeps the old one -/
theorem C175_full_false : ¬ C175_full := by
  intro h
  obtain ⟨st, e, h1, h2⟩ := both_enter
  have := h labEnv 1 ['n'] (labNames (by simp)) closedEarly (by decide) (by simp [closedEarly, proper]) st e 1 2 h1 h2
  cases this

/-- it is false too if an object is closed while another is entered, even if nothing made before is entered after it -/
theorem C175_closed_under : ∃ st, lifeRun labEnv 1 ['n'] closedUnder (.fresh Store.empty) = (.ok (), st) ∧
    proper false [] [] closedUnder ∧ st.inside 1 ≠ none ∧ st.inside 2 ≠ none :=
  ⟨_, rfl, by simp [closedUnder, proper], by simp [setAt], by simp [setAt]⟩

/-- an object that is closed while it is entered cannot be left: `FileNotFoundError` -/
theorem C175_closed_inside : (lifeRun labEnv 1 ['n'] [.new 0, .enter 0, .close 0, .exit 0] (.fresh Store.empty)).1 =
    .err .fileNotFound := rfl

/-! ## What holds -/

/-- no object yet; nobody holds or waits for the lock -/
theorem fresh_inv {s : Store} (w : s.WF) {name : Str} {fl : Nat} (hc : LockClean s name fl) :
    LifeInv name (.fresh s) [] [] fl := ⟨w, fun _ h => (by cases h), .inl ⟨rfl, fun _ => rfl, hc⟩⟩

theorem life_run {name : Str} {fuel : Nat} (hok : NamesOK E name) (hf : 0 < fuel) (ops : List LifeOp) {st : LifeSt}
    {live ins : List Nat} {fl : Nat} (h : LifeInv name st live ins fl) (hp : proper true live ins ops)
    (hb : fl + ops.length < 2 ^ 40) :
    (∀ st', lifeRun E fuel name ops st = (.ok (), st') → ∃ live' ins' fl', LifeInv name st' live' ins' fl' ∧ fl' ≤ fl + ops.length) ∧
    (oneByOne ins ops → ∃ st', lifeRun E fuel name ops st = (.ok (), st')) ∧
    ((lifeRun E fuel name ops st).1 = .ok () ∨ (lifeRun E fuel name ops st).1 = .stuck) := by
  induction ops generalizing st live ins fl with
  | nil =>
    refine ⟨fun st' e => ?_, fun _ => ⟨st, rfl⟩, .inl rfl⟩
    injection e with _ e
    exact ⟨live, ins, fl, e ▸ h, Nat.le_add_right _ _⟩
  | cons op t ih =>
    simp only [List.length_cons] at hb ⊢
    have hb5 : fl + 1 < 256 ^ 5 := by
      have : (2 : Nat) ^ 40 = 256 ^ 5 := by decide
      omega
    have go : ∀ {st1 : LifeSt} {live1 ins1 : List Nat} {fl1 : Nat}, lifeStep E fuel name st op = (.ok (), st1) →
        LifeInv name st1 live1 ins1 fl1 → proper true live1 ins1 t → fl1 ≤ fl + 1 →
        (oneByOne ins (op :: t) → oneByOne ins1 t) →
        (∀ st', lifeRun E fuel name (op :: t) st = (.ok (), st') →
          ∃ live' ins' fl', LifeInv name st' live' ins' fl' ∧ fl' ≤ fl + (t.length + 1)) ∧
        (oneByOne ins (op :: t) → ∃ st', lifeRun E fuel name (op :: t) st = (.ok (), st')) ∧
        ((lifeRun E fuel name (op :: t) st).1 = .ok () ∨ (lifeRun E fuel name (op :: t) st).1 = .stuck) := by
      intro st1 live1 ins1 fl1 e h1 hp1 hfl ho
      have er : lifeRun E fuel name (op :: t) st = lifeRun E fuel name t st1 := by simp only [lifeRun, e]
      rw [er]
      obtain ⟨ha, hb', hc⟩ := ih h1 hp1 (by omega)
      refine ⟨fun st' hs => ?_, fun hh => hb' (ho hh), hc⟩
      obtain ⟨l, n, f, hi, hle⟩ := ha st' hs
      exact ⟨l, n, f, hi, by omega⟩
    cases op with
    | new i =>
      obtain ⟨st1, e, h1⟩ := life_new (E := E) (fuel := fuel) h hok hp.1 hp.2.1
      exact go e h1 hp.2.2 (by omega) id
    | enter i =>
      by_cases hins : ins = []
      · subst hins
        obtain ⟨st1, e, h1⟩ := life_enter_free (E := E) h hok hf hb5 hp.1
        exact go e h1 hp.2.2 (by omega) fun hh => hh.2
      · have e := life_enter_held (E := E) (fuel := fuel) h hok hb5 hp.1 hins
        have er : (lifeRun E fuel name (.enter i :: t) st).1 = .stuck := by
          rcases hs : lifeStep E fuel name st (.enter i) with ⟨o, st1⟩
          rw [hs] at e
          have e : o = .stuck := e
          subst e
          simp only [lifeRun, hs]
        refine ⟨fun st' hs => ?_, fun hh => absurd hh.1 hins, .inr er⟩
        rw [hs] at er; cases er
    | exit i =>
      obtain ⟨st1, e, h1⟩ := life_exit (E := E) (fuel := fuel) h hb5 hp.1
      exact go e h1 hp.2 (Nat.le_refl _) id
    | close i =>
      have hins : ins = [] := hp.2.2.1 rfl
      subst hins
      obtain ⟨st1, e, h1, _⟩ := life_close (E := E) (fuel := fuel) h hok hp.1
      exact go e h1 hp.2.2.2 (by omega) id

/-- C175, the part that holds: if an object is closed only when none is entered, and after it none is used that was made
before, no two objects are entered at the same time -/
theorem C175_exclusion_partial {name : Str} {fuel : Nat} (hok : NamesOK E name) (hf : 0 < fuel) {s : Store} (w : s.WF)
    {fl : Nat} (hc : LockClean s name fl) (ops : List LifeOp) (hp : proper true [] [] ops) (hb : fl + ops.length < 2 ^ 40)
    (st : LifeSt) (e : lifeRun E fuel name ops (.fresh s) = (.ok (), st)) (i j : Nat) (hi : st.inside i ≠ none)
    (hj : st.inside j ≠ none) : i = j := by
  obtain ⟨_, _, _, h, _⟩ := (life_run hok hf ops (fresh_inv w hc) hp hb).1 st e
  exact h.uniq hi hj

/-- no call raises, and if no object is entered while another is, every call returns -/
theorem C175_returns {name : Str} {fuel : Nat} (hok : NamesOK E name) (hf : 0 < fuel) {s : Store} (w : s.WF)
    {fl : Nat} (hc : LockClean s name fl) (ops : List LifeOp) (hp : proper true [] [] ops) (hb : fl + ops.length < 2 ^ 40) :
    (oneByOne [] ops → (lifeRun E fuel name ops (.fresh s)).1 = .ok ()) ∧
    ∀ e, (lifeRun E fuel name ops (.fresh s)).1 ≠ .err e := by
  obtain ⟨_, h2, h3⟩ := life_run hok hf ops (fresh_inv w hc) hp hb
  refine ⟨fun h => ?_, fun e he => ?_⟩
  · obtain ⟨st, e⟩ := h2 h
    rw [e]
  · rcases h3 with h | h <;> rw [h] at he <;> cases he

theorem lifeRun_append (fuel : Nat) (name : Str) (a b : List LifeOp) {st st' : LifeSt}
    (e : lifeRun E fuel name a st = (.ok (), st')) : lifeRun E fuel name (a ++ b) st = lifeRun E fuel name b st' := by
  induction a generalizing st with
  | nil => injection e with _ e; rw [← e]; rfl
  | cons op t ih =>
    simp only [lifeRun] at e
    simp only [List.cons_append, lifeRun]
    rcases hs : lifeStep E fuel name st op with ⟨o, st1⟩
    rw [hs] at e
    cases o with
    | ok u => exact ih e
    | err x => injection e with e _; cases e
    | stuck => injection e with e _; cases e

/-- an object that is made, used any number of times and closed leaves nothing in memory -/
theorem C175_nothing_left {name : Str} {fuel : Nat} (hok : NamesOK E name) (hf : 0 < fuel) {s : Store} (w : s.WF)
    {fl : Nat} (hc : LockClean s name fl) (i n : Nat) (hb : fl + (2 * n + 2) < 2 ^ 40) :
    ∃ st, lifeRun E fuel name (.new i :: (List.replicate n [LifeOp.enter i, .exit i]).flatten ++ [.close i]) (.fresh s) = (.ok (), st) ∧
      ∀ x, lockNames name x → st.store.content x = none := by
  have hb5 : fl + (2 * n + 2) < 256 ^ 5 := hb
  obtain ⟨st1, e1, h1⟩ := life_new (E := E) (fuel := fuel) (fresh_inv w hc) hok (i := i) (by simp) (by simp)
  have huse : ∀ (n fl : Nat) (st : LifeSt), LifeInv name st [i] [] fl → fl + (2 * n + 2) < 256 ^ 5 →
      ∃ st', lifeRun E fuel name (List.replicate n [LifeOp.enter i, .exit i]).flatten st = (.ok (), st') ∧
        LifeInv name st' [i] [] (fl + n) := by
    intro n
    induction n with
    | zero => exact fun fl st h _ => ⟨st, rfl, h⟩
    | succ n ih =>
      intro fl st h hb
      obtain ⟨sa, ea, ha⟩ := life_enter_free (E := E) h hok hf (by omega) (i := i) (.head _)
      obtain ⟨sb, eb, hb'⟩ := life_exit (E := E) (fuel := fuel) ha (by omega) (i := i) (.head _)
      have hb' : LifeInv name sb [i] [] (fl + 1) := by simpa using hb'
      obtain ⟨st', e, h'⟩ := ih (fl + 1) sb hb' (by omega)
      refine ⟨st', ?_, by rw [show fl + (n + 1) = fl + 1 + n by omega]; exact h'⟩
      simp only [List.replicate_succ, List.flatten_cons, List.cons_append, List.nil_append, lifeRun, ea, eb]
      exact e
  obtain ⟨st2, e2, h2⟩ := huse n fl st1 h1 hb5
  obtain ⟨st3, e3, _, h3⟩ := life_close (E := E) (fuel := fuel) h2 hok (i := i) (.head _)
  refine ⟨st3, ?_, h3⟩
  simp only [List.cons_append, lifeRun, e1]
  rw [lifeRun_append fuel name _ _ e2]
  simp only [lifeRun, e3]

/-- closing the object that is entered removes every block of the lock; it may be closed again, but it can no longer be left:
`FileNotFoundError` -/
theorem C175_close_entered {name : Str} {fuel : Nat} {st : LifeSt} {live : List Nat} {i fl : Nat} (hok : NamesOK E name)
    (h : LifeInv name st live [i] fl) (hi : i ∈ live) (hb : fl + 1 < 2 ^ 40) :
    ∃ st', lifeStep E fuel name st (.close i) = (.ok (), st') ∧ (∀ x, lockNames name x → st'.store.content x = none) ∧
      lifeStep E fuel name st' (.close i) = (.ok (), st') ∧ (lifeStep E fuel name st' (.exit i)).1 = .err .fileNotFound := by
  obtain ⟨c, ho, hn⟩ := h.live i hi
  rcases h.phase with ⟨h0, _⟩ | ⟨k, hd, e, hk, h1, hh, hnum, hfl⟩
  · cases h0
  injection e with e _
  subst e
  have hl0 : st.store.content (lockAddr name hd.number) = some [0] := by rw [hh.lock]; simp
  obtain ⟨a, ha, _⟩ := names_of_content hl0
  have f1 := eff_unlinked h.wf (lockAddr name hd.number)
  have hc1 : (st.store.unlinked (lockAddr name hd.number)).names (countAddr name) = some hd.count := by
    rw [f1.names _ (by simp only [addr_count, addr_lock, addr_inj]; simp)]; exact hh.count
  have f2 := eff_unlinked f1.wf (countAddr name)
  have hm2 : ((st.store.unlinked (lockAddr name hd.number)).unlinked (countAddr name)).content (markerAddr name hd.number) =
      some [0] := by
    rw [f2.content, if_neg (by simp only [addr_count, addr_marker, addr_inj]; simp), f1.content,
      if_neg (by simp only [addr_lock, addr_marker, addr_inj]; simp), hh.marker]
    simp
  obtain ⟨b, hb2, _⟩ := names_of_content hm2
  have f3 := eff_unlinked f2.wf (markerAddr name hd.number)
  generalize hs3 : ((st.store.unlinked (lockAddr name hd.number)).unlinked (countAddr name)).unlinked (markerAddr name hd.number) = s3
    at f3
  have hlen : (s3.segs hd.count).length = 5 := by rw [← hs3]; exact hh.countLen
  have hm : ∀ n, s3.content (markerAddr name n) = none := by
    intro n
    rw [f3.content]
    by_cases hnn : n = hd.number
    · rw [hnn, if_pos rfl]
    · rw [if_neg (by simp only [addr_marker, addr_inj]; simpa using hnn), f2.content,
        if_neg (by simp only [addr_count, addr_marker, addr_inj]; simp), f1.content,
        if_neg (by simp only [addr_lock, addr_marker, addr_inj]; simp), hh.marker, if_neg hnn]
  have hl : ∀ n, s3.content (lockAddr name n) = none := by
    intro n
    rw [f3.content, if_neg (by simp only [addr_lock, addr_marker, addr_inj]; simp), f2.content,
      if_neg (by simp only [addr_count, addr_lock, addr_inj]; simp), f1.content]
    by_cases hnn : n = hd.number
    · rw [hnn, if_pos rfl]
    · rw [if_neg (by simp only [addr_lock, addr_inj]; simpa using hnn), hh.lock, if_neg hnn]
  have hc : s3.content (countAddr name) = none := by
    rw [f3.content, if_neg (by simp only [addr_count, addr_marker, addr_inj]; simp), f2.content, if_pos rfl]
  have hdel : ∀ {x : Str} {j : Nat} {s : Store}, E.okName x = true → s.names x = some j →
      (tryDelete x).run E s = (.ok (), s.unlinked x) := by
    intro x j s hx hj
    rw [tryDelete, run_bind, run_attempt, run_deleteBlock hx hj]; rfl
  have hgone : ∀ {x : Str} {s : Store}, E.okName x = true → s.content x = none → (tryDelete x).run E s = (.ok (), s) := by
    intro x s hx hj
    rw [tryDelete, run_bind, run_attempt, run_deleteBlock_none hx (content_none.1 hj)]; rfl
  have hb8 : hd.number < 256 ^ 8 := by
    have : (2 : Nat) ^ 40 < 256 ^ 8 := by decide
    omega
  refine ⟨⟨s3, st.objs, st.inside⟩, ?_, ?_, ?_, ?_⟩
  · have : (lockClose name (some hd)).run E st.store = (.ok (), s3) := by
      simp only [lockClose, hh.own, if_true]
      rw [run_bind, hdel (hok.lock _ hb8) ha, andThen_ok, run_bind, hdel hok.count hc1, andThen_ok, hdel (hok.marker _ hb8) hb2, hs3]
    simp only [lifeStep, ho, hk, this]
  · rintro x ⟨sl, hsl, rfl⟩
    cases sl with
    | count => exact hc
    | marker n => exact hm n
    | lock n => exact hl n
    | _ => cases hsl
  · have : (lockClose name (some hd)).run E s3 = (.ok (), s3) := by
      simp only [lockClose, hh.own, if_true]
      rw [run_bind, hgone (hok.lock _ hb8) (hl _), andThen_ok, run_bind, hgone hok.count hc, andThen_ok, hgone (hok.marker _ hb8) (hm _)]
    simp only [lifeStep, ho, hk, this]
  · have hb5 : hd.number < 256 ^ 5 := by
      have : (2 : Nat) ^ 40 = 256 ^ 5 := by decide
      omega
    have hu : (s3.wrote hd.count (toLE 5 hd.number)).names (lockAddr name hd.number) = none := by
      have := content_none.1 (hl hd.number)
      simpa using this
    have : ∃ s4, (lockRelease name hd).run E s3 = (.err .fileNotFound, s4) := by
      refine ⟨s3.wrote hd.count (toLE 5 hd.number), ?_⟩
      rw [lockRelease, run_bind, run_intBytes hb5, andThen_ok, run_bind, run_write (by rw [toLE_length, hlen]), andThen_ok, hh.own]
      simp only [if_true]
      rw [run_bind, run_unlink_none hu, andThen_err]
    obtain ⟨s4, e4⟩ := this
    simp only [lifeStep, hk, e4]

example : ∃ st live fl, LifeInv ['n'] st live [0] fl ∧ 0 ∈ live ∧ fl + 1 < 2 ^ 40 ∧ st.store.content (lockAddr ['n'] 1) = some [0] := by
  obtain ⟨s1, _, h1⟩ := life_new (E := labEnv) (fuel := 1) (fresh_inv (name := ['n']) wf_empty (fl := 0)
    ⟨Or.inl ⟨rfl, rfl⟩, fun _ => rfl, fun _ => rfl⟩) (labNames (by simp)) (i := 0) (by simp) (by simp)
  obtain ⟨s2, _, h2⟩ := life_enter_free (E := labEnv) (fuel := 1) h1 (labNames (by simp)) (by omega) (by decide) (i := 0) (.head _)
  refine ⟨s2, _, _, h2, .head _, by decide, ?_⟩
  rcases h2.phase with ⟨h0, _⟩ | ⟨k, hd, _, _, _, hh, hnum, _⟩
  · cases h0
  · rw [hh.lock, if_pos (by rw [hnum])]

/-- two objects used in turn, one closed, a third -/
def turns : List LifeOp := [.new 0, .new 1, .enter 0, .exit 0, .enter 1, .exit 1, .enter 0, .exit 0, .close 1, .new 2, .enter 2]

example : proper true [] [] turns ∧ oneByOne [] turns ∧ (lifeRun labEnv 1 ['n'] turns (.fresh Store.empty)).1 = .ok () :=
  ⟨by simp [turns, proper], by simp [turns, oneByOne],
   (C175_returns (E := labEnv) (name := ['n']) (labNames (by simp)) (by omega) wf_empty (fl := 0)
     ⟨Or.inl ⟨rfl, rfl⟩, fun _ => rfl, fun _ => rfl⟩ turns (by simp [turns, proper]) (by decide)).1 (by simp [turns, oneByOne])⟩

/-- the last of these objects is inside, and it is the only one -/
example : ∃ st, lifeRun labEnv 1 ['n'] turns (.fresh Store.empty) = (.ok (), st) ∧ st.inside 2 ≠ none ∧
    ∀ j, st.inside j ≠ none → 2 = j :=
  ⟨_, rfl, by simp [setAt], fun j hj => C175_exclusion_partial (E := labEnv) (name := ['n']) (labNames (by simp)) (fuel := 1) (by omega)
    wf_empty (fl := 0) ⟨Or.inl ⟨rfl, rfl⟩, fun _ => rfl, fun _ => rfl⟩ turns (by simp [turns, proper]) (by decide) _ rfl 2 j
    (by simp [setAt]) hj⟩

end Verif.Props
