import Verif.Lemmas.TrackerPad
import Verif.Props.Notepad
/-!
# C106-C110: the resource tracker

Histories are lists of events of any number of processes, in any order: starts, operations on shared memory,
`deactivate_shared_memory_resource_tracker()`, ends. A process has the tracker it launched or inherited.
-/
namespace Verif.Props
open Verif Verif.Model Verif.Lemmas Verif.Spec

/-! ## C106 -/

/-- C106: if all processes of a tracker deactivate it before they open any block (or were forked by one that did), no
end of one of them removes anything, whatever these and other processes have done -/
theorem C106_early_partial (E : Env) (s : Store) (evs : List TEvent) (t : Nat) (hall : AllDeactivateFirst evs t)
    (a b : List TEvent) (p : Nat) (he : evs = a ++ .exit p :: b) (hp : ∀ t' inh, TEvent.start p t' inh ∈ a → t' = t) :
    ((TWorld.fresh s).after E (a ++ [.exit p])).store = ((TWorld.fresh s).after E a).store := by
  have hc := quiet_cache (E := E) s hall a _ he
  rw [after_snoc]
  simp only [TEvent.step]
  split
  · rfl
  · rename_i pr hpr
    obtain ⟨inh, h1, _⟩ := after_started s a hpr
    have ht := hp _ _ h1
    split
    · rfl
    · show trackerCleanup _ _ = _
      rw [ht, hc, cleanup_nil]

/-- two processes with trackers of their own; the second has only read the block `a`, and deactivated the tracker first -/
def earlyStory : List TEvent :=
  [.start 0 0 false, .start 1 1 false, .act 0 (.create addrA 3), .deactivate 1, .act 1 (.attach addrA), .exit 1, .exit 0]

theorem split_mem {l a b : List TEvent} {e : TEvent} (h : l = a ++ e :: b) : e ∈ l := by rw [h]; simp

theorem earlyStory_first : AllDeactivateFirst earlyStory 1 := by
  intro p inh h
  simp [earlyStory] at h
  obtain ⟨rfl, rfl⟩ := h
  refine Or.inr fun a o b he => ?_
  refine ⟨[.start 0 0 false, .start 1 1 false, .act 0 (.create addrA 3)], a.drop 4, 1, false, ?_, by simp⟩
  rcases a with _ | ⟨x0, _ | ⟨x1, _ | ⟨x2, _ | ⟨x3, r⟩⟩⟩⟩ <;> simp [earlyStory] at he ⊢
  exact ⟨he.1.symm, he.2.1.symm, he.2.2.1.symm, he.2.2.2.1.symm⟩

example : ((TWorld.fresh Store.empty).after demoEnv (earlyStory.take 6)).store.names addrA ≠ none := by
  have := C106_early_partial demoEnv Store.empty earlyStory 1 earlyStory_first (earlyStory.take 5) [.exit 0] 1 rfl
    (by intro t' inh h; simp [earlyStory] at h; exact h.1)
  have e : earlyStory.take 6 = earlyStory.take 5 ++ [.exit 1] := rfl
  rw [e, this]
  decide

/-- the process `p` is running, has not deactivated its tracker `t`, and no other running process has this tracker -/
structure Alone (w : TWorld) (p t : Nat) : Prop where
  proc : w.procs p = some ⟨t, false⟩
  only : ∀ q r, w.procs q = some r → r.tracker = t → q = p

theorem alone_holds {w : TWorld} {p t : Nat} (h : ∀ q r, w.procs q = some r → r.tracker = t → q = p) :
    (w.withProc p none).holds t = false := by
  rw [TWorld.holds, List.any_eq_false]
  intro q _
  simp only [withProc_procs]
  by_cases hq : q = p
  · simp [hq]
  · rcases e : w.procs q with _ | r
    · simp [hq, e]
    · simp only [hq, if_false, e, Option.map_some, Option.getD_some, beq_iff_eq]
      exact fun ht => hq (h q r e ht)

/-- the end of the last process of a tracker removes the names in the tracker's set, and nothing else -/
theorem exit_alone (E : Env) {w : TWorld} {p t : Nat} {b : Bool} (h : w.procs p = some ⟨t, b⟩)
    (ho : ∀ q r, w.procs q = some r → r.tracker = t → q = p) (x : Str) :
    (TEvent.step E w (.exit p)).store.names x = if '/' :: x ∈ w.caches t then none else w.store.names x := by
  simp only [TEvent.step, h]
  rw [if_neg (by rw [alone_holds ho]; simp)]
  rfl

theorem tracked_attach (E : Env) (hE : NameMax E) {t i : Nat} {n : Str} {s : Store} (c : List Str) (hok : E.okName n = true)
    (hn : s.names n = some i) (hl : LineName n) :
    trackedStep E ⟨t, false⟩ (.attach n) (s, c) = (.ok i, (s, if '/' :: n ∈ c then c else ('/' :: n) :: c)) := by
  simp only [trackedStep, Op.step, hok, hn, Op.note, trackerCall]
  rw [if_neg (by decide)]
  simp only [trackerSend_ascii (Or.inl rfl) hl.1 (hE n hok)]
  simp [feed_register c hl]

theorem mem_registered (c : List Str) (x : Str) : x ∈ (if x ∈ c then c else x :: c) := by
  split
  · assumption
  · simp

/-- C106, too late: a block the process has opened before deactivating the tracker is removed when it ends -/
theorem C106_late (E : Env) (hE : NameMax E) (w : TWorld) (p t i : Nat) (n : Str) (h : Alone w p t)
    (hok : E.okName n = true) (hn : w.store.names n = some i) (hl : LineName n) :
    (w.after E [.act p (.attach n), .deactivate p, .exit p]).store.names n = none := by
  have e1 : TEvent.step E w (.act p (.attach n)) =
      { w.withCache t (if '/' :: n ∈ w.caches t then w.caches t else ('/' :: n) :: w.caches t) with store := w.store } := by
    simp only [TEvent.step, h.proc, tracked_attach E hE _ hok hn hl]
  simp only [TWorld.after, List.foldl_cons, List.foldl_nil, e1]
  rw [exit_alone E (t := t) (b := true)]
  · rw [if_pos]
    simp only [TEvent.step, withProc_caches, withCache_caches, if_true]
    exact mem_registered _ _
  · simp [TEvent.step, withCache_procs, h.proc, deactivate]
  · intro q r hq hr
    simp only [TEvent.step, withProc_procs, withCache_procs] at hq
    split at hq
    · assumption
    · exact h.only q r hq hr

/-- C106, too late: such a block cannot be taken off the tracker's set either. If the process deletes it and an
unrelated process makes a new block of that name, the new block is removed when the first process ends -/
theorem C106_forgotten (E : Env) (hE : NameMax E) (w : TWorld) (p t i q k : Nat) (prq : TProc) (n : Str) (h : Alone w p t)
    (hq : w.procs q = some prq) (hqp : q ≠ p) (hk : k ≠ 0) (hok : E.okName n = true) (hn : w.store.names n = some i)
    (hl : LineName n) :
    (w.after E [.act p (.attach n), .deactivate p, .act p (.unlink n), .act q (.create n k)]).store.content n =
      some (List.replicate k 0) ∧
    (w.after E [.act p (.attach n), .deactivate p, .act p (.unlink n), .act q (.create n k), .exit p]).store.content n =
      none := by
  have e1 : TEvent.step E w (.act p (.attach n)) =
      { w.withCache t (if '/' :: n ∈ w.caches t then w.caches t else ('/' :: n) :: w.caches t) with store := w.store } := by
    simp only [TEvent.step, h.proc, tracked_attach E hE _ hok hn hl]
  generalize hcdef : (if '/' :: n ∈ w.caches t then w.caches t else ('/' :: n) :: w.caches t) = c1 at e1
  have hc1 : '/' :: n ∈ c1 := by rw [← hcdef]; exact mem_registered _ _
  have hqt : prq.tracker ≠ t := fun e => hqp (h.only q prq hq e)
  -- after the attach, the deactivation and the unlink
  have e3 : w.after E [.act p (.attach n), .deactivate p, .act p (.unlink n)] =
      { (w.withCache t c1).withProc p (some ⟨t, true⟩) with store := w.store.unlinked n } := by
    simp only [TWorld.after, List.foldl_cons, List.foldl_nil, e1]
    have hp2 : (TEvent.step E ({ w.withCache t c1 with store := w.store } : TWorld) (.deactivate p)).procs p =
        some ⟨t, true⟩ := by
      simp [TEvent.step, withCache_procs, h.proc, deactivate]
    simp only [TEvent.step] at hp2 ⊢
    simp only [hp2, trackedStep_patched, Op.step, withProc_store, hn]
    simp only [TWorld.withProc, TWorld.withCache, withCache_procs, h.proc]
    congr 1
    funext t'
    by_cases ht : t' = t <;> simp [ht]
  have e4 : ∃ c4, w.after E [.act p (.attach n), .deactivate p, .act p (.unlink n), .act q (.create n k)] =
      { ((w.withCache t c1).withProc p (some ⟨t, true⟩)).withCache prq.tracker c4 with
        store := (w.store.unlinked n).created n k } := by
    have hs : [TEvent.act p (.attach n), .deactivate p, .act p (.unlink n), .act q (.create n k)] =
      [.act p (.attach n), .deactivate p, .act p (.unlink n)] ++ [.act q (.create n k)] := rfl
    rw [hs, after_snoc, e3]
    have hpq : ((w.withCache t c1).withProc p (some ⟨t, true⟩)).procs q = some prq := by
      simp [hqp, hq]
    simp only [TEvent.step, hpq]
    have hun : (w.store.unlinked n).names n = none := by simp
    refine ⟨(trackedStep E prq (.create n k) (w.store.unlinked n,
      if prq.tracker = t then c1 else w.caches prq.tracker)).2.2, ?_⟩
    rw [trackedStep_store]
    simp only [Op.step, hok, hun, hk]
    rfl
  obtain ⟨c4, e4⟩ := e4
  constructor
  · rw [e4]
    simp [Store.content, Store.created]
  · have hs : [TEvent.act p (.attach n), .deactivate p, .act p (.unlink n), .act q (.create n k), .exit p] =
      [.act p (.attach n), .deactivate p, .act p (.unlink n), .act q (.create n k)] ++ [.exit p] := rfl
    rw [content_none, hs, after_snoc, e4, exit_alone E (t := t) (b := true)]
    · rw [if_pos]
      simp only [withCache_caches, withProc_caches]
      rw [if_neg (Ne.symm hqt)]
      simpa using hc1
    · simp
    · intro x r hx hr
      simp only [withCache_procs, withProc_procs] at hx
      split at hx
      · assumption
      · exact h.only x r hx hr

/-- the platform of the examples, with Linux's bound on names -/
def demoLinux : Env := { demoEnv with okName := fun n => !n.contains '/' && decide (n.length ≤ 255) }

theorem demoLinux_max : NameMax demoLinux := by
  intro n h
  simp [demoLinux] at h
  exact h.2

theorem lineA : LineName addrA := by unfold LineName AsciiText addrA; decide

/-- process 0 has made the block `a`; process 1, with a tracker of its own, has just started -/
def twoProcs : TWorld := (TWorld.fresh Store.empty).after demoLinux
  [.start 0 0 false, .start 1 1 false, .act 0 (.create addrA 3)]

theorem twoProcs_alone : Alone twoProcs 1 1 :=
  ⟨rfl, fun q r hq hr => by
    have h0 : twoProcs.procs = fun q => if q = 1 then some ⟨1, false⟩ else if q = 0 then some ⟨0, false⟩ else none := by
      funext q
      by_cases h1 : q = 1 <;> by_cases h0 : q = 0 <;> subst_vars <;> rfl
    rw [h0] at hq
    dsimp only at hq
    split at hq
    · assumption
    · split at hq
      · simp at hq; rw [← hq] at hr; simp at hr
      · simp at hq⟩

theorem twoProcs_a : twoProcs.store.names addrA = some 0 := by decide

example : (twoProcs.after demoLinux [.act 1 (.attach addrA), .deactivate 1, .exit 1]).store.names addrA = none :=
  C106_late demoLinux demoLinux_max twoProcs 1 1 0 addrA twoProcs_alone (by decide) twoProcs_a lineA

example : (twoProcs.after demoLinux [.act 1 (.attach addrA), .deactivate 1, .act 1 (.unlink addrA),
    .act 0 (.create addrA 3), .exit 1]).store.content addrA = none :=
  (C106_forgotten demoLinux demoLinux_max twoProcs 1 1 0 0 3 ⟨0, false⟩ addrA twoProcs_alone rfl (by decide) (by decide)
    (by decide) twoProcs_a lineA).2

/-- C106 in full ("calling this function from a process will prevent the Python resource tracker from cleaning up any
shared memory blocks in use by that process when the process terminates") is false: it does not for blocks already
opened -/
theorem C106_full_false : ¬ ∀ (E : Env) (s : Store) (a : List TEvent) (p : Nat),
    (∃ a1 a2 t inh, a = a1 ++ .deactivate p :: a2 ∧ TEvent.start p t inh ∈ a1) →
    ((TWorld.fresh s).after E (a ++ [.exit p])).store.names = ((TWorld.fresh s).after E a).store.names := by
  intro h
  have := h demoLinux Store.empty [.start 0 0 false, .start 1 1 false, .act 0 (.create addrA 3), .act 1 (.attach addrA),
    .deactivate 1] 1 ⟨[.start 0 0 false, .start 1 1 false, .act 0 (.create addrA 3), .act 1 (.attach addrA)], [], 1, false,
      rfl, by simp⟩
  have h1 := congrFun this addrA
  revert h1
  decide

/-! ## C107 -/

/-- C107: where all processes have the same tracker (they descend from one process that launched it), the end of a
process removes nothing as long as another one is running -/
theorem C107_one_tracker_partial (E : Env) (s : Store) (a : List TEvent) (t : Nat)
    (hall : ∀ p t' inh, TEvent.start p t' inh ∈ a → t' = t) (p q : Nat) (hq : Running a q) (hpq : q ≠ p) :
    ((TWorld.fresh s).after E (a ++ [.exit p])).store = ((TWorld.fresh s).after E a).store := by
  rw [after_snoc]
  simp only [TEvent.step]
  split
  · rfl
  · rename_i pr hpr
    obtain ⟨prq, hprq⟩ := after_running (E := E) s hq
    obtain ⟨i1, h1, _⟩ := after_started s a hpr
    obtain ⟨i2, h2, _⟩ := after_started s a hprq
    have e1 := hall _ _ _ h1
    have e2 := hall _ _ _ h2
    have hh : (((TWorld.fresh s).after E a).withProc p none).holds pr.tracker = true := by
      rw [TWorld.holds, List.any_eq_true]
      exact ⟨q, after_procs_seen s a q (by rw [hprq]; simp), by simp [hpq, hprq, e1, e2]⟩
    rw [if_pos hh]
    rfl

example : ((TWorld.fresh Store.empty).after demoLinux
    [.start 0 0 false, .act 0 (.create addrA 3), .start 1 0 false, .act 1 (.attach addrA), .exit 1]).store.names addrA ≠
      none := by
  have := C107_one_tracker_partial demoLinux Store.empty
    [.start 0 0 false, .act 0 (.create addrA 3), .start 1 0 false, .act 1 (.attach addrA)] 0
    (by intro p t' inh h; simp at h; rcases h with h | h <;> exact h.2.1) 1 0 ⟨⟨0, false, by simp⟩, by simp⟩ (by decide)
  rw [show ∀ e : TEvent, [TEvent.start 0 0 false, .act 0 (.create addrA 3), .start 1 0 false, .act 1 (.attach addrA), e] =
    [TEvent.start 0 0 false, .act 0 (.create addrA 3), .start 1 0 false, .act 1 (.attach addrA)] ++ [e] from fun _ => rfl, this]
  decide

variable {V : Type}

theorem runIn_padGet (E : Env) (hE : NameMax E) (c : Codec V) (isNone : V → Bool) (pad : Pad) (key : Key) {t i : Nat}
    {s : Store} (cache : List Str) (hok : E.okName (padAddr pad.pre key.text) = true)
    (hn : s.names (padAddr pad.pre key.text) = some i) (hl : LineName (padAddr pad.pre key.text)) :
    ((padGet c isNone pad key).runIn E ⟨t, false⟩ (s, cache)).2 =
      (s, if '/' :: padAddr pad.pre key.text ∈ cache then cache else ('/' :: padAddr pad.pre key.text) :: cache) := by
  have h1 : (attach (padAddr pad.pre key.text)).runIn E ⟨t, false⟩ (s, cache) = (.ok i, (s,
      if '/' :: padAddr pad.pre key.text ∈ cache then cache else ('/' :: padAddr pad.pre key.text) :: cache)) := by
    show Prog.runIn E _ (Prog.op _ _) _ = _
    simp only [Prog.runIn, tracked_attach E hE cache hok hn hl]
  unfold padGet remember fetchBlockBytes
  rw [runIn_bind, runIn_bind, runIn_bind, h1, thenIn_ok]
  have h2 : ∀ w : Store × List Str, (read i).runIn E ⟨t, false⟩ w = (.ok (w.1.segs i), w) := fun w => rfl
  rw [h2, thenIn_ok]
  rcases c.decode (s.segs i) with e | v
  · rfl
  · show (((if isNone v = true then Prog.raise PyErr.keyError else pure v : Prog V)).runIn E ⟨t, false⟩ _).2 = _
    split <;> rfl

/-- C107, a reader with a tracker of its own: when a process that shares its tracker with no other has read one key of
a notepad and ends, the value is gone for everyone -/
theorem C107_reader_removes (E : Env) (hE : NameMax E) (c : Codec V) (isNone : V → Bool) (pad : Pad) (key : Key)
    (w : TWorld) (p t i : Nat) (h : Alone w p t) (hok : E.okName (padAddr pad.pre key.text) = true)
    (hn : w.store.names (padAddr pad.pre key.text) = some i) (hl : LineName (padAddr pad.pre key.text)) :
    ∃ r w', w.perform E p (padGet c isNone pad key) = some (r, w') ∧ w'.store = w.store ∧
      ∀ (c' : Codec V) (isNone' : V → Bool) (pad' : Pad) (key' : Key), pad'.pre = pad.pre → key'.text = key.text →
        (padGet c' isNone' pad' key').run E (TEvent.step E w' (.exit p)).store =
          (.err .fileNotFound, (TEvent.step E w' (.exit p)).store) := by
  have hr := runIn_padGet E hE c isNone pad key (t := t) (w.caches t) hok hn hl
  refine ⟨_, _, by rw [TWorld.perform, h.proc]; rfl, ?_, ?_⟩
  · show ((padGet c isNone pad key).runIn E ⟨t, false⟩ _).2.1 = _
    rw [hr]
  · intro c' isNone' pad' key' hp hk
    have hgone : (TEvent.step E ({ w.withCache t ((padGet c isNone pad key).runIn E ⟨t, false⟩ (w.store, w.caches t)).2.2 with
        store := ((padGet c isNone pad key).runIn E ⟨t, false⟩ (w.store, w.caches t)).2.1 } : TWorld) (.exit p)).store.names
          (padAddr pad.pre key.text) = none := by
      rw [exit_alone E (t := t) (b := false) (by simp [h.proc]) (by simpa using h.only), hr, if_pos]
      simp only [withCache_caches, if_true]
      exact mem_registered _ _
    have := run_padGet (E := E) (c := c') (isNone := isNone') (p := pad') (key := key')
      (s := (TEvent.step E ({ w.withCache t ((padGet c isNone pad key).runIn E ⟨t, false⟩ (w.store, w.caches t)).2.2 with
        store := ((padGet c isNone pad key).runIn E ⟨t, false⟩ (w.store, w.caches t)).2.1 } : TWorld) (.exit p)).store)
      (by rw [hp, hk]; exact hok)
    rw [this, hp, hk, content_none.2 hgone]
    rfl

/-- a notepad `np` with the key `k`, made by process 0; process 1 has a tracker of its own -/
def padProcs : TWorld := (TWorld.fresh Store.empty).after demoLinux
  [.start 0 0 false, .start 1 1 false, .act 0 (.create (padAddr np "k".toList) 3)]

theorem padProcs_alone : Alone padProcs 1 1 :=
  ⟨rfl, fun q r hq hr => by
    have h0 : padProcs.procs = fun q => if q = 1 then some ⟨1, false⟩ else if q = 0 then some ⟨0, false⟩ else none := by
      funext q
      by_cases h1 : q = 1 <;> by_cases h0 : q = 0 <;> subst_vars <;> rfl
    rw [h0] at hq
    dsimp only at hq
    split at hq
    · assumption
    · split at hq
      · simp at hq; rw [← hq] at hr; simp at hr
      · simp at hq⟩

example : ∃ r w', padProcs.perform demoLinux 1 (padGet demoCodec (fun _ => false) ⟨np, .fake, .fake⟩ (.str "k".toList)) =
    some (r, w') ∧ w'.store = padProcs.store ∧ (padGet demoCodec (fun _ => false) ⟨np, .fake, .fake⟩ (.str "k".toList)).run
      demoLinux (TEvent.step demoLinux w' (.exit 1)).store = (.err .fileNotFound, (TEvent.step demoLinux w' (.exit 1)).store) := by
  obtain ⟨r, w', h1, h2, h3⟩ := C107_reader_removes demoLinux demoLinux_max demoCodec (fun _ => false) ⟨np, .fake, .fake⟩
    (.str "k".toList) padProcs 1 1 0 padProcs_alone (by decide) (by decide) (by unfold LineName AsciiText; decide)
  exact ⟨r, w', h1, h2, h3 demoCodec (fun _ => false) ⟨np, .fake, .fake⟩ (.str "k".toList) rfl rfl⟩

/-- an operation that only looks -/
def looks : Op → Bool
  | .attach _ => true
  | .read _ => true
  | _ => false

/-- C107 in full (a process that has only looked at shared memory leaves it as it is when it ends) is false -/
theorem C107_full_false : ¬ ∀ (E : Env) (s : Store) (a : List TEvent) (p : Nat),
    (∀ o, TEvent.act p o ∈ a → looks o = true) →
    ((TWorld.fresh s).after E (a ++ [.exit p])).store.names = ((TWorld.fresh s).after E a).store.names := by
  intro h
  have := h demoLinux Store.empty [.start 0 0 false, .start 1 1 false, .act 0 (.create addrA 3), .act 1 (.attach addrA)] 1
    (by intro o ho; simp at ho; subst ho; rfl)
  have h1 := congrFun this addrA
  revert h1
  decide

/-! ## C108 -/

/-- C108: if no process deactivates its tracker and all names used can be sent to it, no block is left over when all
processes have ended (whatever they have done, in whatever order they ended, and whichever trackers they had), but for
blocks that were there before -/
theorem C108_no_leaks_partial (E : Env) (hE : NameMax E) (s : Store) (evs : List TEvent)
    (hd : ∀ p, TEvent.deactivate p ∉ evs) (hi : ∀ p t inh, TEvent.start p t inh ∈ evs → inh = false)
    (hl : ∀ p n k, (TEvent.act p (.create n k) ∈ evs ∨ TEvent.act p (.attach n) ∈ evs ∨ TEvent.act p (.unlink n) ∈ evs) →
      LineName n)
    (hend : ∀ p t inh, TEvent.start p t inh ∈ evs →
      ∃ a b t' inh', evs = a ++ .exit p :: b ∧ TEvent.start p t' inh' ∈ a)
    (x : Str) (hx : ((TWorld.fresh s).after E evs).store.names x ≠ none) : s.names x ≠ none := by
  have h := kept_tracked (E := E) hE s evs hd hi hl x hx
  rcases h with h | ⟨p, pr, hp, _⟩
  · exact h
  · obtain ⟨inh, h1, _⟩ := after_started s evs hp
    obtain ⟨a, b, t', inh', h2, h3⟩ := hend p _ inh h1
    rw [h2, after_ended s h3] at hp
    simp at hp

/-- two processes with trackers of their own, each with a block, one of them opened by both -/
def leakStory : List TEvent :=
  [.start 0 0 false, .start 1 1 false, .act 0 (.create addrA 3), .act 1 (.create addrB 3), .act 1 (.attach addrA),
    .exit 0, .exit 1]

example (x : Str) : ((TWorld.fresh Store.empty).after demoLinux leakStory).store.names x = none := by
  apply Classical.byContradiction
  intro hx
  refine C108_no_leaks_partial demoLinux demoLinux_max Store.empty leakStory (by simp [leakStory])
    (by intro p t inh h; simp [leakStory] at h; rcases h with h | h <;> exact h.2.2) ?_ ?_ x hx rfl
  · intro p n k h
    simp [leakStory] at h
    rcases h with (⟨_, rfl, _⟩ | ⟨_, rfl, _⟩) | ⟨_, rfl⟩ <;> (unfold LineName AsciiText; decide)
  · intro p t inh h
    simp [leakStory] at h
    rcases h with ⟨rfl, rfl, rfl⟩ | ⟨rfl, rfl, rfl⟩
    · exact ⟨leakStory.take 5, [.exit 1], 0, false, rfl, by simp [leakStory]⟩
    · exact ⟨leakStory.take 6, [], 1, false, rfl, by simp [leakStory]⟩

/-- C108, colons: a name with a colon in it is never entered in the tracker's set. A block of that name made by a
process stays when the process has ended -/
theorem C108_colon_leaks (E : Env) (hE : NameMax E) (w : TWorld) (p t k : Nat) (n : Str) (h : Alone w p t)
    (hok : E.okName n = true) (hk : k ≠ 0) (hn : w.store.names n = none) (ha : AsciiText n) (hc : ':' ∈ n)
    (hnl : '\n' ∉ n) (hfree : '/' :: n ∉ w.caches t) :
    (w.after E [.act p (.create n k), .exit p]).store.content n = some (List.replicate k 0) := by
  have e1 : TEvent.step E w (.act p (.create n k)) = { w.withCache t (w.caches t) with store := w.store.created n k } := by
    simp only [TEvent.step, h.proc, trackedStep_store]
    have : (trackedStep E ⟨t, false⟩ (.create n k) (w.store, w.caches t)).2.2 = w.caches t := by
      simp only [trackedStep, Op.step, hok, hn, Op.note, trackerCall, hk]
      simp [trackerSend_ascii (Or.inl rfl) ha (hE n hok), feed_colon _ (Or.inl rfl) hc hnl]
    rw [this]
    simp only [Op.step, hok, hn, hk]
    rfl
  simp only [TWorld.after, List.foldl_cons, List.foldl_nil, e1]
  have e2 := exit_alone E (w := { w.withCache t (w.caches t) with store := w.store.created n k }) (p := p) (t := t)
    (b := false) (by simp [h.proc]) (by simpa using h.only) n
  simp only [withCache_caches, if_true] at e2
  rw [if_neg (by simpa using hfree)] at e2
  simp only [Store.content, e2]
  simp [exit_segs, Store.created]

/-- a key with a colon, for example a time of day -/
def colonName : Str := "np_12:30".toList

/-- C108 in full (no block is left over when all processes have ended) is false -/
theorem C108_full_false : ¬ ∀ (E : Env) (s : Store) (evs : List TEvent), (∀ p, TEvent.deactivate p ∉ evs) →
    (∀ p t inh, TEvent.start p t inh ∈ evs → inh = false) →
    (∀ p t inh, TEvent.start p t inh ∈ evs → ∃ a b t' inh', evs = a ++ .exit p :: b ∧ TEvent.start p t' inh' ∈ a) →
    ∀ x, ((TWorld.fresh s).after E evs).store.names x ≠ none → s.names x ≠ none := by
  intro h
  refine h demoLinux Store.empty [.start 0 0 false, .act 0 (.create colonName 3), .exit 0] (by simp)
    (by intro p t inh h; simp at h; exact h.2.2) ?_ colonName (by decide) rfl
  intro p t inh h
  simp at h
  obtain ⟨rfl, rfl, rfl⟩ := h
  exact ⟨[.start 0 0 false, .act 0 (.create colonName 3)], [], 0, false, rfl, by simp⟩

example : (((TWorld.fresh Store.empty).after demoLinux [.start 0 0 false]).after demoLinux
    [.act 0 (.create colonName 3), .exit 0]).store.content colonName = some [0, 0, 0] := by
  refine C108_colon_leaks demoLinux demoLinux_max _ 0 0 3 colonName ⟨rfl, ?_⟩ (by decide) (by decide) rfl
    (by unfold AsciiText; decide) (by decide) (by decide) (by simp [TWorld.after, TEvent.step, TWorld.fresh, TWorld.withProc])
  intro q r hq _
  simp [TWorld.after, TEvent.step, TWorld.fresh] at hq
  exact hq.1

/-! ## C109 -/

/-- C109, deactivated: in a process that has deactivated the tracker every program (so every call of a notepad) does
what the rest of this file's theorems, which ignore the tracker, say -/
theorem C109_deactivated {α : Type} (E : Env) (pr : TProc) (h : pr.patched = true) (prog : Prog α) (s : Store)
    (cache : List Str) : prog.runIn E pr (s, cache) = ((prog.run E s).1, ((prog.run E s).2, cache)) :=
  runIn_patched h prog (s, cache)

/-- C109: with an ASCII prefix and an ASCII key the calls of a notepad do what they would do without the tracker, in
every process -/
theorem C109_ascii_partial (E : Env) (hE : NameMax E) (hsha : HexSha E) (c : Codec V) (isNone : V → Bool) (pr : TProc)
    (pad : Pad) (hp : ∀ ix, pad.index = .tag ix → AsciiText ix.name) (key : Key)
    (hk : AsciiText (padAddr pad.pre key.text)) (v : V) (eo : Bool) (s : Store) (ho : ∀ x, s.names x ≠ none → E.okName x = true)
    (cache : List Str) :
    (((padSet E c pad key v eo).runIn E pr (s, cache)).1 = ((padSet E c pad key v eo).run E s).1 ∧
      ((padSet E c pad key v eo).runIn E pr (s, cache)).2.1 = ((padSet E c pad key v eo).run E s).2) ∧
    (((padGet c isNone pad key).runIn E pr (s, cache)).1 = ((padGet c isNone pad key).run E s).1 ∧
      ((padGet c isNone pad key).runIn E pr (s, cache)).2.1 = ((padGet c isNone pad key).run E s).2) ∧
    (((padDel E pad key).runIn E pr (s, cache)).1 = ((padDel E pad key).run E s).1 ∧
      ((padDel E pad key).runIn E pr (s, cache)).2.1 = ((padDel E pad key).run E s).2) ∧
    (((padKeys E pad).runIn E pr (s, cache)).1 = ((padKeys E pad).run E s).1 ∧
      ((padKeys E pad).runIn E pr (s, cache)).2.1 = ((padKeys E pad).run E s).2) :=
  ⟨runIn_ascii hE _ _ (ascii_padSet hsha hp hk v eo false) ho, runIn_ascii hE _ _ (ascii_padGet hk) ho,
    runIn_ascii hE _ _ (ascii_padDel hsha hp hk) ho, runIn_ascii hE _ _ (ascii_padKeys hp) ho⟩

theorem runIn_create_nonascii {E : Env} {t k : Nat} {n : Str} {s : Store} (c : List Str) (hok : E.okName n = true) (hk : k ≠ 0)
    (hn : s.names n = none) (ha : ¬ AsciiText n) :
    (create n k).runIn E ⟨t, false⟩ (s, c) = (.err .unicodeEncode, (s.created n k, c)) := by
  show Prog.runIn E _ (Prog.op _ _) _ = _
  simp only [Prog.runIn, trackedStep, Op.step, hok, hn, hk, Op.note, trackerCall]
  simp [trackerSend_nonascii ha]
  rfl

theorem runIn_attach_nonascii {E : Env} {t i : Nat} {n : Str} {s : Store} (c : List Str) (hok : E.okName n = true)
    (hn : s.names n = some i) (ha : ¬ AsciiText n) :
    (attach n).runIn E ⟨t, false⟩ (s, c) = (.err .unicodeEncode, (s, c)) := by
  show Prog.runIn E _ (Prog.op _ _) _ = _
  simp only [Prog.runIn, trackedStep, Op.step, hok, hn, Op.note, trackerCall]
  simp [trackerSend_nonascii ha]
  rfl

theorem runIn_attach_none {E : Env} {t : Nat} {n : Str} {s : Store} (c : List Str) (hok : E.okName n = true)
    (hn : s.names n = none) : (attach n).runIn E ⟨t, false⟩ (s, c) = (.err .fileNotFound, (s, c)) := by
  show Prog.runIn E _ (Prog.op _ _) _ = _
  simp [Prog.runIn, trackedStep, Op.step, hok, hn]

theorem runIn_ofExcept_ok {α : Type} {E : Env} {pr : TProc} (v : α) (w : Store × List Str) :
    (Prog.ofExcept (.ok v)).runIn E pr w = (.ok v, w) := rfl

theorem runIn_memorize_nonascii {E : Env} {c : Codec V} {t : Nat} {s : Store} {v : V} {a : Str} {b : Bytes} {eo : Bool}
    (hok : E.okName a = true) (henc : c.encode v = .ok b) (hb : b ≠ []) (hn : s.names a = none) (ha : ¬ AsciiText a)
    (cache : List Str) : (memorize c v a eo).runIn E ⟨t, false⟩ (s, cache) =
      (.err .unicodeEncode, (s.created a b.length, cache)) := by
  have hz : b.length ≠ 0 := fun h => hb (List.length_eq_zero_iff.1 h)
  have tail : (do
      let encoded ← Prog.ofExcept (c.encode v)
      let block ← openBlock a encoded.length true true
      write block encoded
      pure a : Prog Str).runIn E ⟨t, false⟩ (s, cache) = (.err .unicodeEncode, (s.created a b.length, cache)) := by
    rw [henc, runIn_bind, runIn_ofExcept_ok, thenIn_ok, runIn_bind, openBlock, runIn_bind, runIn_attempt, if_pos rfl,
      runIn_create_nonascii cache hok hz hn ha]
    rfl
  rw [memorize]
  cases eo with
  | true => exact tail
  | false =>
    simp only [if_true]
    rw [runIn_bind, existsBlock, runIn_bind, runIn_attempt, runIn_attach_none cache hok hn]
    exact tail

/-- C109, other keys: in a process that has not deactivated the tracker, setting a new key that is not ASCII raises
UnicodeEncodeError. Still the key has been entered in the index, so `keys()` lists it, and there is a block for its
value, filled with zeros; getting the key raises UnicodeEncodeError as well. -/
theorem C109_nonascii (E : Env) (hE : NameMax E) (hsha : HexSha E) (c : Codec V) (isNone : V → Bool) (pre : Str)
    (U : Str → Prop) (hU : KeysOK E pre U) (hok : NamesOK E (indexName pre)) (s : Store) (ps : List Pad)
    (m : Str → Option V) (h : InUse E c isNone pre U s ps m) (ho : ∀ x, s.names x ≠ none → E.okName x = true)
    (hpre : AsciiText pre) (pad : Pad) (hp : pad ∈ ps) (key : Key) (hk : key.hashed E = E.utf8 key.text) (hUk : U key.text)
    (hna : ¬ AsciiText key.text) (hnew : m key.text = none) (v : V) (b : Bytes) (hv : Stable c isNone v b) (eo : Bool)
    (t : Nat) (cache : List Str) :
    ∃ s' cache', (padSet E c pad key v eo).runIn E ⟨t, false⟩ (s, cache) = (.err .unicodeEncode, (s', cache')) ∧
      (∃ ks, ((padKeys E pad).runIn E ⟨t, false⟩ (s', cache')).1 = .ok (some ks) ∧ key.text ∈ ks) ∧
      s'.content (padAddr pre key.text) = some (List.replicate b.length 0) ∧
      (padGet c isNone pad key).runIn E ⟨t, false⟩ (s', cache') = (.err .unicodeEncode, (s', cache')) := by
  obtain ⟨w, ix, keys, fl, hrep, hfl, hcl⟩ := h.rep hU hok
  obtain ⟨hpp, hpi, hpm⟩ := hcl pad hp
  have hfree := hU.free _ hUk
  have hixn : ∀ ix', pad.index = .tag ix' → AsciiText ix'.name := by
    intro ix' he
    rw [hpi] at he
    cases he
    rw [hrep.name]
    exact asciiText_append hpre (by unfold AsciiText; decide)
  obtain ⟨s1, fl1, w1, e1, h1, hc1, hfl1, hs1⟩ := run_padIndexAdd hU hok w hrep hfl hpp hpi hpm hk hUk eo
  rw [if_neg (by simp [hnew])] at e1
  have hT := runIn_ascii hE (pr := ⟨t, false⟩) _ (s, cache) (ascii_padIndexAdd hsha hixn key false eo) ho
  rw [e1] at hT
  obtain ⟨cache1, e1'⟩ : ∃ cache1, (padIndexAdd E pad key false eo).runIn E ⟨t, false⟩ (s, cache) = (.ok (), (s1, cache1)) :=
    ⟨_, Prod.ext hT.1 (Prod.ext hT.2 rfl)⟩
  have hon1 : OnlyOk E s1 := by
    have := onlyOk_run (E := E) (padIndexAdd E pad key false eo) (s := s) ho
    rwa [e1] at this
  have hn1 : s1.names (padAddr pre key.text) = none := by
    rw [(hs1 _ (pad_not_tag hfree)).1]
    exact content_none.1 (hrep.noval _ hfree hnew)
  have hna' : ¬ AsciiText (padAddr pre key.text) := fun hh => hna fun ch hc => hh ch (by simp [padAddr, hc])
  have hoka := hU.ok _ hUk
  have e2 := runIn_memorize_nonascii (t := t) (eo := eo) hoka hv.1 hv.2.1 hn1 hna' cache1
  have w2 := wf_created w1 (padAddr pre key.text) b.length
  have f2 := eff_created w1 (padAddr pre key.text) b.length
  refine ⟨s1.created (padAddr pre key.text) b.length, cache1, ?_, ?_, ?_, ?_⟩
  · rw [padSet, not_reserved hfree]
    simp only [Bool.false_eq_true, if_false]
    rw [runIn_bind, runIn_attempt, runIn_bind, e1', thenIn_ok, runIn_bind, hpp, e2]
    rfl
  · have h2 := h1.same (f2.sameOff (P := fun x => x = padAddr pre key.text) rfl)
      (by intro sl _; rw [hrep.name]; exact slot_ne_pad hfree sl)
    have e3 := run_indexUpdate h2 (by rw [hrep.name]; exact hok)
    have e4 : (padKeys E pad).run E (s1.created (padAddr pre key.text) b.length) =
        (.ok (some (ixAdd keys key.text eo).2), s1.created (padAddr pre key.text) b.length) := by
      rw [padKeys, hpi]
      dsimp only
      rw [run_bind, e3]
      rfl
    have h3 := runIn_ascii hE (pr := ⟨t, false⟩) _ (s1.created (padAddr pre key.text) b.length, cache1)
      (ascii_padKeys (E := E) hixn) (by
        intro x hx
        by_cases hxa : x = padAddr pre key.text
        · rw [hxa]; exact hoka
        · simp [Store.created, hxa] at hx; exact hon1 x hx)
    rw [e4] at h3
    exact ⟨_, h3.1, mem_ixAdd_iff.2 (Or.inr rfl)⟩
  · simp [Store.content, Store.created]
  · rw [padGet, runIn_bind, remember, runIn_bind, fetchBlockBytes, runIn_bind, hpp,
      runIn_attach_nonascii cache1 hoka (by simp [Store.created]; rfl) hna']
    rfl

/-- a platform for the examples: names of 1 to 255 characters; text is its code points; two keys have digests of their
own -/
def pinEnv : Env := { labEnv with
  okName := fun n => !n.isEmpty && decide (n.length ≤ 255)
  sha := fun b => if b = [233] then "0".toList else "1".toList }

/-- the keys "é" and "a" -/
def pinKeys (k : Str) : Prop := k = "é".toList ∨ k = "a".toList

theorem natStr_short {n f k : Nat} (h : n < 10 ^ (k + 1)) : (natStrAux f n).length ≤ k + 1 := by
  induction k generalizing n f with
  | zero =>
    cases f with
    | zero => simp [natStrAux]
    | succ f =>
      simp only [natStrAux]
      rw [if_pos (by simpa using h)]
      simp
  | succ k ih =>
    cases f with
    | zero => simp [natStrAux]
    | succ f =>
      simp only [natStrAux]
      split
      · simp
      · have := ih (n := n / 10) (f := f) (by rw [Nat.div_lt_iff_lt_mul (by omega)]; rw [Nat.pow_succ] at h; exact h)
        simp; omega

theorem pinName {a : Str} (h : a ≠ []) (hl : a.length ≤ 255) : pinEnv.okName a = true := by
  cases a with
  | nil => exact absurd rfl h
  | cons c t => simpa [pinEnv] using hl

theorem pinNamesOK : NamesOK pinEnv (indexName np) := by
  have hn : ∀ n < 256 ^ 8, (natStr n).length ≤ 20 := fun n h => natStr_short (k := 19) (by omega)
  have hl : (indexName np).length = 8 := rfl
  have hx : ∀ t : Str, t.length ≤ 200 → pinEnv.okName (indexName np ++ t) = true := fun t ht =>
    pinName (by simp [indexName]) (by rw [List.length_append, hl]; omega)
  constructor
  · decide
  · decide
  · intro n h; exact hx _ (by have := hn n h; simp; omega)
  · intro n h; exact hx _ (by have := hn n h; simp; omega)
  · intro b
    rw [hashAddr, List.append_assoc]
    refine hx _ ?_
    simp only [pinEnv]
    split <;> simp
  · intro n h; rw [keyAddr, List.append_assoc]; exact hx _ (by have := hn n h; simp; omega)
  · intro n h; rw [valAddr, List.append_assoc]; exact hx _ (by have := hn n h; simp; omega)

theorem pinKeysOK : KeysOK pinEnv np pinKeys := by
  refine ⟨?_, ?_, ?_, ?_⟩
  · rintro k (rfl | rfl) <;> decide
  · rintro k (rfl | rfl) <;> decide
  · rintro k (rfl | rfl) <;> decide
  · rintro a b (rfl | rfl) (rfl | rfl) h <;> first | rfl | (revert h; decide)

theorem pinMax : NameMax pinEnv := fun n h => by simp [pinEnv] at h; exact h.2

theorem pinHex : HexSha pinEnv := fun b c hc => by
  simp only [pinEnv] at hc
  split at hc <;> (revert c; decide)

/-- a notepad with the key "a" -/
def pinNotes : List (NoteOp Nat) := [.create .fake, .set 0 kA 2 true]

def pinStore : Store := (padHistory pinEnv demoCodec (fun _ => false) np pinNotes Store.empty).2.2
def pinMap : Str → Option Nat := upd (fun _ => none) kA.text (some 2)

theorem pin_inUse : InUse pinEnv demoCodec (fun _ => false) np pinKeys pinStore [padOne] pinMap :=
  ⟨pinNotes, Store.empty, by
    intro o ho
    simp only [pinNotes, List.mem_cons, List.not_mem_nil, or_false] at ho
    rcases ho with rfl | rfl
    · simp [OpOK, LockMode.Runs]
    · exact ⟨rfl, Or.inr rfl, _, labStable (by omega)⟩, by decide, wf_empty, fun _ _ => rfl, rfl, rfl, rfl⟩

theorem pin_ok : ∀ x, pinStore.names x ≠ none → pinEnv.okName x = true := by
  have h : OnlyOk pinEnv Store.empty := fun x hx => absurd rfl hx
  have h1 := onlyOk_run (E := pinEnv) (padInit np true .fake) h
  exact onlyOk_run (E := pinEnv) (padSet pinEnv demoCodec padOne kA 2 true) h1

def kE : Key := .str "é".toList

theorem kE_set : ∃ s' cache', (padSet pinEnv demoCodec padOne kE 3 true).runIn pinEnv ⟨0, false⟩ (pinStore, []) =
      (.err .unicodeEncode, (s', cache')) ∧
    (∃ ks, ((padKeys pinEnv padOne).runIn pinEnv ⟨0, false⟩ (s', cache')).1 = .ok (some ks) ∧ kE.text ∈ ks) ∧
    s'.content (padAddr np kE.text) = some (List.replicate 3 0) ∧
    (padGet demoCodec (fun _ => false) padOne kE).runIn pinEnv ⟨0, false⟩ (s', cache') =
      (.err .unicodeEncode, (s', cache')) :=
  C109_nonascii pinEnv pinMax pinHex demoCodec (fun _ => false) np pinKeys pinKeysOK pinNamesOK pinStore [padOne] pinMap
    pin_inUse pin_ok (by unfold AsciiText; decide) padOne (by simp) kE rfl (Or.inl rfl) (by unfold AsciiText; decide) rfl 3
    [3, 3, 3] (labStable (by omega)) true 0 []

/-- C109, in full: a notepad takes any key and gives its value back, also in a process that leaves the tracker on -/
def C109_full : Prop :=
  ∀ (E : Env) (_ : NameMax E) (_ : HexSha E) (c : Codec Nat) (isNone : Nat → Bool) (pre : Str) (U : Str → Prop)
    (_ : KeysOK E pre U) (_ : NamesOK E (indexName pre)) (s : Store) (ps : List Pad) (m : Str → Option Nat)
    (_ : InUse E c isNone pre U s ps m) (_ : ∀ x, s.names x ≠ none → E.okName x = true) (_ : AsciiText pre)
    (pad : Pad) (_ : pad ∈ ps) (key : Key) (_ : key.hashed E = E.utf8 key.text) (_ : U key.text) (v : Nat) (b : Bytes)
    (_ : Stable c isNone v b) (pr : TProc) (cache : List Str),
    ((padSet E c pad key v true).runIn E pr (s, cache)).1 = .ok ()

theorem C109_full_false : ¬ C109_full := by
  intro h
  have := h pinEnv pinMax pinHex demoCodec (fun _ => false) np pinKeys pinKeysOK pinNamesOK pinStore [padOne] pinMap
    pin_inUse pin_ok (by unfold AsciiText; decide) padOne (by simp) kE rfl (Or.inl rfl) 3 [3, 3, 3] (labStable (by omega))
    ⟨0, false⟩ []
  obtain ⟨s', c', e, _⟩ := kE_set
  rw [e] at this
  simp at this

example : (padSet pinEnv demoCodec padOne kE 3 true).runIn pinEnv ⟨0, true⟩ (pinStore, []) =
    (((padSet pinEnv demoCodec padOne kE 3 true).run pinEnv pinStore).1,
      (((padSet pinEnv demoCodec padOne kE 3 true).run pinEnv pinStore).2, [])) :=
  C109_deactivated pinEnv ⟨0, true⟩ rfl _ pinStore []

example : ((padSet pinEnv demoCodec padOne kA 3 true).runIn pinEnv ⟨0, false⟩ (pinStore, [])).1 =
    ((padSet pinEnv demoCodec padOne kA 3 true).run pinEnv pinStore).1 :=
  (C109_ascii_partial pinEnv pinMax pinHex demoCodec (fun _ => false) ⟨0, false⟩ padOne
    (by intro ix h; cases h; unfold AsciiText; decide) kA (by unfold AsciiText; decide) 3 true pinStore pin_ok []).1.1

/-! ## C110 -/

/-- what `resource_tracker.register` and `unregister` do in a process, for a resource of the kind `rtype` -/
def sameTracking (pr pr' : TProc) (rtype : Str) : Prop :=
  ∀ cmd name, trackerCall pr cmd name rtype = trackerCall pr' cmd name rtype

/-- C110, on Windows: the function changes nothing -/
theorem C110_windows_partial (pr : TProc) (rtype : Str) : sameTracking (deactivate true pr) pr rtype := fun _ _ => rfl

/-- C110, elsewhere: after it nothing is sent for shared memory, and every registration of any other resource (the
semaphores of locks, queues and pools under the spawn and forkserver start methods) raises `NameError` -/
theorem C110_others_raise (pr : TProc) (cmd name rtype : Str) :
    trackerCall (deactivate false pr) cmd name rtype = if rtype = shmType then .ok [] else .error .nameError := rfl

/-- C110 in full (other resources are tracked as before) is false -/
theorem C110_full_false : ¬ ∀ (windows : Bool) (pr : TProc) (rtype : Str), rtype ≠ shmType →
    sameTracking (deactivate windows pr) pr rtype := by
  intro h
  have h1 := h false ⟨0, false⟩ "semaphore".toList (by decide) regWord "/mp-1".toList
  have h2 : trackerCall ⟨0, false⟩ regWord "/mp-1".toList "semaphore".toList = .ok "REGISTER:/mp-1:semaphore\n".toList := rfl
  rw [C110_others_raise, if_neg (by decide), h2] at h1
  nomatch h1

example : trackerCall (deactivate false ⟨0, false⟩) regWord "/mp-1".toList "semaphore".toList = .error .nameError ∧
    trackerCall ⟨0, false⟩ regWord "/mp-1".toList "semaphore".toList = .ok "REGISTER:/mp-1:semaphore\n".toList :=
  ⟨C110_others_raise _ _ _ _, rfl⟩

example : trackerCall (deactivate true ⟨0, false⟩) regWord "/mp-1".toList "semaphore".toList =
    .ok "REGISTER:/mp-1:semaphore\n".toList := C110_windows_partial ⟨0, false⟩ "semaphore".toList _ _

end Verif.Props
