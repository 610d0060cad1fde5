import Verif.Spec.CompTrack
import Verif.Props.Composition
/-!
# The log of an edited Composition
-/
namespace Verif.Lemmas
open Verif Verif.Model Verif.Spec
variable {V X : Type}

/-- the records a send makes -/
inductive SendLogs [PyNone V] : Send V X → List TrackRec → Prop
  | quiet {sd : Send V X} : QuietSend sd → SendLogs sd []
  | track (n : Name) (s : Step V X) :
      SendLogs ⟨some (trackPipe logTracker n s), none, .none⟩ [{ target := s.ident, step := some n }]

/-- the records the sends of a step make -/
inductive SendsLog [PyNone V] : List (Send V X) → List TrackRec → Prop
  | nil : SendsLog [] []
  | cons {sd l r rs} : SendLogs sd r → SendsLog l rs → SendsLog (sd :: l) (r ++ rs)

theorem SendsLog.append [PyNone V] {l l' : List (Send V X)} {r r' : List TrackRec} (h : SendsLog l r) (h' : SendsLog l' r') :
    SendsLog (l ++ l') (r ++ r') := by
  induction h with
  | nil => exact h'
  | cons h1 _ ih => rw [List.append_assoc]; exact .cons h1 ih

theorem SendsLog.one [PyNone V] {sd : Send V X} {r : List TrackRec} (h : SendLogs sd r) : SendsLog [sd] r := by
  have := SendsLog.cons h .nil
  rwa [List.append_nil] at this

theorem placeInto_log {c : Comp V X} {v : V} {t : Target V X} {p : Name} {w : World V X}
    (h : ∀ f, t = .writer f → ∀ v w, (f v w).2.log = w.log) : (placeInto c v t p w).2.2.log = w.log := by
  cases t with
  | stepInt n => rfl
  | stepStr s => rfl
  | dict id => rfl
  | inert => rfl
  | writer f => exact h f rfl v w
  | list id =>
    simp only [placeInto]
    split
    · rfl
    · split <;> rfl

theorem performSend_log [PyNone V] {sd : Send V X} {r : List TrackRec} (h : SendLogs sd r) (c : Comp V X) (v : V) (w : World V X) :
    ((performSend c v sd w).1 = .ok () → (performSend c v sd w).2.2.log = w.log ++ r) ∧
    (∀ e, (performSend c v sd w).1 = .error e → (performSend c v sd w).2.2.log = w.log) := by
  cases h with
  | quiet h =>
    have : (performSend c v sd w).2.2.log = w.log := by
      obtain ⟨pipe, target, ptr⟩ := sd
      cases target with
      | none =>
        cases pipe with
        | none => rfl
        | some p =>
          have := h.1 p rfl v w
          simp only [performSend]
          rcases hp : p v w with ⟨x, w'⟩
          rw [hp] at this
          cases x <;> exact this
      | some t =>
        cases pipe with
        | none => exact placeInto_log fun f e => h.2 f (by rw [e])
        | some p =>
          have := h.1 p rfl v w
          simp only [performSend]
          rcases hp : p v w with ⟨x, w'⟩
          rw [hp] at this
          cases x with
          | error e => exact this
          | ok y => exact (placeInto_log fun f e => h.2 f (by rw [e])).trans this
    exact ⟨fun _ => by simpa using this, fun _ _ => this⟩
  | track n s => exact ⟨fun _ => rfl, fun e he => (nomatch he)⟩

theorem performSendList_log [PyNone V] {l : List (Send V X)} {r : List TrackRec} (h : SendsLog l r) (c : Comp V X) (v : V) (w : World V X) :
    ((performSendList c v l w).1 = .ok () → (performSendList c v l w).2.2.log = w.log ++ r) ∧
    (∀ e, (performSendList c v l w).1 = .error e → ∃ part, part <+: r ∧ (performSendList c v l w).2.2.log = w.log ++ part) := by
  induction h generalizing c w with
  | nil => exact ⟨fun _ => by simp [performSendList], fun e he => (nomatch he)⟩
  | @cons sd l r rs h1 h2 ih =>
    have hp := performSend_log h1 c v w
    rw [performSendList]
    rcases hd : performSend c v sd w with ⟨x, c1, w1⟩
    rw [hd] at hp
    cases x with
    | error e =>
      refine ⟨fun he => (nomatch he), fun e' _ => ⟨[], List.nil_prefix, ?_⟩⟩
      simpa using hp.2 e rfl
    | ok u =>
      have h3 := hp.1 rfl
      obtain ⟨h4, h5⟩ := ih c1 w1
      simp only at h3 ⊢
      refine ⟨fun he => by rw [h4 he, h3, List.append_assoc], fun e he => ?_⟩
      obtain ⟨part, k1, k2⟩ := h5 e he
      exact ⟨r ++ part, by simpa using k1, by rw [k2, h3, List.append_assoc]⟩

theorem callStep_log {c : Comp V X} {n : Name} {s : Step V X} (h : QuietStep s) (v : V) (w : World V X) :
    (callStep c n s v w).2.log = w.log := by
  simp only [callStep]
  cases hf : s.func with
  | none => simp only [callWith]; split <;> exact h.1 _ _ _
  | some f => simp only [callPartialStep, callWith]; split <;> exact h.2 f hf _ _ _

theorem doStep_log [PyNone V] {c : Comp V X} {n : Name} {s : Step V X} {r : List TrackRec} (hs : QuietStep s) (hl : SendsLog (sendsOf c n) r)
    (v : V) (w : World V X) :
    (∀ y, (doStep c n s v w).1 = .ok y → (doStep c n s v w).2.2.log = w.log ++ r) ∧
    (∀ e, (doStep c n s v w).1 = .error e → ∃ part, part <+: r ∧ (doStep c n s v w).2.2.log = w.log ++ part) := by
  have hc := callStep_log (c := c) (n := n) hs v w
  rw [doStep]
  rcases hd : callStep c n s v w with ⟨x, w1⟩
  rw [hd] at hc
  cases x with
  | error e => exact ⟨fun _ h => (nomatch h), fun _ _ => ⟨[], List.nil_prefix, by simpa using hc⟩⟩
  | ok y =>
    have hp := performSendList_log hl c y w1
    simp only [performSends]
    change _ ∧ _ at hp
    unfold sendsOf at hp
    rcases hq : performSendList c y ((c.sends.get? n).getD []) w1 with ⟨x, c2, w2⟩
    rw [hq] at hp
    simp only at hc hp ⊢
    rw [hc] at hp
    cases x with
    | ok u => exact ⟨fun _ _ => hp.1 rfl, fun _ h => (nomatch h)⟩
    | error e => exact ⟨fun _ h => (nomatch h), fun _ _ => hp.2 e rfl⟩

theorem iterSteps_recs [PyNone V] {recs : Name → List TrackRec} (l : Dict Name (Step V X)) (c : Comp V X) (hq : ∀ p ∈ l, QuietStep p.2)
    (hl : ∀ n, SendsLog (sendsOf c n) (recs n)) (v : V) (w : World V X) :
    ∃ part, ((iterSteps c v l w).2.1 = none → part = []) ∧
      (∀ p, l[(iterSteps c v l w).1.length]? = some p → part <+: recs p.1) ∧
      (iterSteps c v l w).2.2.2.log = w.log ++ (l.take (iterSteps c v l w).1.length).flatMap (fun p => recs p.1) ++ part := by
  induction l generalizing c v w with
  | nil => exact ⟨[], fun _ => rfl, fun _ _ => List.nil_prefix, by simp [iterSteps]⟩
  | cons p t ih =>
    obtain ⟨n, s⟩ := p
    have hd := doStep_log (hq (n, s) List.mem_cons_self) (hl n) v w
    have hsame := doStep_same c n s v w
    rw [iterSteps]
    rcases hx : doStep c n s v w with ⟨x, c1, w1⟩
    rw [hx] at hd hsame
    cases x with
    | error e =>
      obtain ⟨part, k1, k2⟩ := hd.2 e rfl
      refine ⟨part, fun h => (nomatch h), fun p hp => ?_, ?_⟩
      · simp only [List.length_nil, List.getElem?_cons_zero, Option.some.injEq] at hp
        subst hp
        exact k1
      · simpa using k2
    | ok y =>
      obtain ⟨part, k1, k2, k3⟩ := ih c1 (fun p hp => hq p (List.mem_cons_of_mem _ hp)) (fun m => by
        have := hl m
        unfold sendsOf at this ⊢
        rw [hsame.sends]
        exact this) y w1
      refine ⟨part, k1, fun p hp => k2 p (by simpa using hp), ?_⟩
      have := hd.1 y rfl
      simp only at this k3 ⊢
      rw [k3, this]
      simp [List.append_assoc]

/-! ## edits -/

/-- the Composition is as filed -/
structure AsFiled [PyNone V] (c : Comp V X) (F : Filing) : Prop where
  steps : c.steps.map (fun p => (p.1, p.2.ident)) = F.steps
  on : c.tracker = if F.on then some logTracker else none
  quiet : ∀ p ∈ c.steps, QuietStep p.2
  sends : ∀ n, SendsLog (sendsOf c n) (F.records n)

theorem map_set (d : Dict Name (Step V X)) (n : Name) (s : Step V X) :
    (Dict.set d n s).map (fun p => (p.1, p.2.ident)) = Dict.set (d.map fun p => (p.1, p.2.ident)) n s.ident := by
  induction d with
  | nil => rfl
  | cons p t ih =>
    obtain ⟨m, s'⟩ := p
    by_cases e : m = n
    · simp [Dict.set, e]
    · simp [Dict.set, e, ih]

theorem mem_steps_set {d : Dict Name (Step V X)} {n : Name} {s : Step V X} {p} (h : p ∈ Dict.set d n s) : p ∈ d ∨ p = (n, s) := by
  induction d with
  | nil => simpa [Dict.set] using h
  | cons q t ih =>
    obtain ⟨m, s'⟩ := q
    by_cases e : m = n
    · subst e
      simp only [Dict.set, if_true, List.mem_cons] at h ⊢
      rcases h with h | h
      · exact .inr h
      · exact .inl (.inr h)
    · simp only [Dict.set, e, if_false, List.mem_cons] at h ⊢
      rcases h with h | h
      · exact .inl (.inl h)
      · rcases ih h with h | h
        · exact .inl (.inr h)
        · exact .inr h

theorem sendsOf_addSend {c c' : Comp V X} {n : Name} {sd : Send V X} (h : addSend c n sd = .ok c') (m : Name) :
    sendsOf c' m = if m = n then sendsOf c m ++ [sd] else sendsOf c m := by
  simp only [addSend] at h
  split at h
  · cases h
  · cases h
    simp only [sendsOf, Dict.get?_set]
    by_cases e : m = n
    · subst e; simp
    · simp [e, Ne.symm e]

theorem AsFiled.addSend [PyNone V] {c c' : Comp V X} {F : Filing} (h : AsFiled c F) {n : Name} {sd : Send V X} (hq : QuietSend sd)
    (he : addSend c n sd = .ok c') : AsFiled c' F := by
  have hs := sendsOf_addSend he
  simp only [Model.addSend] at he
  split at he
  · cases he
  · cases he
    refine ⟨h.steps, h.on, h.quiet, fun m => ?_⟩
    rw [hs m]
    split
    · have := (h.sends m).append (.one (.quiet hq))
      rwa [List.append_nil] at this
    · exact h.sends m

theorem AsFiled.trackSend [PyNone V] {c : Comp V X} {F : Filing} (h : AsFiled c F) (n : Name) (s : Step V X) :
    AsFiled (addTrackSend c n s) (F.file n s.ident) := by
  have ho := h.on
  simp only [addTrackSend, Filing.file]
  cases hF : F.on with
  | false =>
    rw [hF] at ho
    simp only [Bool.false_eq_true, if_false] at ho
    simpa only [ho, Bool.false_eq_true, if_false] using h
  | true =>
    rw [hF] at ho
    simp only [if_true] at ho
    simp only [ho, Model.addSend, Option.isNone_none, Option.isNone_some, Bool.and_false, Bool.false_eq_true, if_false, if_true]
    refine ⟨h.steps, by simpa [hF] using ho, h.quiet, fun m => ?_⟩
    have hs : ∀ m, sendsOf { c with tracker := some logTracker, sends := c.sends.set n ((c.sends.get? n).getD [] ++ [⟨some (trackPipe logTracker n s), none, .none⟩]) } m =
        if m = n then sendsOf c m ++ [⟨some (trackPipe logTracker n s), none, .none⟩] else sendsOf c m := by
      intro m
      simp only [sendsOf, Dict.get?_set]
      by_cases e : m = n
      · subst e; simp
      · simp [e, Ne.symm e]
    rw [hs m]
    simp only [Filing.records]
    split
    · rename_i e
      subst e
      rw [List.map_append]
      exact (h.sends m).append (.one (.track m s))
    · exact h.sends m

theorem AsFiled.trackSends [PyNone V] (l : Dict Name (Step V X)) {c : Comp V X} {F : Filing} (h : AsFiled c F) :
    AsFiled (addTrackSends c l) (F.fileAll (l.map fun p => (p.1, p.2.ident))) := by
  induction l generalizing c F with
  | nil => exact h
  | cons p t ih =>
    obtain ⟨n, s⟩ := p
    exact ih (h.trackSend n s)

theorem file_steps (F : Filing) (n : Name) (i : Nat) : (F.file n i).steps = F.steps ∧ (F.file n i).on = F.on := by
  simp only [Filing.file]
  split <;> exact ⟨rfl, rfl⟩

theorem fileAll_steps (F : Filing) (l : Dict Name Nat) : (F.fileAll l).steps = F.steps ∧ (F.fileAll l).on = F.on := by
  induction l generalizing F with
  | nil => exact ⟨rfl, rfl⟩
  | cons p t ih =>
    have := ih (F.file p.1 p.2)
    have h2 := file_steps F p.1 p.2
    exact ⟨this.1.trans h2.1, this.2.trans h2.2⟩

theorem AsFiled.captures [PyNone V] (l : List Name) (caps : Dict Name Nat) {c : Comp V X} {F : Filing} (h : AsFiled c F) (w : World V X) :
    AsFiled (addCapturesLoop c l caps w).1 F := by
  induction l generalizing c caps w with
  | nil => exact ⟨h.steps, h.on, h.quiet, h.sends⟩
  | cons n t ih =>
    rw [addCapturesLoop]
    refine ih _ ?_ _
    simp only [addCapture]
    split
    · rename_i c' he
      exact h.addSend ⟨fun _ h => by simp at h, fun _ h => by simp at h⟩ he
    · exact h

theorem AsFiled.same [PyNone V] {c c' : Comp V X} {F : Filing} (h : AsFiled c F) (hs : SameBut c c') : AsFiled c' F :=
  ⟨by rw [hs.steps]; exact h.steps, by rw [hs.tracker]; exact h.on, by rw [hs.steps]; exact h.quiet, fun n => by
    have := h.sends n
    unfold sendsOf at this ⊢
    rw [hs.sends]
    exact this⟩

theorem AsFiled.edit [PyNone V] {c : Comp V X} {F : Filing} (h : AsFiled c F) (w : World V X) (e : CompEdit V X) (hq : QuietEdit e) :
    AsFiled (editComp (c, w) e).1 (F.edit e) := by
  cases e with
  | addStep s name =>
    have hn : name.getD (.int (c.steps.length + 1)) = F.nameFor name := by
      simp only [Filing.nameFor, ← h.steps, List.length_map]
    simp only [editComp, Model.addStep, Filing.edit, hn]
    refine AsFiled.trackSend (c := { c with steps := c.steps.set (F.nameFor name) s })
      (F := { F with steps := F.steps.set (F.nameFor name) s.ident }) ⟨?_, h.on, fun p hp => ?_, h.sends⟩ _ _
    · simp only
      rw [map_set, h.steps]
    · rcases mem_steps_set hp with h1 | h1
      · exact h.quiet p h1
      · subst h1; exact hq
  | addSend n sd =>
    simp only [editComp, Filing.edit]
    split
    · rename_i c' he
      exact h.addSend hq he
    · exact h
  | addInsert n k v => exact ⟨h.steps, h.on, h.quiet, h.sends⟩
  | reindex =>
    simp only [editComp, Filing.edit]
    have hr := Props.reindex_steps c
    refine ⟨?_, h.on, fun p hp => ?_, h.sends⟩
    · simp only [hr, ← h.steps]
      apply List.ext_getElem?
      intro i
      simp only [List.getElem?_map, List.getElem?_mapIdx, Dict.values]
      cases c.steps[i]? <;> rfl
    · rw [hr] at hp
      obtain ⟨i, hi, rfl⟩ := List.mem_mapIdx.mp hp
      simp only [Dict.values, List.getElem_map]
      exact h.quiet _ (List.getElem_mem _)
  | track =>
    have ho := h.on
    simp only [editComp, trackOn, Filing.edit]
    cases hF : F.on with
    | true =>
      rw [hF] at ho
      simp only [if_true] at ho
      simpa only [ho, if_true] using h
    | false =>
      rw [hF] at ho
      simp only [Bool.false_eq_true, if_false] at ho
      simp only [ho, Bool.false_eq_true, if_false]
      have := AsFiled.trackSends c.steps (c := { c with tracker := some logTracker }) (F := { F with on := true })
        ⟨h.steps, by simp, h.quiet, h.sends⟩
      rwa [h.steps] at this
  | captures => exact h.captures _ _ _
  | run v =>
    simp only [editComp, Filing.edit]
    rw [execute_comp]
    exact h.same (iterSteps_same c v c.steps w)

theorem AsFiled.edits [PyNone V] (es : List (CompEdit V X)) {c : Comp V X} {F : Filing} (h : AsFiled c F) (w : World V X)
    (hq : ∀ e ∈ es, QuietEdit e) : AsFiled (editsComp es (c, w)).1 (F.edits es) := by
  induction es generalizing c F w with
  | nil => exact h
  | cons e t ih =>
    have := h.edit w e (hq e List.mem_cons_self)
    exact ih this (editComp (c, w) e).2 fun e he => hq e (List.mem_cons_of_mem _ he)

theorem quiet_sends [PyNone V] {l : List (Send V X)} (h : ∀ sd ∈ l, QuietSend sd) : SendsLog l [] := by
  induction l with
  | nil => exact .nil
  | cons a t ih => exact .cons (.quiet (h a List.mem_cons_self)) (ih fun sd hs => h sd (List.mem_cons_of_mem _ hs))

theorem mem_sendsOf {c : Comp V X} {n : Name} {sd : Send V X} (h : sd ∈ sendsOf c n) : ∃ p ∈ c.sends, sd ∈ p.2 := by
  unfold sendsOf at h
  cases hg : c.sends.get? n with
  | none => rw [hg] at h; simp at h
  | some l => rw [hg] at h; exact ⟨(n, l), Dict.mem_of_get? hg, h⟩

theorem AsFiled.start [PyNone V] (steps : SeqOrMap Name (Step V X)) (sends : Dict Name (List (Send V X)))
    (inserts : Dict Name (Dict Name V)) (on optional : Bool)
    (hq : ∀ p ∈ (compInit steps sends inserts (if on then some logTracker else none) optional).steps, QuietStep p.2)
    (hs : ∀ p ∈ sends, ∀ sd ∈ p.2, QuietSend sd) :
    AsFiled (compInit steps sends inserts (if on then some logTracker else none) optional)
      (Filing.start ((compInit steps sends inserts (if on then some logTracker else none) optional).steps.map fun p => (p.1, p.2.ident)) on) := by
  simp only [compInit, Props.addTrackSends_steps] at hq ⊢
  refine AsFiled.trackSends _ ⟨rfl, rfl, hq, fun n => ?_⟩
  refine quiet_sends fun sd h => ?_
  obtain ⟨p, h1, h2⟩ := mem_sendsOf h
  exact hs p h1 sd h2

/-! ## careful edits -/

theorem file_filed (F : Filing) (n : Name) (i : Nat) (m : Name) :
    (F.file n i).filed m = if F.on then (if m = n then F.filed m ++ [i] else F.filed m) else F.filed m := by
  simp only [Filing.file]
  split <;> rfl

theorem fileAll_filed (l : Dict Name Nat) (hl : l.WF) (F : Filing) (ho : F.on = true) (m : Name) :
    (F.fileAll l).filed m = F.filed m ++ (l.get? m).toList := by
  induction l generalizing F with
  | nil => simp [Filing.fileAll, Dict.get?]
  | cons p t ih =>
    obtain ⟨n, i⟩ := p
    have hnd : n ∉ Dict.keys t ∧ Dict.WF t := by simpa [Dict.WF, Dict.keys] using hl
    have := ih hnd.2 (F.file n i) (by rw [(file_steps F n i).2]; exact ho)
    simp only [Filing.fileAll, List.foldl_cons] at this ⊢
    rw [this, file_filed, ho]
    by_cases e : n = m
    · subst e
      simp [Dict.get?, Dict.get?_eq_none.mpr hnd.1]
    · simp [Dict.get?, e, Ne.symm e]

/-- one function is filed for each step, and no other -/
def OneEach (F : Filing) : Prop := F.steps.WF ∧ ∀ n, F.filed n = if F.on then (F.steps.get? n).toList else []

theorem OneEach.edit {F : Filing} (h : OneEach F) (e : CompEdit V X) (hc : F.Careful e) : OneEach (F.edit e) := by
  cases e with
  | addStep s name =>
    simp only [Filing.Careful] at hc
    simp only [Filing.edit, OneEach, (file_steps _ _ _).1, (file_steps _ _ _).2, file_filed]
    refine ⟨Dict.wf_set h.1 _ _, fun n => ?_⟩
    rw [h.2 n]
    by_cases ho : F.on = true
    · simp only [ho, if_true, Dict.get?_set]
      by_cases e : n = F.nameFor name
      · subst e
        simp [Dict.get?_eq_none.mpr hc]
      · simp [e, Ne.symm e]
    · simp [ho]
  | reindex => exact hc.elim
  | track =>
    simp only [Filing.edit]
    split
    · exact h
    · rename_i ho
      refine ⟨by rw [(fileAll_steps _ _).1]; exact h.1, fun n => ?_⟩
      rw [fileAll_filed _ h.1 _ rfl, (fileAll_steps _ _).1, (fileAll_steps _ _).2]
      simp [h.2 n, ho]
  | addSend n sd => exact h
  | addInsert n k v => exact h
  | captures => exact h
  | run v => exact h

theorem OneEach.edits (es : List (CompEdit V X)) {F : Filing} (h : OneEach F) (hc : F.AllCareful es) : OneEach (F.edits es) := by
  induction es generalizing F with
  | nil => exact h
  | cons e t ih => exact ih (h.edit e hc.1) hc.2

theorem OneEach.start (l : Dict Name Nat) (hl : l.WF) (on : Bool) : OneEach (Filing.start l on) := by
  refine ⟨by rw [Filing.start, (fileAll_steps _ _).1]; exact hl, fun n => ?_⟩
  cases on with
  | true =>
    rw [Filing.start, fileAll_filed _ hl _ rfl, (fileAll_steps _ _).1, (fileAll_steps _ _).2]
    simp
  | false =>
    rw [Filing.start, (fileAll_steps _ _).1, (fileAll_steps _ _).2]
    simp only [Bool.false_eq_true, if_false]
    suffices h : ∀ (t : Dict Name Nat) (G : Filing), G.on = false → (G.fileAll t).filed n = G.filed n from h l _ rfl
    intro t
    induction t with
    | nil => intros; rfl
    | cons p t ih =>
      intro G hG
      have := ih (G.file p.1 p.2) (by rw [(file_steps _ _ _).2]; exact hG)
      simp only [Filing.fileAll, List.foldl_cons] at this ⊢
      rw [this, file_filed, hG]
      simp

end Verif.Lemmas
