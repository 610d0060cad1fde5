import Verif.Spec.Tracker
import Verif.Py.Tactics
import Mathlib.Data.List.Induction
/-! # C61, C62: Tracker -/
namespace Verif.Props
open Verif Verif.Model Verif.Spec

variable {J : Type} [Jval J]

theorem trkRun_append (dumps : Dumps J) (t : Trk J) (a b : List (TrkOp J)) :
    trkRun dumps t (a ++ b) = trkRun dumps (trkRun dumps t a) b := by simp [trkRun]

theorem trkRun_snoc (dumps : Dumps J) (t : Trk J) (a : List (TrkOp J)) (op : TrkOp J) :
    trkRun dumps t (a ++ [op]) = trkOp dumps (trkRun dumps t a) op := by simp [trkRun]

theorem dump_keeps (dumps : Dumps J) (t : Trk J) (st : J) :
    (dump dumps t st).2.history = t.history ∧ (dump dumps t st).2.metadata = t.metadata ∧
    (dump dumps t st).2.counter = t.counter ∧ (dump dumps t st).2.paused = t.paused := by
  unfold dump
  split
  · exact ⟨rfl, rfl, rfl, rfl⟩
  · cases writeHead t.file with
    | error e => exact ⟨rfl, rfl, rfl, rfl⟩
    | ok h => cases dumps (logDoc t st) <;> exact ⟨rfl, rfl, rfl, rfl⟩

/-- the state after a history -/
theorem trk_state (dumps : Dumps J) (name init : J) (file : Option (List UInt8)) (ops : List (TrkOp J)) (hw : ∀ op ∈ ops, KwWF op) :
    let s := trkRun dumps { name, initStamp := init, file } ops
    s.history.length = tracked ops.reverse ∧ s.counter = tracked ops.reverse + 1 ∧ s.metadata.WF ∧
    ∀ k, s.metadata.get? k = lastSet k ops.reverse := by
  induction ops using List.reverseRecOn with
  | nil => exact ⟨rfl, rfl, Dict.wf_nil, fun _ => rfl⟩
  | append_singleton ops op ih =>
    obtain ⟨h1, h2, h3, h4⟩ := ih (fun op h => hw op (List.mem_append_left _ h))
    have hop := hw op (by simp)
    simp only [trkRun_snoc, List.reverse_append, List.reverse_cons, List.reverse_nil, List.nil_append, List.singleton_append]
    generalize trkRun dumps { name, initStamp := init, file } ops = s at h1 h2 h3 h4
    cases op with
    | track a b n m => exact ⟨by simp [trkOp, track, tracked, h1], by simp [trkOp, track, tracked, h2], h3, h4⟩
    | setMetadata m =>
      refine ⟨h1, h2, Dict.wf_update h3 _, fun k => ?_⟩
      simp only [trkOp, setMetadata, lastSet, ← h4 k]
      rw [Dict.get?_update _ _ hop]
    | pause b => exact ⟨h1, h2, h3, h4⟩
    | dump st =>
      obtain ⟨e1, e2, e3, _⟩ := dump_keeps dumps s st
      simp only [trkOp, e1, e2, e3]
      exact ⟨h1, h2, h3, h4⟩
    | clear => exact ⟨rfl, rfl, h3, h4⟩

/-- without `clear` the history only grows -/
theorem trk_grows (dumps : Dumps J) (ops : List (TrkOp J)) (h : ∀ op ∈ ops, op ≠ .clear) (t : Trk J) :
    ∃ l, (trkRun dumps t ops).history = t.history ++ l := by
  induction ops generalizing t with
  | nil => exact ⟨[], by simp [trkRun]⟩
  | cons op r ih =>
    obtain ⟨l, hl⟩ := ih (fun op h' => h op (List.mem_cons_of_mem _ h')) (trkOp dumps t op)
    have hl' : (trkRun dumps t (op :: r)).history = (trkOp dumps t op).history ++ l := hl
    cases op with
    | track a b n m => exact ⟨_, by rw [hl']; simp [trkOp, track]; rfl⟩
    | setMetadata m => exact ⟨l, hl'⟩
    | pause b => exact ⟨l, hl'⟩
    | dump st =>
      refine ⟨l, ?_⟩
      rw [hl']; simp only [trkOp, (dump_keeps dumps t st).1]
    | clear => exact absurd rfl (h .clear List.mem_cons_self)

theorem get?_baseRec (target caller : Str) (lineno n : Nat) (k : Str) :
    Dict.get? (baseRec target caller lineno n : LogRec J) k = ownEntry target caller lineno n k := by
  change _ = if k = kTarget then some (Jval.ofStr target) else if k = kCaller then some (Jval.ofStr caller)
    else if k = kLineno then some (Jval.ofNat lineno) else if k = kTrackcount then some (Jval.ofNat n) else none
  rw [baseRec]
  generalize kTarget = a
  generalize kCaller = b
  generalize kLineno = c
  generalize kTrackcount = d
  rw [Dict.get?_cons, Dict.get?_cons, Dict.get?_cons, Dict.get?_cons, Dict.get?_nil]
  by_cases h1 : a = k
  · rw [if_pos h1, if_pos h1.symm]
  rw [if_neg h1, if_neg (Ne.symm h1)]
  by_cases h2 : b = k
  · rw [if_pos h2, if_pos h2.symm]
  rw [if_neg h2, if_neg (Ne.symm h2)]
  by_cases h3 : c = k
  · rw [if_pos h3, if_pos h3.symm]
  rw [if_neg h3, if_neg (Ne.symm h3)]
  by_cases h4 : d = k
  · rw [if_pos h4, if_pos h4.symm]
  rw [if_neg h4, if_neg (Ne.symm h4)]

/-- C61: the history has one record per `track` since the last `clear`, in order: the record of the `i`-th has its own
entries with `trackcount` `i`, over them the metadata set before it (also before the `clear`), over those the metadata
given with it. -/
theorem C61_records (dumps : Dumps J) (name init : J) (file : Option (List UInt8)) (ops : List (TrkOp J)) (hw : ∀ op ∈ ops, KwWF op) :
    (trkRun dumps { name, initStamp := init, file } ops).history.length = tracked ops.reverse ∧
    ∀ pre target caller lineno m post, ops = pre ++ .track target caller lineno m :: post → (∀ op ∈ post, op ≠ .clear) →
      ∃ r, (trkRun dumps { name, initStamp := init, file } ops).history[tracked pre.reverse]? = some r ∧
        ∀ k, Dict.get? r k = ((Dict.get? m k).or (lastSet k pre.reverse)).or
          (ownEntry target caller lineno (tracked pre.reverse + 1) k) := by
  refine ⟨(trk_state dumps name init file ops hw).1, ?_⟩
  rintro pre target caller lineno m post rfl hp
  obtain ⟨h1, h2, h3, h4⟩ := trk_state dumps name init file pre (fun op h => hw op (List.mem_append_left _ h))
  have hm : Dict.WF m := hw (.track target caller lineno m) (by simp)
  rw [trkRun_append, show TrkOp.track target caller lineno m :: post = [.track target caller lineno m] ++ post from rfl,
    trkRun_append]
  generalize trkRun dumps { name, initStamp := init, file } pre = s at h1 h2 h3 h4
  obtain ⟨l, hl⟩ := trk_grows dumps post hp (trkRun dumps s [.track target caller lineno m])
  refine ⟨((baseRec target caller lineno s.counter).update s.metadata).update m, ?_, ?_⟩
  · rw [hl]
    simp only [trkRun, List.foldl_cons, List.foldl_nil, trkOp, track]
    rw [List.append_assoc, List.getElem?_append_right (by omega), ← h1]
    simp
  · intro k
    rw [Dict.get?_update _ _ hm, Dict.get?_update _ _ h3, h4, h2]
    rw [get?_baseRec]
    cases Dict.get? m k <;> cases lastSet k pre.reverse <;> rfl

instance : Jval Int := ⟨fun n => n, fun s => s.length⟩

/-- a serialiser that cannot do negative numbers -/
def toyDumps : Dumps Int := fun d =>
  if d.history.any fun r => r.any fun e => e.2 < 0 then .error .typeError else .ok (100 :: d.history.map fun r => r.length.toUInt8)

def metaKey : Str := "a".toList

def toyOps : List (TrkOp Int) :=
  [.setMetadata [(metaKey, 5)], .track metaKey metaKey 7 [], .clear, .track metaKey metaKey 8 [], .dump 1, .track metaKey metaKey 9 [(metaKey, 6)], .dump 2]

example : ∃ r, (trkRun toyDumps { name := 0, initStamp := 0 } toyOps).history[1]? = some r ∧
    Dict.get? r kTrackcount = some 2 ∧ Dict.get? r metaKey = some 6 := by
  obtain ⟨r, h1, h2⟩ := (C61_records toyDumps 0 0 none toyOps (by
    intro op h
    simp only [toyOps, List.mem_cons, List.not_mem_nil, or_false] at h
    rcases h with rfl | rfl | rfl | rfl | rfl | rfl | rfl <;> simp [KwWF, Dict.WF])).2
    (toyOps.take 5) metaKey metaKey 9 [(metaKey, 6)] [.dump 2] rfl (by simp)
  exact ⟨r, h1, (h2 _).trans rfl, (h2 _).trans rfl⟩

/-! ## C62 -/

theorem commaSep_snoc (docs : List (List UInt8)) (h : docs ≠ []) (d : List UInt8) :
    commaSep (docs ++ [d]) = commaSep docs ++ [44, 10] ++ d := by
  induction docs with
  | nil => exact absurd rfl h
  | cons x t ih =>
    cases t with
    | nil => rfl
    | cons y r =>
      have := ih (by simp)
      simp only [List.cons_append] at this ⊢
      simp only [commaSep, this, List.append_assoc]

/-- C62, in full: whatever is tracked and whether or not dumping raises, the file is absent or a log -/
def C62_full : Prop :=
  ∀ (J : Type) [Jval J] (dumps : Dumps J) (name init : J) (ops : List (TrkOp J)),
    ∃ docs, IsLog (trkRun dumps { name, initStamp := init } ops).file docs

/-- C62: tracking something that cannot be serialised, then dumping, spoils the file for good: it begins `[`, and the next
dump leaves out the bracket -/
theorem C62_full_false : ¬ C62_full := by
  intro h
  obtain ⟨docs, hd⟩ := h Int toyDumps 0 0 [.track metaKey metaKey 1 [(metaKey, -1)], .dump 1]
  have hf : (trkRun toyDumps { name := 0, initStamp := 0 } [.track metaKey metaKey 1 [(metaKey, -1)], .dump 1] : Trk Int).file = some [91] := rfl
  rw [hf] at hd
  rcases hd with ⟨h, _⟩ | ⟨h, _⟩
  · cases h
  · have := congrArg List.length (Option.some.inj h)
    simp at this

omit [Jval J] in
/-- C62: nothing while paused -/
theorem C62_paused (dumps : Dumps J) (t : Trk J) (st : J) (h : t.paused = true) : dump dumps t st = (.ok (), t) := by
  simp [dump, h]

omit [Jval J] in
/-- C62: a dump that does not raise adds one document, the log as it is, after those that are there -/
theorem C62_dump_appends (dumps : Dumps J) (t : Trk J) (st : J) (h : t.paused = false) (docs : List (List UInt8))
    (hd : IsLog t.file docs) (d : List UInt8) (hj : dumps ⟨t.name, t.initStamp, st, t.history⟩ = .ok d) :
    (dump dumps t st).1 = .ok () ∧ IsLog (dump dumps t st).2.file (docs ++ [d]) := by
  have hj' : dumps (logDoc t st) = .ok d := hj
  rcases hd with ⟨hf, rfl⟩ | ⟨hf, hne⟩
  · simp only [dump, h, hf, writeHead, hj']
    exact ⟨rfl, .inr ⟨by simp [commaSep], by simp⟩⟩
  · have hw : writeHead t.file = .ok (91 :: commaSep docs ++ [44, 10]) := by
      rw [hf]
      simp only [List.cons_append, writeHead]
      rw [← List.cons_append, List.dropLast_concat]
      rfl
    simp only [dump, h, hw, hj']
    refine ⟨rfl, .inr ⟨?_, by simp⟩⟩
    rw [commaSep_snoc docs hne]
    simp

/-- C62, the part that holds: any history in which no dump raises, on a file that is absent or a log, leaves it absent or
a log; without `clear`, all earlier documents remain, byte for byte, before the later ones. -/
theorem C62_file_partial (dumps : Dumps J) (name init : J) (file : Option (List UInt8)) (docs : List (List UInt8)) (hl : IsLog file docs)
    (ops : List (TrkOp J)) (hok : ∀ pre st post, ops = pre ++ .dump st :: post →
      (dump dumps (trkRun dumps { name, initStamp := init, file } pre) st).1 = .ok ()) :
    ∃ docs', IsLog (trkRun dumps { name, initStamp := init, file } ops).file docs' ∧
      ((∀ op ∈ ops, op ≠ .clear) → docs <+: docs') := by
  induction ops using List.reverseRecOn with
  | nil => exact ⟨docs, hl, fun _ => List.prefix_refl _⟩
  | append_singleton ops op ih =>
    obtain ⟨docs', h1, h2⟩ := ih (fun pre st post h => hok pre st (post ++ [op]) (by rw [h]; simp))
    have h2' : (∀ o ∈ ops ++ [op], o ≠ .clear) → docs <+: docs' := fun h => h2 fun o ho => h o (List.mem_append_left _ ho)
    rw [trkRun_snoc]
    have hd := fun st (h : op = .dump st) => hok ops st [] (by rw [h])
    generalize trkRun dumps { name, initStamp := init, file } ops = s at h1 hd
    cases op with
    | track a b n m => exact ⟨docs', h1, h2'⟩
    | setMetadata m => exact ⟨docs', h1, h2'⟩
    | pause b => exact ⟨docs', h1, h2'⟩
    | clear => exact ⟨[], .inl ⟨rfl, rfl⟩, fun h => absurd rfl (h .clear (by simp))⟩
    | dump st =>
      have hd := hd st rfl
      cases hp : s.paused with
      | true => exact ⟨docs', by simp only [trkOp, C62_paused dumps s st hp]; exact h1, h2'⟩
      | false =>
        cases hj : dumps (logDoc s st) with
        | ok d =>
          exact ⟨docs' ++ [d], (C62_dump_appends dumps s st hp docs' h1 d hj).2,
            fun h => (h2' h).trans (List.prefix_append _ _)⟩
        | error e =>
          exfalso
          revert hd
          simp only [dump, hp]
          cases writeHead s.file <;> simp [hj]

example : ∃ docs', IsLog (trkRun toyDumps { name := 0, initStamp := 0 } toyOps).file docs' := by
  refine ⟨_, (C62_file_partial toyDumps 0 0 none [] (.inl ⟨rfl, rfl⟩) toyOps ?_).choose_spec.1⟩
  intro pre st post h
  have hp : pre = toyOps.take pre.length := by rw [h]; simp
  have hlen : pre.length < 7 := by
    have := congrArg List.length h
    simp [toyOps] at this
    omega
  rw [hp]
  generalize pre.length = n at hlen
  match n with
  | 0 | 1 | 2 | 3 | 4 | 5 | 6 => rfl
  | n + 7 => omega

/-- two documents, in fact -/
example : (trkRun toyDumps { name := 0, initStamp := 0 } toyOps).file = some [91, 100, 5, 44, 10, 100, 5, 5, 93] := rfl

end Verif.Props
