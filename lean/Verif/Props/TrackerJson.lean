import Verif.Lemmas.TrackerJson
import Verif.Props.Tracker
import Verif.Props.Json
import Mathlib.Data.List.Forall2
/-! # C102: the log file of a Tracker, read as JSON -/
namespace Verif.Props
open Verif Verif.Model Verif.Spec Verif.Lemmas
variable {F : Type} {FT : Floats F} {lim : Nat}

/-- the file is a log of bytes that are read as the images of the documents -/
def LogOf (FT : Floats F) (lim : Nat) (file : Option (List UInt8)) (docs : List (LogDoc (PyVal F))) : Prop :=
  ∃ bs, IsLog file bs ∧ List.Forall₂ (fun (b : List UInt8) d => ReadsDoc FT lim (b.map UInt8.toNat) (jsonImage FT (docVal d)) ∧
    Ascii (b.map UInt8.toNat)) bs docs

theorem logOf_empty {file : Option (List UInt8)} (h : file = none) : LogOf FT lim file [] := ⟨[], .inl ⟨h, rfl⟩, .nil⟩

theorem ascii_sepText {docs : List Text} (h : ∀ d ∈ docs, Ascii d) : Ascii (sepText docs) := by
  induction docs with
  | nil => exact ascii_nil
  | cons d t ih =>
    have ih := ih fun e he => h e (List.mem_cons_of_mem _ he)
    cases t with
    | nil => exact h d (by simp)
    | cons e t =>
      refine ascii_append (ascii_append (h d (by simp)) ?_) ih
      exact ascii_cons (by omega) (by omega) (ascii_cons (by omega) (by omega) ascii_nil)

theorem readLog_ascii {b : List UInt8} (h : Ascii (b.map UInt8.toNat)) : readLog FT lim b = loads FT lim (b.map UInt8.toNat) := by
  have h1 : (b.map UInt8.toNat).all (· < 128) = true := by
    rw [List.all_eq_true]
    intro x hx
    exact decide_eq_true (h x hx).1
  have h2 : 0 ∉ (b.map UInt8.toNat).take 2 := fun hx => (h 0 (List.mem_of_mem_take hx)).2 rfl
  simp only [readLog, jsonCodec]
  rw [if_pos ⟨h1, h2⟩]

theorem forall₂_texts {bs : List (List UInt8)} {docs : List (LogDoc (PyVal F))}
    (h : List.Forall₂ (fun (b : List UInt8) d => ReadsDoc FT lim (b.map UInt8.toNat) (jsonImage FT (docVal d)) ∧
      Ascii (b.map UInt8.toNat)) bs docs) :
    List.Forall₂ (ReadsDoc FT lim) (bs.map fun b => b.map UInt8.toNat) (docs.map fun d => jsonImage FT (docVal d)) ∧
    ∀ t ∈ bs.map fun b => b.map UInt8.toNat, Ascii t := by
  induction h with
  | nil => exact ⟨.nil, fun t ht => by cases ht⟩
  | cons h1 _ ih =>
    refine ⟨.cons h1.1 ih.1, fun t ht => ?_⟩
    rcases List.mem_cons.1 ht with rfl | ht
    · exact h1.2
    · exact ih.2 t ht

/-- a log is read as the list of the images of its documents -/
theorem logOf_reads {file : Option (List UInt8)} {docs : List (LogDoc (PyVal F))} (h : LogOf FT lim file docs) (hne : docs ≠ []) :
    ∃ bytes, file = some bytes ∧ readLog FT lim bytes = .ok (.list (docs.map fun d => jsonImage FT (docVal d))) := by
  obtain ⟨bs, hl, hf⟩ := h
  rcases hl with ⟨_, rfl⟩ | ⟨hfile, hbs⟩
  · cases hf; exact absurd rfl hne
  · refine ⟨_, hfile, ?_⟩
    obtain ⟨h1, h2⟩ := forall₂_texts hf
    have e : (91 :: commaSep bs ++ [93]).map UInt8.toNat = 91 :: (sepText (bs.map fun b => b.map UInt8.toNat) ++ [93]) := by
      simp [sepText_map]
    rw [readLog_ascii, e, loads_docs h1 (by simpa using hbs)]
    rw [e]
    exact ascii_cons (by omega) (by omega) (ascii_append (ascii_sepText h2) (ascii_cons (by omega) (by omega) ascii_nil))

/-- one Tracker: if no dump raises, the file is a log of its documents after those that were there -/
theorem logOf_run (hF : FloatsOK FT) (name init : PyVal F) (hn : Proper name) (hi : Proper init) (file : Option (List UInt8))
    (docs : List (LogDoc (PyVal F))) (hl : LogOf FT lim file docs) (ops : List (TrkOp (PyVal F))) (hops : ∀ op ∈ ops, OpOf Proper op)
    (hok : ∀ pre st post, ops = pre ++ .dump st :: post →
      (dump (jsonLog FT lim) (trkRun (jsonLog FT lim) { name, initStamp := init, file } pre) st).1 = .ok ()) :
    LogOf FT lim (trkRun (jsonLog FT lim) { name, initStamp := init, file } ops).file
      ((if cleared ops.reverse then [] else docs) ++ dumpedDocs name init ops.reverse) := by
  induction ops using List.reverseRecOn with
  | nil => simpa [trkRun, cleared, dumpedDocs] using hl
  | append_singleton ops op ih =>
    have ih := ih (fun o ho => hops o (List.mem_append_left _ ho)) (fun pre st post h => hok pre st (post ++ [op]) (by rw [h]; simp))
    have hop := hops op (by simp)
    have hd := fun st (h : op = .dump st) => hok ops st [] (by rw [h])
    obtain ⟨a1, a2, a3, a4, a5, a6⟩ := trk_after (jsonLog FT lim) name init file ops
    have hrec := recordsAfter_of (P := Proper) (fun s => by simp only [Proper]; exact textOK_str s) (ops := ops.reverse)
      (fun o ho => hops o (List.mem_append_left _ (List.mem_reverse.1 ho))) (fun n _ => by simp only [Proper])
    rw [trkRun_snoc]
    simp only [List.reverse_append, List.reverse_cons, List.reverse_nil, List.nil_append, List.singleton_append]
    generalize trkRun (jsonLog FT lim) { name, initStamp := init, file } ops = s at *
    cases op with
    | track a b n m => exact ih
    | setMetadata m => exact ih
    | pause b => exact ih
    | clear => exact logOf_empty rfl
    | dump st =>
      have hd := hd st rfl
      simp only [trkOp, cleared, dumpedDocs, ← a4]
      cases hp : s.paused with
      | true =>
        rw [C62_paused (jsonLog FT lim) s st hp]
        rw [if_pos rfl]
        exact ih
      | false =>
        simp only [Bool.false_eq_true, if_false]
        obtain ⟨bs, hb, hf⟩ := ih
        cases hj : jsonLog FT lim ⟨s.name, s.initStamp, st, s.history⟩ with
        | error e =>
          have hj' : jsonLog FT lim (logDoc s st) = .error e := hj
          unfold dump at hd
          simp only [hp, Bool.false_eq_true, if_false, hj'] at hd
          cases hw : writeHead s.file with
          | error e' => rw [hw] at hd; cases hd
          | ok h => rw [hw] at hd; cases hd
        | ok b =>
          refine ⟨bs ++ [b], (C62_dump_appends (jsonLog FT lim) s st hp bs hb b hj).2, ?_⟩
          rw [← List.append_assoc]
          have hdoc : DocOf Proper ⟨s.name, s.initStamp, st, s.history⟩ := ⟨a5 ▸ hn, a6 ▸ hi, hop, a1 ▸ hrec⟩
          have := jsonLog_reads hF hdoc hj
          rw [a1, a5, a6] at this
          exact List.rel_append hf (.cons this .nil)

theorem logOf_sessions (hF : FloatsOK FT) (ss : List (Session (PyVal F))) (hss : ∀ s ∈ ss, SessionOf Proper s) :
    ∀ (file : Option (List UInt8)) (docs : List (LogDoc (PyVal F))), LogOf FT lim file docs → NoneRaises (jsonLog FT lim) ss file →
      LogOf FT lim (sessionsFile (jsonLog FT lim) ss file) (sessionDocs ss docs) := by
  induction ss with
  | nil => intro file docs hl _; exact hl
  | cons s r ih =>
    intro file docs hl hr
    have hs := hss s (by simp)
    exact ih (fun t ht => hss t (List.mem_cons_of_mem _ ht)) _ _
      (logOf_run hF s.1 s.2.1 hs.1 hs.2.1 file docs hl s.2.2 hs.2.2 hr.1) hr.2

theorem logValue_eq (d : LogDoc (PyVal F)) : logValue d = docVal d := rfl

/-- C102, in full: whatever is done with Trackers one after the other, the file, read as JSON, is the list of the documents
dumped since the last clear (there is no file if there are none), each as JSON keeps it -/
def C102_full : Prop :=
  ∀ (F : Type) (FT : Floats F), FloatsOK FT → ∀ (lim : Nat) (ss : List (Session (PyVal F))), (∀ s ∈ ss, SessionOf Proper s) →
    (sessionDocs ss [] = [] ∧ sessionsFile (jsonLog FT lim) ss none = none) ∨
    ∃ bytes, sessionsFile (jsonLog FT lim) ss none = some bytes ∧
      readLog FT lim bytes = .ok (.list ((sessionDocs ss []).map fun d => jsonImage FT (logValue d)))

/-- C102, the part that holds: it is so if no dump raises -/
theorem C102_file_is_json_partial (FT : Floats F) (hF : FloatsOK FT) (lim : Nat) (ss : List (Session (PyVal F)))
    (hss : ∀ s ∈ ss, SessionOf Proper s) (hr : NoneRaises (jsonLog FT lim) ss none) :
    (sessionDocs ss [] = [] ∧ sessionsFile (jsonLog FT lim) ss none = none) ∨
    ∃ bytes, sessionsFile (jsonLog FT lim) ss none = some bytes ∧
      readLog FT lim bytes = .ok (.list ((sessionDocs ss []).map fun d => jsonImage FT (logValue d))) := by
  have h := logOf_sessions (lim := lim) hF ss hss none [] (logOf_empty rfl) hr
  by_cases hne : sessionDocs ss [] = []
  · refine Or.inl ⟨hne, ?_⟩
    obtain ⟨bs, hb, hf⟩ := h
    rw [hne] at hf
    cases hf
    rcases hb with ⟨h, _⟩ | ⟨_, h⟩
    · exact h
    · exact absurd rfl h
  · exact Or.inr (logOf_reads h hne)

/-- no dump raises if all values can be written -/
theorem none_raises_one (hF : FloatsOK FT) (s : Session (PyVal F)) (hs : SessionOf (Writable lim) s) (hlen : Short lim (s.2.2.length : Nat))
    (file : Option (List UInt8)) (docs : List (LogDoc (PyVal F))) (hl : LogOf FT lim file docs) :
    ∀ (n : Nat) (pre : List (TrkOp (PyVal F))) (st : PyVal F) (post : List (TrkOp (PyVal F))), pre.length = n → s.2.2 = pre ++ .dump st :: post →
      (dump (jsonLog FT lim) (trkRun (jsonLog FT lim) { name := s.1, initStamp := s.2.1, file } pre) st).1 = .ok () := by
  obtain ⟨name, init, ops⟩ := s
  simp only at hlen ⊢
  obtain ⟨hn, hi, hops⟩ := hs
  simp only at hn hi hops
  have weak : ∀ op, OpOf (Writable lim) op → OpOf (F := F) Proper op := by
    intro op h
    cases op with
    | track a b n m => exact ⟨h.1.1, h.2.1, fun p hp => (h.2.2 p hp).1⟩
    | setMetadata m => exact ⟨h.1, fun p hp => (h.2 p hp).1⟩
    | dump st => exact h.1
    | pause => trivial
    | clear => trivial
  have weak' : ∀ op, OpOf (Writable lim) op → OpOf (F := F) (JsonAble lim) op := by
    intro op h
    cases op with
    | track a b n m => exact ⟨h.1.2, h.2.1, fun p hp => (h.2.2 p hp).2⟩
    | setMetadata m => exact ⟨h.1, fun p hp => (h.2 p hp).2⟩
    | dump st => exact h.2
    | pause => trivial
    | clear => trivial
  intro n
  induction n using Nat.strongRecOn with
  | _ n ih =>
    intro pre st post hpre he
    have hlog := logOf_run hF name init hn.1 hi.1 file docs hl pre (fun o ho => weak o (hops o (by rw [he]; simp [ho])))
      (fun pre' st' post' h' => ih pre'.length (by rw [← hpre, h']; simp) pre' st' (post' ++ .dump st :: post) rfl (by rw [he, h']; simp))
    obtain ⟨a1, a2, a3, a4, a5, a6⟩ := trk_after (jsonLog FT lim) name init file pre
    have hrec := recordsAfter_of (P := JsonAble lim) (fun s => by simp only [JsonAble]) (ops := pre.reverse)
      (fun o ho => weak' o (hops o (by rw [he]; simp [List.mem_reverse.1 ho]))) (fun n hn => by
        simp only [JsonAble]
        refine short_mono hlen ?_
        rw [he]; simp at hn ⊢; omega)
    generalize trkRun (jsonLog FT lim) { name, initStamp := init, file } pre = s at *
    cases hp : s.paused with
    | true => rw [C62_paused (jsonLog FT lim) s st hp]
    | false =>
      have hst : OpOf (JsonAble lim) (TrkOp.dump st) := weak' _ (hops _ (by rw [he]; simp))
      have hdoc : DocOf (JsonAble lim) ⟨s.name, s.initStamp, st, s.history⟩ := ⟨a5 ▸ hn.2, a6 ▸ hi.2, hst, a1 ▸ hrec⟩
      obtain ⟨b, hb⟩ := (jsonLog_iff (FT := FT) _).2 (able_docVal hdoc)
      obtain ⟨bs, hbs, _⟩ := hlog
      exact (C62_dump_appends (jsonLog FT lim) s st hp bs hbs b hb).1

theorem sessionOf_proper {s : Session (PyVal F)} (h : SessionOf (Writable lim) s) : SessionOf Proper s := by
  refine ⟨h.1.1, h.2.1.1, fun op ho => ?_⟩
  have h := h.2.2 op ho
  cases op with
  | track a b n m => exact ⟨h.1.1, h.2.1, fun p hp => (h.2.2 p hp).1⟩
  | setMetadata m => exact ⟨h.1, fun p hp => (h.2 p hp).1⟩
  | dump st => exact h.1
  | pause => trivial
  | clear => trivial

/-- C102: no dump raises if all that is tracked can be written as JSON, and there are not too many operations to be counted -/
theorem C102_none_raises (FT : Floats F) (hF : FloatsOK FT) (lim : Nat) (ss : List (Session (PyVal F)))
    (hss : ∀ s ∈ ss, SessionOf (Writable lim) s ∧ Short lim (s.2.2.length : Nat)) : NoneRaises (jsonLog FT lim) ss none := by
  have key : ∀ (file : Option (List UInt8)) (docs : List (LogDoc (PyVal F))), LogOf FT lim file docs →
      NoneRaises (jsonLog FT lim) ss file := by
    induction ss with
    | nil => intro file docs _; trivial
    | cons s r ih =>
      intro file docs hl
      have hs := hss s (by simp)
      have hr : ∀ pre st post, s.2.2 = pre ++ .dump st :: post →
          (dump (jsonLog FT lim) (trkRun (jsonLog FT lim) { name := s.1, initStamp := s.2.1, file } pre) st).1 = .ok () :=
        fun pre st post h => none_raises_one hF s hs.1 hs.2 file docs hl pre.length pre st post rfl h
      have hs' := sessionOf_proper hs.1
      exact ⟨hr, ih (fun t ht => hss t (List.mem_cons_of_mem _ ht)) _ _
        (logOf_run hF s.1 s.2.1 hs'.1 hs'.2.1 file docs hl s.2.2 hs'.2.2 hr)⟩
  exact key none [] (logOf_empty rfl)

/-! ## a dump that raises -/

/-- a file that no dump can mend -/
def Spoiled (FT : Floats F) (lim : Nat) (bytes : List UInt8) : Prop :=
  bytes = [91] ∨ (∃ a r, bytes = 44 :: a :: r) ∨
  ∃ (bs : List (List UInt8)) (vs : List (PyVal F)),
    List.Forall₂ (fun (b : List UInt8) v => ReadsDoc FT lim (b.map UInt8.toNat) v) bs vs ∧ bs ≠ [] ∧
    (bytes = 91 :: (commaSep bs ++ [44, 10]) ∨ ∃ a r, bytes = 91 :: (commaSep bs ++ 44 :: 44 :: a :: r))

theorem spoiled_unreadable {bytes : List UInt8} (h : Spoiled FT lim bytes) : readLog FT lim bytes = .error .valueError := by
  have main : loads FT lim (bytes.map UInt8.toNat) = .error .valueError := by
    rcases h with rfl | ⟨a, r, rfl⟩ | ⟨bs, vs, hf, hne, h⟩
    · rfl
    · exact loads_comma _
    · have hf' : List.Forall₂ (ReadsDoc FT lim) (bs.map fun b => b.map UInt8.toNat) vs := by
        clear h hne
        induction hf with
        | nil => exact .nil
        | cons h1 _ ih => exact .cons h1 ih
      have hne' : (bs.map fun b => b.map UInt8.toNat) ≠ [] := by simpa using hne
      rcases h with rfl | ⟨a, r, rfl⟩
      · have := loads_docs_error hf' hne' [10] (fun g => scanElems_nil g)
        rw [← this]
        simp [sepText_map]
      · have := loads_docs_error hf' hne' (44 :: (a :: r).map UInt8.toNat) (fun g => by
          rw [skipWs_cons rfl]; exact scanElems_comma g _)
        rw [← this]
        simp [sepText_map]
  simp only [readLog, jsonCodec]
  split
  · exact main
  · rfl

theorem dropLast_append_of_ne {α : Type} (p q : List α) (h : q ≠ []) : (p ++ q).dropLast = p ++ q.dropLast :=
  List.dropLast_append_of_ne_nil h

/-- a dump onto a spoiled file, whether it raises or not, leaves a spoiled file -/
theorem spoiled_head {bytes : List UInt8} (h : Spoiled FT lim bytes) : ∃ head, writeHead (some bytes) = .ok head ∧
    ∀ x, Spoiled FT lim (head ++ x) := by
  rcases h with rfl | ⟨a, r, rfl⟩ | ⟨bs, vs, hf, hne, h⟩
  · exact ⟨[44, 10], rfl, fun x => Or.inr (Or.inl ⟨10, x, rfl⟩)⟩
  · refine ⟨44 :: ((a :: r).dropLast ++ [44, 10]), by simp [writeHead], fun x => Or.inr (Or.inl ?_)⟩
    cases hd : (a :: r).dropLast with
    | nil => exact ⟨44, 10 :: x, by simp⟩
    | cons b t => exact ⟨b, t ++ [44, 10] ++ x, by simp⟩
  · rcases h with rfl | ⟨a, r, rfl⟩
    · refine ⟨91 :: (commaSep bs ++ [44] ++ [44, 10]), ?_, fun x => Or.inr (Or.inr ⟨bs, vs, hf, hne, Or.inr ⟨10, x, by simp⟩⟩)⟩
      simp only [writeHead]
      rw [← List.cons_append, dropLast_append_of_ne _ _ (by simp)]
      simp
    · refine ⟨91 :: (commaSep bs ++ 44 :: 44 :: (a :: r).dropLast ++ [44, 10]), ?_, fun x => Or.inr (Or.inr ⟨bs, vs, hf, hne, Or.inr ?_⟩)⟩
      · simp only [writeHead]
        rw [← List.cons_append, dropLast_append_of_ne _ _ (by simp)]
        simp
      · cases hd : (a :: r).dropLast with
        | nil => exact ⟨44, 10 :: x, by simp⟩
        | cons b t => exact ⟨b, t ++ [44, 10] ++ x, by simp⟩

theorem spoiled_dump (t : Trk (PyVal F)) (st : PyVal F) {bytes : List UInt8} (hf : t.file = some bytes) (h : Spoiled FT lim bytes) :
    ∃ bytes', (dump (jsonLog FT lim) t st).2.file = some bytes' ∧ Spoiled FT lim bytes' := by
  unfold dump
  by_cases hp : t.paused = true
  · rw [if_pos hp]; exact ⟨bytes, hf, h⟩
  · rw [if_neg hp, hf]
    obtain ⟨head, hh, hx⟩ := spoiled_head h
    rw [hh]
    cases jsonLog FT lim (logDoc t st) with
    | error e => exact ⟨head, rfl, by simpa using hx []⟩
    | ok doc => exact ⟨head ++ doc ++ [93], rfl, by simpa using hx (doc ++ [93])⟩

theorem spoiled_stays (ops : List (TrkOp (PyVal F))) (hc : ∀ op ∈ ops, op ≠ .clear) : ∀ (t : Trk (PyVal F)) (bytes : List UInt8),
    t.file = some bytes → Spoiled FT lim bytes →
    ∃ bytes', (trkRun (jsonLog FT lim) t ops).file = some bytes' ∧ Spoiled FT lim bytes' := by
  induction ops with
  | nil => intro t bytes h1 h2; exact ⟨bytes, h1, h2⟩
  | cons op r ih =>
    intro t bytes h1 h2
    have ih := ih fun o ho => hc o (List.mem_cons_of_mem _ ho)
    cases op with
    | track a b n m => exact ih (track t a b n m) bytes h1 h2
    | setMetadata m => exact ih (setMetadata t m) bytes h1 h2
    | pause b => exact ih { t with paused := b } bytes h1 h2
    | dump st =>
      obtain ⟨bytes', h3, h4⟩ := spoiled_dump t st h1 h2
      exact ih (dump (jsonLog FT lim) t st).2 bytes' h3 h4
    | clear => exact absurd rfl (hc _ (by simp))

theorem spoiled_sessions (ss : List (Session (PyVal F))) (hc : ∀ s ∈ ss, ∀ op ∈ s.2.2, op ≠ .clear) : ∀ bytes, Spoiled FT lim bytes →
    ∃ bytes', sessionsFile (jsonLog FT lim) ss (some bytes) = some bytes' ∧ Spoiled FT lim bytes' := by
  induction ss with
  | nil => intro bytes h; exact ⟨bytes, rfl, h⟩
  | cons s r ih =>
    intro bytes h
    obtain ⟨b', h1, h2⟩ := spoiled_stays s.2.2 (hc s (by simp)) { name := s.1, initStamp := s.2.1, file := some bytes } bytes rfl h
    obtain ⟨b'', h3, h4⟩ := ih (fun t ht => hc t (List.mem_cons_of_mem _ ht)) b' h2
    exact ⟨b'', by simp only [sessionsFile, h1, h3], h4⟩

theorem raising_dump {t : Trk (PyVal F)} {docs : List (LogDoc (PyVal F))} (hl : LogOf FT lim t.file docs) (st : PyVal F) {e : PyErr}
    (h : (dump (jsonLog FT lim) t st).1 = .error e) :
    ∃ bytes, (dump (jsonLog FT lim) t st).2.file = some bytes ∧ Spoiled FT lim bytes := by
  unfold dump at h ⊢
  by_cases hp : t.paused = true
  · rw [if_pos hp] at h; cases h
  · rw [if_neg hp] at h ⊢
    obtain ⟨bs, hb, hf⟩ := hl
    have head : ∃ hd, writeHead t.file = .ok hd ∧ Spoiled FT lim hd := by
      rcases hb with ⟨h1, _⟩ | ⟨h1, h2⟩
      · rw [h1]; exact ⟨[91], rfl, Or.inl rfl⟩
      · rw [h1]
        refine ⟨91 :: (commaSep bs ++ [44, 10]), ?_, Or.inr (Or.inr ⟨bs, docs.map fun d => jsonImage FT (docVal d), ?_, h2, Or.inl rfl⟩)⟩
        · simp only [List.cons_append, writeHead]
          rw [← List.cons_append, dropLast_append_of_ne _ _ (by simp)]
          simp
        · clear h1 h2
          induction hf with
          | nil => exact .nil
          | cons h1 _ ih => exact .cons h1.1 ih
    obtain ⟨hd, hw, hs⟩ := head
    rw [hw] at h ⊢
    cases hj : jsonLog FT lim (logDoc t st) with
    | error e' => exact ⟨hd, rfl, hs⟩
    | ok doc => rw [hj] at h; cases h

/-- C102: one dump that raises spoils the file for good: whatever is tracked and dumped afterwards, by this Tracker (`post`) or
later ones (`later`), `json.loads` raises ValueError until somebody clears -/
theorem C102_spoiled_for_good (FT : Floats F) (hF : FloatsOK FT) (lim : Nat) (ss : List (Session (PyVal F)))
    (hss : ∀ s ∈ ss, SessionOf Proper s) (hr : NoneRaises (jsonLog FT lim) ss none) (name init : PyVal F)
    (pre : List (TrkOp (PyVal F))) (hpre : SessionOf Proper (name, init, pre))
    (hok : NoneRaises (jsonLog FT lim) [(name, init, pre)] (sessionsFile (jsonLog FT lim) ss none)) (st : PyVal F) (e : PyErr)
    (hraise : (dump (jsonLog FT lim) (trkRun (jsonLog FT lim)
      { name, initStamp := init, file := sessionsFile (jsonLog FT lim) ss none } pre) st).1 = .error e)
    (post : List (TrkOp (PyVal F))) (hpost : ∀ op ∈ post, op ≠ .clear) (later : List (Session (PyVal F)))
    (hlater : ∀ s ∈ later, ∀ op ∈ s.2.2, op ≠ .clear) :
    ∃ bytes, sessionsFile (jsonLog FT lim) (ss ++ (name, init, pre ++ .dump st :: post) :: later) none = some bytes ∧
      readLog FT lim bytes = .error .valueError := by
  have h1 := logOf_sessions (lim := lim) hF ss hss none [] (logOf_empty rfl) hr
  have e1 : ∀ (l r : List (Session (PyVal F))) (f), sessionsFile (jsonLog FT lim) (l ++ r) f =
      sessionsFile (jsonLog FT lim) r (sessionsFile (jsonLog FT lim) l f) := by
    intro l r
    induction l with
    | nil => intro f; rfl
    | cons s l ih => intro f; exact ih _
  rw [e1]
  generalize sessionsFile (jsonLog FT lim) ss none = file at *
  have h2 := logOf_run hF name init hpre.1 hpre.2.1 file _ h1 pre hpre.2.2 hok.1
  obtain ⟨b1, h3, h4⟩ := raising_dump h2 st hraise
  have e2 : trkRun (jsonLog FT lim) { name, initStamp := init, file } (pre ++ .dump st :: post) =
      trkRun (jsonLog FT lim) (dump (jsonLog FT lim) (trkRun (jsonLog FT lim) { name, initStamp := init, file } pre) st).2 post := by
    simp [trkRun, trkOp]
  obtain ⟨b2, h5, h6⟩ := spoiled_stays post hpost _ b1 h3 h4
  obtain ⟨b3, h7, h8⟩ := spoiled_sessions later hlater b2 h6
  refine ⟨b3, ?_, spoiled_unreadable h8⟩
  simp only [sessionsFile, e2, h5, h7]

/-- C102: documents of values that JSON keeps are read as they were -/
theorem C102_same (FT : Floats F) (d : LogDoc (PyVal F)) (hp : DocOf Proper d) (h : DocOf JsonStable d) :
    jsonImage FT (logValue d) = logValue d := by
  rw [logValue_eq]
  refine image_of_stable _ (proper_docVal hp) ?_
  obtain ⟨h1, h2, h3, h4⟩ := h
  have np : ∀ s : Str, NoPair (codes s) := by
    intro s
    induction s with
    | nil => trivial
    | cons a s ih =>
      refine noPair_cons ?_ ih
      intro b r _ hh
      have hv := a.valid
      simp only [UInt32.isValidChar, Nat.isValidChar] at hv
      have e : a.toNat = a.val.toNat := rfl
      have hh := hh.1
      unfold high at hh
      rw [e] at hh
      omega
  have hitems : ∀ r : LogRec (PyVal F), (∀ p ∈ r, JsonStable p.2) → JsonStableItems (r.map fun p => ((.str (codes p.1) : PyVal F), p.2)) := by
    intro r hr
    induction r with
    | nil => simp [JsonStableItems]
    | cons p r ih =>
      simp only [List.map_cons, JsonStableItems]
      exact ⟨np _, hr p (by simp), ih fun q hq => hr q (List.mem_cons_of_mem _ hq)⟩
  have hlist : ∀ l : List (LogRec (PyVal F)), (∀ r ∈ l, RecOf JsonStable r) → JsonStables (l.map recVal) := by
    intro l hl
    induction l with
    | nil => simp [JsonStables]
    | cons r l ih =>
      simp only [List.map_cons, JsonStables]
      refine ⟨?_, ih fun q hq => hl q (List.mem_cons_of_mem _ hq)⟩
      simp only [recVal, JsonStable]
      exact hitems r (hl r (by simp)).2
  simp only [docVal, JsonStable, JsonStableItems]
  exact ⟨np _, h1, np _, h2, np _, h3, np _, hlist _ h4, trivial⟩

/-! ## examples -/

def txt (s : String) : PyVal Int := .str (codes s.toList)

/-- a Tracker without metadata, cleared and used again; then another one, paused for a while -/
def goodSessions : List (Session (PyVal Int)) :=
  [(txt "t", txt "08:00", [.track "f".toList "main".toList 7 [], .dump (txt "08:01"), .clear,
     .setMetadata [("who".toList, .tuple [.int 1, .none])], .track "g".toList "main".toList 9 [("x".toList, .float (.fin 3))], .dump (txt "08:02")]),
   (txt "t", txt "09:00", [.pause true, .dump (txt "09:01"), .pause false, .dump (txt "09:02")])]

theorem writable_txt (s : String) : Writable 4300 (txt s) :=
  ⟨by simp only [txt, Proper]; exact textOK_str _, by simp only [txt, JsonAble]⟩

theorem goodSessions_ok : ∀ s ∈ goodSessions, SessionOf (Writable 4300) s ∧ Short 4300 (s.2.2.length : Nat) := by
  have hn : ∀ n : Nat, n < 10 → Writable (F := Int) 4300 (.int (n : Nat)) := by
    intro n h
    refine ⟨by simp only [Proper], ?_⟩
    simp only [JsonAble]
    refine short_mono (n := 9) (Or.inr (by decide)) (by omega)
  have hrec : ∀ (k : String) (v : PyVal Int), Writable 4300 v → RecOf (Writable 4300) [(k.toList, v)] := by
    intro k v h
    refine ⟨by simp [Dict.WF, Dict.keys], fun p hp => ?_⟩
    rw [List.mem_singleton.1 hp]
    exact h
  have hnil : RecOf (F := Int) (Writable 4300) [] := ⟨Dict.wf_nil, fun p hp => by cases hp⟩
  have h7 := hn 7 (by omega)
  have h9 := hn 9 (by omega)
  have htup : Writable 4300 (.tuple [.int 1, .none] : PyVal Int) := by
    refine ⟨by simp [Proper, Propers], ?_⟩
    simp only [JsonAble, JsonAbles]
    exact ⟨(hn 1 (by omega)).2, trivial, trivial⟩
  have hfl : Writable 4300 (.float (.fin 3) : PyVal Int) := ⟨by simp only [Proper], by simp only [JsonAble]⟩
  intro s hs
  simp only [goodSessions, List.mem_cons, List.not_mem_nil, or_false] at hs
  rcases hs with rfl | rfl
  · refine ⟨⟨writable_txt _, writable_txt _, ?_⟩, Or.inr (by decide)⟩
    intro op ho
    simp only [List.mem_cons, List.not_mem_nil, or_false] at ho
    rcases ho with rfl | rfl | rfl | rfl | rfl | rfl
    · exact ⟨h7, hnil⟩
    · exact writable_txt _
    · trivial
    · exact hrec _ _ htup
    · exact ⟨h9, hrec _ _ hfl⟩
    · exact writable_txt _
  · refine ⟨⟨writable_txt _, writable_txt _, ?_⟩, Or.inr (by decide)⟩
    intro op ho
    simp only [List.mem_cons, List.not_mem_nil, or_false] at ho
    rcases ho with rfl | rfl | rfl | rfl
    · trivial
    · exact writable_txt _
    · trivial
    · exact writable_txt _

/-- the documents there should be: one of each Tracker; the metadata precede what is given to `track` -/
def goodRec : LogRec (PyVal Int) :=
  [("target".toList, txt "g"), ("caller".toList, txt "main"), ("lineno".toList, .int 9), ("trackcount".toList, .int 1),
    ("who".toList, .tuple [.int 1, .none]), ("x".toList, .float (.fin 3))]

example : sessionDocs goodSessions [] = [⟨txt "t", txt "08:00", txt "08:02", [goodRec]⟩, ⟨txt "t", txt "09:00", txt "09:02", []⟩] := rfl

example : ∃ bytes, sessionsFile (jsonLog wholeFloats 4300) goodSessions none = some bytes ∧
    readLog wholeFloats 4300 bytes = .ok (.list ((sessionDocs goodSessions []).map fun d => jsonImage wholeFloats (logValue d))) := by
  rcases C102_file_is_json_partial wholeFloats wholeFloats_ok 4300 goodSessions (fun s hs => sessionOf_proper (goodSessions_ok s hs).1)
    (C102_none_raises wholeFloats wholeFloats_ok 4300 goodSessions goodSessions_ok) with ⟨h, _⟩ | h
  · cases h
  · exact h

/-- a set is tracked and dumped; then the Tracker goes on with nothing wrong -/
def badPre : List (TrkOp (PyVal Int)) := [.track "f".toList "main".toList 7 [("x".toList, .set [.int 1])]]

theorem badPre_proper : SessionOf Proper (txt "t", txt "08:00", badPre) := by
  refine ⟨(writable_txt _).1, (writable_txt _).1, fun op ho => ?_⟩
  rw [List.mem_singleton.1 ho]
  refine ⟨by simp only [Proper], by simp [Dict.WF, Dict.keys], fun p hp => ?_⟩
  rw [List.mem_singleton.1 hp]
  simp [Proper, Propers]

theorem badPre_spoils (post : List (TrkOp (PyVal Int))) (hpost : ∀ op ∈ post, op ≠ .clear) :
    ∃ bytes, sessionsFile (jsonLog wholeFloats 4300) [(txt "t", txt "08:00", badPre ++ .dump (txt "08:01") :: post)] none = some bytes ∧
      readLog wholeFloats 4300 bytes = .error .valueError :=
  C102_spoiled_for_good wholeFloats wholeFloats_ok 4300 [] (by simp) trivial (txt "t") (txt "08:00") badPre badPre_proper
    ⟨by
      intro pre st post h
      have : badPre = [.track "f".toList "main".toList 7 [("x".toList, .set [.int 1])]] := rfl
      simp only [this] at h
      cases pre with
      | nil => simp at h
      | cons a pre => simp at h, trivial⟩
    (txt "08:01") .typeError rfl post hpost [] (by simp)

example : ∃ bytes, sessionsFile (jsonLog wholeFloats 4300)
      [(txt "t", txt "08:00", badPre ++ .dump (txt "08:01") :: [.track "g".toList "main".toList 8 [], .dump (txt "08:02"), .dump (txt "08:03")])]
      none = some bytes ∧ readLog wholeFloats 4300 bytes = .error .valueError :=
  badPre_spoils _ (by simp)

/-- C102: the file is not always JSON -/
theorem C102_full_false : ¬ C102_full := by
  intro h
  have hp : ∀ s ∈ [((txt "t", txt "08:00", badPre ++ .dump (txt "08:01") :: []) : Session (PyVal Int))], SessionOf Proper s := by
    intro s hs
    rw [List.mem_singleton.1 hs]
    refine ⟨badPre_proper.1, badPre_proper.2.1, fun op ho => ?_⟩
    rcases List.mem_append.1 ho with ho | ho
    · exact badPre_proper.2.2 op ho
    · rw [List.mem_singleton.1 ho]; exact (writable_txt _).1
  obtain ⟨b, h1, h2⟩ := badPre_spoils [] (by simp)
  rcases h Int wholeFloats wholeFloats_ok 4300 _ hp with ⟨h3, h4⟩ | ⟨b', h3, h4⟩
  · rw [h1] at h4; cases h4
  · rw [h1] at h3
    injection h3 with h3
    subst h3
    rw [h2] at h4
    cases h4

end Verif.Props
