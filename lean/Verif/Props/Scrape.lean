import Verif.Model.Scrape
import Verif.Spec.Scrape
import Verif.Py.Tactics
import Mathlib.Data.List.Induction
import Mathlib.Data.List.Forall2
/-! # C63–C65: scrape.py -/
namespace Verif.Props
open Verif Verif.Model Verif.Spec

theorem findEnd_none {needle l : Bytes} (h : findEnd needle l = none) : Nowhere needle l := by
  induction l with
  | nil =>
    intro b a hl
    simp only [findEnd] at h
    split at h
    · cases h
    · rename_i hn
      have := congrArg List.length hl
      simp only [List.length_nil, List.length_append] at this
      exact hn (List.length_eq_zero_iff.1 (by omega))
  | cons x t ih =>
    intro b a hl
    simp only [findEnd] at h
    split at h
    · cases h
    · rename_i hn
      have h' : findEnd needle t = none := by simpa using h
      cases b with
      | nil =>
        apply hn
        rw [hl]
        exact List.isPrefixOf_iff_prefix.2 ⟨a, by simp⟩
      | cons y b =>
        simp only [List.cons_append, List.cons.injEq] at hl
        exact ih h' b a hl.2

theorem findEnd_some {needle l : Bytes} {n : Nat} (h : findEnd needle l = some n) :
    ∃ before, FirstAt needle before l ∧ l.take n = before ++ needle := by
  induction l generalizing n with
  | nil =>
    simp only [findEnd] at h
    split at h
    · rename_i hn
      subst hn
      exact ⟨[], ⟨⟨[], rfl⟩, fun _ _ _ => Nat.zero_le _⟩, by simp⟩
    · cases h
  | cons x t ih =>
    simp only [findEnd] at h
    split at h
    · rename_i hp
      cases h
      obtain ⟨a, ha⟩ := List.isPrefixOf_iff_prefix.1 hp
      refine ⟨[], ⟨⟨a, by rw [List.nil_append, ha]⟩, fun _ _ _ => Nat.zero_le _⟩, ?_⟩
      rw [← ha, List.take_left, List.nil_append]
    · rename_i hn
      obtain ⟨m, hm, rfl⟩ := Option.map_eq_some_iff.1 h
      obtain ⟨b, ⟨⟨a, ha⟩, hmin⟩, ht⟩ := ih hm
      refine ⟨x :: b, ⟨⟨a, by rw [ha]; rfl⟩, ?_⟩, by rw [List.take_succ_cons, ht]; rfl⟩
      intro b' a' hl
      cases b' with
      | nil => exact absurd (List.isPrefixOf_iff_prefix.2 ⟨a', by rw [hl]; simp⟩) hn
      | cons y b' =>
        simp only [List.cons_append, List.cons.injEq] at hl
        exact Nat.succ_le_succ (hmin b' a' hl.2)

theorem firstAt_unique {needle b b' l : Bytes} (h : FirstAt needle b l) (h' : FirstAt needle b' l) : b = b' := by
  obtain ⟨⟨a, ha⟩, hm⟩ := h
  obtain ⟨⟨a', ha'⟩, hm'⟩ := h'
  have hl : b.length = b'.length := Nat.le_antisymm (hm _ _ ha') (hm' _ _ ha)
  have := ha.symm.trans ha'
  rw [List.append_assoc, List.append_assoc] at this
  exact (List.append_inj this hl).1

theorem findEnd_of_first {needle b l : Bytes} (h : FirstAt needle b l) : ∃ n, findEnd needle l = some n ∧ l.take n = b ++ needle := by
  cases hf : findEnd needle l with
  | none =>
    obtain ⟨⟨a, ha⟩, _⟩ := h
    exact absurd ha (findEnd_none hf b a)
  | some n =>
    obtain ⟨b', h', ht⟩ := findEnd_some hf
    rw [firstAt_unique h h']
    exact ⟨n, rfl, ht⟩

theorem findEnd_of_nowhere {needle l : Bytes} (h : Nowhere needle l) : findEnd needle l = none := by
  cases hf : findEnd needle l with
  | none => rfl
  | some n =>
    obtain ⟨b, ⟨⟨a, ha⟩, _⟩, _⟩ := findEnd_some hf
    exact absurd ha (h b a)

/-- C63: with `head` the first `max_size` bytes of the file (all for a negative size): if `END\r\n` is in the head, the text
up to the end of its first occurrence, even if NULs come earlier; else, if three NULs are there, up to the end of the
first three; else the whole head, or `ValueError`. -/
theorem C63_trim_label (decode : Bytes → Except PyErr Str) (content : Bytes) (maxSize : Int) (raiseForFailure : Bool) (head : Bytes)
    (hh : head = if maxSize < 0 then content else content.take maxSize.toNat) :
    (∀ before, FirstAt [69, 78, 68, 13, 10] before head →
      trimLabel decode content maxSize raiseForFailure = decode (before ++ [69, 78, 68, 13, 10])) ∧
    (Nowhere [69, 78, 68, 13, 10] head → ∀ before, FirstAt [0, 0, 0] before head →
      trimLabel decode content maxSize raiseForFailure = decode (before ++ [0, 0, 0])) ∧
    (Nowhere [69, 78, 68, 13, 10] head → Nowhere [0, 0, 0] head →
      trimLabel decode content maxSize raiseForFailure = if raiseForFailure then .error .valueError else decode head) := by
  have hr : readBytes content maxSize = head := hh.symm
  refine ⟨fun b h => ?_, fun hn b h => ?_, fun hn hn' => ?_⟩
  · obtain ⟨n, h1, h2⟩ := findEnd_of_first h
    simp only [trimLabel, hr, trimAt, endPVL, h1, h2]
  · obtain ⟨n, h1, h2⟩ := findEnd_of_first h
    simp only [trimLabel, hr, trimAt, endPVL, endNul, findEnd_of_nowhere hn, h1, h2]
  · simp only [trimLabel, hr, trimAt, endPVL, endNul, findEnd_of_nowhere hn, findEnd_of_nowhere hn']

/-- C63: an ending is nowhere or first somewhere, so the three cases of `C63_trim_label` are all -/
theorem C63_cases (needle l : Bytes) : Nowhere needle l ∨ ∃ before, FirstAt needle before l := by
  cases hf : findEnd needle l with
  | none => exact .inl (findEnd_none hf)
  | some n => exact .inr (let ⟨b, h, _⟩ := findEnd_some hf; ⟨b, h⟩)

/-- "A\0\0\0END\r\nB", trimmed at `END`; cut to 6 bytes, at the NULs; cut to 3 bytes, not at all -/
def toyLabel : Bytes := [65, 0, 0, 0, 69, 78, 68, 13, 10, 66]

def toyDecode : Bytes → Except PyErr Str := fun b => .ok (b.map Char.ofNat)

example : trimLabel toyDecode toyLabel (-1) false = toyDecode [65, 0, 0, 0, 69, 78, 68, 13, 10] := by
  refine (C63_trim_label toyDecode toyLabel (-1) false toyLabel rfl).1 [65, 0, 0, 0] ?_
  have h : findEnd [69, 78, 68, 13, 10] toyLabel = some 9 := by decide
  obtain ⟨b, h1, h2⟩ := findEnd_some h
  have : b = [65, 0, 0, 0] := by
    have h3 : toyLabel.take 9 = [65, 0, 0, 0] ++ [69, 78, 68, 13, 10] := rfl
    rw [h3] at h2
    exact (List.append_cancel_right h2).symm
  rw [← this]; exact h1

example : trimLabel toyDecode toyLabel 6 true = toyDecode [65, 0, 0, 0] ∧ trimLabel toyDecode toyLabel 3 true = .error .valueError :=
  ⟨rfl, rfl⟩

/-! ## C64 -/

section
variable {Label Pat V : Type} [DecidableEq Label] [DecidableEq Pat]

theorem cached_some {K R : Type} [DecidableEq K] {c : Dict K R} {k : K} {r : R} (h : c.get? k = some r) (f : Except PyErr R) :
    cached c k f = (.ok r, c) := by simp [cached, h]

theorem cached_keeps {K R : Type} [DecidableEq K] {c : Dict K R} {k k' : K} {r : R} (f : Except PyErr R) (h : c.get? k' = some r) :
    (cached c k f).2.get? k' = some r := by
  unfold cached
  cases hk : c.get? k with
  | some x => exact h
  | none =>
    cases f with
    | error e => exact h
    | ok v =>
      simp only [Dict.get?_set]
      rw [if_neg (by rintro rfl; rw [hk] at h; cases h)]
      exact h

theorem cached_ok {K R : Type} [DecidableEq K] {c : Dict K R} {k : K} {r : R} {f : Except PyErr R} (h : (cached c k f).1 = .ok r) :
    (cached c k f).2.get? k = some r := by
  unfold cached at h ⊢
  cases hk : c.get? k with
  | some x => rw [hk] at h; simp only [Except.ok.injEq] at h; rw [← h]; exact hk
  | none =>
    rw [hk] at h
    cases f with
    | error e => cases h
    | ok v =>
      simp only [Except.ok.injEq] at h
      simp [Dict.get?_set, h]

/-- caches only grow -/
structure Grows (s s' : Scr Label Pat V) : Prop where
  loader : ∀ k r, s.loader.get? k = some r → s'.loader.get? k = some r
  trimmer : ∀ k r, s.trimmer.get? k = some r → s'.trimmer.get? k = some r
  scraped : ∀ k r, s.scraped.get? k = some r → s'.scraped.get? k = some r

theorem Grows.refl (s : Scr Label Pat V) : Grows s s := ⟨fun _ _ h => h, fun _ _ h => h, fun _ _ h => h⟩

theorem Grows.trans {a b c : Scr Label Pat V} (h : Grows a b) (h' : Grows b c) : Grows a c :=
  ⟨fun k r x => h'.loader k r (h.loader k r x), fun k r x => h'.trimmer k r (h.trimmer k r x),
    fun k r x => h'.scraped k r (h.scraped k r x)⟩

theorem loadLabel_grows (env : ScrEnv Pat V) (k : Label × Option Int) (s : Scr Label Pat V) : Grows s (loadLabel env k s).2 :=
  ⟨fun _ _ h => cached_keeps _ h, fun _ _ h => h, fun _ _ h => h⟩

theorem trimCached_grows (env : ScrEnv Pat V) (k : Label × Option Int × Option Bool) (s : Scr Label Pat V) :
    Grows s (trimCached env k s).2 :=
  ⟨fun _ _ h => h, fun _ _ h => cached_keeps _ h, fun _ _ h => h⟩

theorem scrapeFromFile_grows (env : ScrEnv Pat V) (l : Label) (p : Pat) (s : Scr Label Pat V) :
    Grows s (scrapeFromFile env l p s).2 := by
  unfold scrapeFromFile
  cases hc : s.scraped.get? (l, p) with
  | some v => exact Grows.refl s
  | none =>
    have hl := loadLabel_grows env (l, none) s
    have hs : (loadLabel env (l, none) s).2.scraped = s.scraped := rfl
    simp only
    rcases hd : loadLabel env (l, none) s with ⟨r, s1⟩
    rw [hd] at hl hs
    cases r with
    | error e => exact hl
    | ok text =>
      simp only
      cases scrape env.re text p with
      | error e => exact hl
      | ok v =>
        refine ⟨hl.loader, hl.trimmer, fun k r h => ?_⟩
        have h1 := hl.scraped k r h
        simp only [Dict.get?_set]
        rw [if_neg]
        · exact h1
        · rintro rfl
          rw [hc] at h; cases h

theorem scrRun_grows (env : ScrEnv Pat V) (ops : List (ScrOp Label Pat)) (s : Scr Label Pat V) : Grows s (scrRun env s ops) := by
  induction ops generalizing s with
  | nil => exact Grows.refl s
  | cons op t ih =>
    refine Grows.trans ?_ (ih (scrOp env s op))
    cases op with
    | load k => exact loadLabel_grows env k s
    | trim k => exact trimCached_grows env k s
    | scrape l p => exact scrapeFromFile_grows env l p s
    | modify l c => exact ⟨fun _ _ h => h, fun _ _ h => h, fun _ _ h => h⟩

/-- C64: once a call of a cached function has returned, every later call with the same arguments returns the same, whatever
has happened to the files and whatever else has been called -/
theorem C64_stable (env : ScrEnv Pat V) (s : Scr Label Pat V) (ops : List (ScrOp Label Pat)) :
    (∀ k r, (loadLabel env k s).1 = .ok r → (loadLabel env k (scrRun env (loadLabel env k s).2 ops)).1 = .ok r) ∧
    (∀ k r, (trimCached env k s).1 = .ok r → (trimCached env k (scrRun env (trimCached env k s).2 ops)).1 = .ok r) ∧
    (∀ l p v, (scrapeFromFile env l p s).1 = .ok v →
      (scrapeFromFile env l p (scrRun env (scrapeFromFile env l p s).2 ops)).1 = .ok v) := by
  refine ⟨fun k r h => ?_, fun k r h => ?_, fun l p v h => ?_⟩
  · have h1 := (scrRun_grows env ops (loadLabel env k s).2).loader k r (cached_ok h)
    exact congrArg Prod.fst (cached_some h1 _)
  · have h1 := (scrRun_grows env ops (trimCached env k s).2).trimmer k r (cached_ok h)
    exact congrArg Prod.fst (cached_some h1 _)
  · have hs : (scrapeFromFile env l p s).2.scraped.get? (l, p) = some v := by
      unfold scrapeFromFile at h ⊢
      cases hc : s.scraped.get? (l, p) with
      | some x => rw [hc] at h; simp only [Except.ok.injEq] at h; rw [← h]; exact hc
      | none =>
        rw [hc] at h
        simp only at h ⊢
        rcases hd : loadLabel env (l, none) s with ⟨r, s1⟩
        rw [hd] at h
        cases r with
        | error e => cases h
        | ok text =>
          simp only at h ⊢
          cases hsc : scrape env.re text p with
          | error e => rw [hsc] at h; cases h
          | ok x =>
            rw [hsc] at h
            simp only [Except.ok.injEq] at h
            simp [Dict.get?_set, h]
    have h1 := (scrRun_grows env ops _).scraped _ _ hs
    rw [scrapeFromFile, h1]

/-- C64: what is scraped from a file comes from the text of the label as first loaded -/
theorem C64_scrape_uses_loaded (env : ScrEnv Pat V) (s : Scr Label Pat V) (ops : List (ScrOp Label Pat)) (l : Label) (text : Str)
    (h : (loadLabel env (l, none) s).1 = .ok text) (p : Pat)
    (hn : (scrRun env (loadLabel env (l, none) s).2 ops).scraped.get? (l, p) = none) :
    (scrapeFromFile env l p (scrRun env (loadLabel env (l, none) s).2 ops)).1 = scrape env.re text p := by
  have h1 := (C64_stable env s ops).1 _ _ h
  rw [scrapeFromFile, hn]
  simp only
  rcases hd : loadLabel env (l, none) (scrRun env (loadLabel env (l, none) s).2 ops) with ⟨r, s1⟩
  rw [hd] at h1
  simp only at h1
  subst h1
  simp only
  cases scrape env.re text p <;> rfl

/-- readings so far: each key at most once, and then it is in its cache -/
private structure ReadInv (s : Scr Label Pat V) : Prop where
  nodup : s.reads.Nodup
  load : ∀ k, Sum.inl k ∈ s.reads → (s.loader.get? k).isSome = true
  trim : ∀ k, Sum.inr k ∈ s.reads → (s.trimmer.get? k).isSome = true

omit [DecidableEq Label] in
private theorem noteRead_cases {R : Type} (had : Bool) (r : Except PyErr R) (k) (l : List ((Label × Option Int) ⊕ (Label × Option Int × Option Bool))) :
    noteRead had r k l = l ∨ (had = false ∧ (∃ v, r = .ok v) ∧ noteRead had r k l = l ++ [k]) := by
  cases had with
  | true => exact .inl rfl
  | false =>
    cases r with
    | error e => exact .inl rfl
    | ok v => exact .inr ⟨rfl, ⟨v, rfl⟩, rfl⟩

private theorem loadLabel_inv (env : ScrEnv Pat V) (k : Label × Option Int) {s : Scr Label Pat V} (h : ReadInv s) :
    ReadInv (loadLabel env k s).2 := by
  have hg := loadLabel_grows env k s
  have hl : ∀ k', Sum.inl k' ∈ s.reads → ((loadLabel env k s).2.loader.get? k').isSome = true := fun k' hk' => by
    obtain ⟨r, hr⟩ := Option.isSome_iff_exists.1 (h.load k' hk')
    rw [hg.loader k' r hr]; rfl
  rcases noteRead_cases (s.loader.get? k).isSome (cached s.loader k (loadText env s k)).1 (.inl k) s.reads with he | ⟨h1, ⟨v, hv⟩, he⟩
  · refine ⟨?_, ?_, ?_⟩
    · simp only [loadLabel, he]; exact h.nodup
    · intro k' hk'
      simp only [loadLabel, he] at hk'
      exact hl k' hk'
    · intro k' hk'
      simp only [loadLabel, he] at hk'
      exact h.trim k' hk'
  · refine ⟨?_, ?_, ?_⟩
    · simp only [loadLabel, he]
      refine List.nodup_append.2 ⟨h.nodup, by simp, ?_⟩
      intro a ha b hb
      simp only [List.mem_singleton] at hb
      subst hb
      rintro rfl
      rw [h.load k ha] at h1; cases h1
    · intro k' hk'
      simp only [loadLabel, he] at hk'
      rcases List.mem_append.1 hk' with hk' | hk'
      · exact hl k' hk'
      · simp only [List.mem_singleton, Sum.inl.injEq] at hk'
        subst hk'
        have := cached_ok hv
        simp only [loadLabel, this]; rfl
    · intro k' hk'
      simp only [loadLabel, he] at hk'
      rcases List.mem_append.1 hk' with hk' | hk'
      · exact h.trim k' hk'
      · simp at hk'

private theorem trimCached_inv (env : ScrEnv Pat V) (k : Label × Option Int × Option Bool) {s : Scr Label Pat V} (h : ReadInv s) :
    ReadInv (trimCached env k s).2 := by
  have hg := trimCached_grows env k s
  have hl : ∀ k', Sum.inr k' ∈ s.reads → ((trimCached env k s).2.trimmer.get? k').isSome = true := fun k' hk' => by
    obtain ⟨r, hr⟩ := Option.isSome_iff_exists.1 (h.trim k' hk')
    rw [hg.trimmer k' r hr]; rfl
  rcases noteRead_cases (s.trimmer.get? k).isSome (cached s.trimmer k (trimText env s k)).1 (.inr k) s.reads with he | ⟨h1, ⟨v, hv⟩, he⟩
  · refine ⟨?_, ?_, ?_⟩
    · simp only [trimCached, he]; exact h.nodup
    · intro k' hk'
      simp only [trimCached, he] at hk'
      exact h.load k' hk'
    · intro k' hk'
      simp only [trimCached, he] at hk'
      exact hl k' hk'
  · refine ⟨?_, ?_, ?_⟩
    · simp only [trimCached, he]
      refine List.nodup_append.2 ⟨h.nodup, by simp, ?_⟩
      intro a ha b hb
      simp only [List.mem_singleton] at hb
      subst hb
      rintro rfl
      rw [h.trim k ha] at h1; cases h1
    · intro k' hk'
      simp only [trimCached, he] at hk'
      rcases List.mem_append.1 hk' with hk' | hk'
      · exact h.load k' hk'
      · simp at hk'
    · intro k' hk'
      simp only [trimCached, he] at hk'
      rcases List.mem_append.1 hk' with hk' | hk'
      · exact hl k' hk'
      · simp only [List.mem_singleton, Sum.inr.injEq] at hk'
        subst hk'
        have := cached_ok hv
        simp only [trimCached, this]; rfl

private theorem scrapeFromFile_inv (env : ScrEnv Pat V) (l : Label) (p : Pat) {s : Scr Label Pat V} (h : ReadInv s) :
    ReadInv (scrapeFromFile env l p s).2 := by
  unfold scrapeFromFile
  cases s.scraped.get? (l, p) with
  | some v => exact h
  | none =>
    have hl := loadLabel_inv env (l, none) h
    simp only
    rcases hd : loadLabel env (l, none) s with ⟨r, s1⟩
    rw [hd] at hl
    cases r with
    | error e => exact hl
    | ok text =>
      simp only
      cases scrape env.re text p with
      | error e => exact hl
      | ok v => exact ⟨hl.nodup, hl.load, hl.trim⟩

/-- C64: whatever happens, each cached function reads each label at most once without an exception (per set of arguments) -/
theorem C64_read_once (env : ScrEnv Pat V) (files : Label → Except PyErr Bytes) (ops : List (ScrOp Label Pat)) :
    (scrRun env { files } ops).reads.Nodup := by
  suffices h : ∀ s : Scr Label Pat V, ReadInv s → ReadInv (scrRun env s ops) from
    (h { files } ⟨List.nodup_nil, by simp, by simp⟩).nodup
  induction ops with
  | nil => exact fun s h => h
  | cons op t ih =>
    intro s h
    refine ih (scrOp env s op) ?_
    cases op with
    | load k => exact loadLabel_inv env k h
    | trim k => exact trimCached_inv env k h
    | scrape l p => exact scrapeFromFile_inv env l p h
    | modify l c => exact ⟨h.nodup, h.load, h.trim⟩

end

/-- a toy: labels and patterns are numbers; pattern `n` matches if the text has `n` characters or more, and gives the text -/
def toyRe : Regex Nat Str where
  search := fun p t => if p ≤ t.length then .ok (some (.ok (some t))) else .ok none
  literalEval := fun _ => .notLiteral
  ofStr := id
  none := []

def toyEnv : ScrEnv Nat Str := ⟨toyRe, toyDecode⟩

/-- the file changes between two calls -/
example : (loadLabel toyEnv (0, none) (scrRun toyEnv (loadLabel toyEnv ((0 : Nat), none) { files := fun _ => .ok [65] }).2
    [.modify 0 (.ok [66]), .load (1, none), .scrape 0 1])).1 = .ok ['A'] :=
  (C64_stable toyEnv { files := fun _ => .ok [65] } _).1 (0, none) ['A'] rfl

/-! ## C65 -/

section
variable {Pat V Label Field : Type}

/-- C65: one pattern: `None` without a match; the text of the group, as a Python literal if it is one, else as it is -/
theorem C65_scrape (re : Regex Pat V) (text : Str) (p : Pat) :
    (re.search p text = .ok none → scrape re text p = .ok re.none) ∧
    (re.search p text = .ok (some (.ok none)) → scrape re text p = .ok re.none) ∧
    (∀ s, re.search p text = .ok (some (.ok (some s))) →
      (∀ v, re.literalEval s = .value v → scrape re text p = .ok v) ∧
      (re.literalEval s = .notLiteral → scrape re text p = .ok (re.ofStr s)) ∧
      (∀ e, re.literalEval s = .raises e → scrape re text p = .error e)) := by
  refine ⟨fun h => by simp [scrape, h], fun h => by simp [scrape, h], fun s h => ⟨fun v hv => ?_, fun hv => ?_, fun e hv => ?_⟩⟩ <;>
    simp [scrape, h, hv]

theorem scrapeFields_ok {re : Regex Pat V} {text : Str} {l : Dict Field Pat} {d : Dict Field V} (h : scrapeFields re text l = .ok d) :
    List.Forall₂ (fun x y => x.1 = y.1 ∧ scrape re text x.2 = .ok y.2) l d := by
  induction l generalizing d with
  | nil => cases h; exact .nil
  | cons x t ih =>
    obtain ⟨f, p⟩ := x
    simp only [scrapeFields] at h
    cases hs : scrape re text p with
    | error e => rw [hs] at h; cases h
    | ok v =>
      rw [hs] at h
      cases ht : scrapeFields re text t with
      | error e => rw [ht] at h; cases h
      | ok d' =>
        rw [ht] at h
        cases h
        exact .cons ⟨rfl, hs⟩ (ih ht)

theorem scrapeFields_total {re : Regex Pat V} {text : Str} {l : Dict Field Pat}
    (h : ∀ f p, (f, p) ∈ l → ∃ v, scrape re text p = .ok v) : ∃ d, scrapeFields re text l = .ok d := by
  induction l with
  | nil => exact ⟨[], rfl⟩
  | cons x t ih =>
    obtain ⟨f, p⟩ := x
    obtain ⟨v, hv⟩ := h f p List.mem_cons_self
    obtain ⟨d, hd⟩ := ih fun f p hm => h f p (List.mem_cons_of_mem _ hm)
    exact ⟨(f, v) :: d, by simp [scrapeFields, hv, hd]⟩

theorem forall₂_keys {re : Regex Pat V} {text : Str} {l : Dict Field Pat} {d : Dict Field V}
    (h : List.Forall₂ (fun x y => x.1 = y.1 ∧ scrape re text x.2 = .ok y.2) l d) : Dict.keys d = Dict.keys l := by
  induction h with
  | nil => rfl
  | cons h _ ih => simp only [Dict.keys, List.map_cons] at ih ⊢; rw [ih, h.1]

theorem forall₂_get {re : Regex Pat V} {text : Str} [DecidableEq Field] {l : Dict Field Pat} {d : Dict Field V}
    (h : List.Forall₂ (fun x y => x.1 = y.1 ∧ scrape re text x.2 = .ok y.2) l d) (f : Field) :
    (∀ p, Dict.get? l f = some p → ∃ v, Dict.get? d f = some v ∧ scrape re text p = .ok v) ∧
    (Dict.get? l f = none → Dict.get? d f = none) := by
  induction h with
  | nil => exact ⟨by simp, fun _ => rfl⟩
  | @cons x y l d h _ ih =>
    obtain ⟨a, p⟩ := x
    obtain ⟨b, v⟩ := y
    simp only at h
    obtain ⟨rfl, hv⟩ := h
    simp only [Dict.get?_cons]
    by_cases ha : a = f
    · simp only [if_pos ha]
      exact ⟨fun q hq => ⟨v, rfl, by cases hq; exact hv⟩, fun h => by cases h⟩
    · simp only [if_neg ha]
      exact ih

theorem keys_update [DecidableEq Field] (d x : Dict Field V) (hx : Dict.WF x) :
    Dict.keys (Dict.update d x) = Dict.keys d ++ (Dict.keys x).filter (fun k => k ∉ Dict.keys d) := by
  induction x generalizing d with
  | nil => simp [Dict.update_nil]
  | cons p t ih =>
    obtain ⟨k, v⟩ := p
    obtain ⟨hk, ht⟩ := List.nodup_cons.1 hx
    rw [show Dict.update d ((k, v) :: t) = Dict.update (Dict.set d k v) t from rfl, ih _ ht, Dict.keys_set, Dict.keys_cons]
    by_cases hm : k ∈ Dict.keys d
    · rw [if_pos hm]
      simp [List.filter_cons, hm]
    · rw [if_neg hm, List.filter_cons_of_pos (by simpa using hm), List.append_assoc, List.singleton_append]
      congr 2
      apply List.filter_congr
      intro a ha
      have : a ≠ k := fun h => hk (h ▸ ha)
      simp [this]

/-- C65: what `scrape_patterns` returns: the requested fields first, in order, then those only the supplemental function
gives; a field has the supplemental function's value if there is one, else what its pattern gives on the label's text. -/
theorem C65_scrape_patterns [DecidableEq Field] (re : Regex Pat V) (label : Label) (regexes : Dict Field Pat)
    (supplemental : Option (Label → Str → Except PyErr (Dict Field V))) (loader : Label → Except PyErr Str)
    (hsupp : ∀ f text x, supplemental = some f → f label text = .ok x → Dict.WF x) (d : Dict Field V)
    (h : scrapePatterns re label regexes supplemental loader = .ok d) :
    ∃ text, loader label = .ok text ∧ ∃ extra : Dict Field V,
      (supplemental = none ∧ extra = [] ∨ ∃ f, supplemental = some f ∧ f label text = .ok extra) ∧
      Dict.keys d = Dict.keys regexes ++ (Dict.keys extra).filter (fun k => k ∉ Dict.keys regexes) ∧
      ∀ f, Dict.get? d f = match Dict.get? extra f with
        | some v => some v
        | none => match Dict.get? regexes f with
          | none => none
          | some p => (scrape re text p).toOption := by
  unfold scrapePatterns at h
  cases hl : loader label with
  | error e => rw [hl] at h; cases h
  | ok text =>
    rw [hl] at h
    simp only at h
    cases hf : scrapeFields re text regexes with
    | error e => rw [hf] at h; cases h
    | ok d0 =>
      rw [hf] at h
      have h2 := scrapeFields_ok hf
      have hk := forall₂_keys h2
      have hget : ∀ f, Dict.get? d0 f = match Dict.get? regexes f with | none => none | some p => (scrape re text p).toOption := by
        intro f
        cases hr : Dict.get? regexes f with
        | none => exact (forall₂_get h2 f).2 hr
        | some p =>
          obtain ⟨v, hv, hs⟩ := (forall₂_get h2 f).1 p hr
          simp only [hs, hv]; rfl
      refine ⟨text, rfl, ?_⟩
      cases hs : supplemental with
      | none =>
        rw [hs] at h
        cases h
        exact ⟨[], .inl ⟨rfl, rfl⟩, by rw [hk]; simp, fun f => by simp [hget]⟩
      | some g =>
        rw [hs] at h
        simp only at h
        cases hg : g label text with
        | error e => rw [hg] at h; cases h
        | ok x =>
          rw [hg] at h
          cases h
          have hxw := hsupp g text x hs hg
          refine ⟨x, .inr ⟨g, rfl, hg⟩, ?_, fun f => ?_⟩
          · rw [← hk]
            exact keys_update d0 x hxw
          · rw [Dict.get?_update _ _ hxw, hget]
            cases Dict.get? x f <;> rfl

/-- C65: it returns if the label loads, every pattern can be searched for and the supplemental function returns -/
theorem C65_returns [DecidableEq Field] (re : Regex Pat V) (label : Label) (regexes : Dict Field Pat)
    (supplemental : Option (Label → Str → Except PyErr (Dict Field V))) (loader : Label → Except PyErr Str) (text : Str)
    (hl : loader label = .ok text) (hs : ∀ f p, (f, p) ∈ regexes → ∃ v, scrape re text p = .ok v)
    (hf : ∀ f, supplemental = some f → ∃ x, f label text = .ok x) :
    ∃ d, scrapePatterns re label regexes supplemental loader = .ok d := by
  obtain ⟨d, hd⟩ := scrapeFields_total hs
  cases hsup : supplemental with
  | none => exact ⟨d, by simp [scrapePatterns, hl, hd]⟩
  | some f =>
    obtain ⟨x, hx⟩ := hf f hsup
    exact ⟨Dict.update d x, by simp [scrapePatterns, hl, hd, hx]⟩

/-- C65: one result per file, in order -/
theorem C65_bulk (scraper : Label → Except PyErr V) (files : List Label) (rs : List V) :
    bulkScrape scraper files = .ok rs ↔ List.Forall₂ (fun f r => scraper f = .ok r) files rs := by
  induction files generalizing rs with
  | nil =>
    simp only [bulkScrape, Except.ok.injEq, List.forall₂_nil_left_iff]
    exact eq_comm
  | cons f t ih =>
    simp only [bulkScrape]
    cases hf : scraper f with
    | error e => simp [List.forall₂_cons_left_iff, hf]
    | ok v =>
      simp only
      cases ht : bulkScrape scraper t with
      | error e =>
        simp only [reduceCtorEq, false_iff]
        intro h
        cases h with
        | cons _ h =>
          rw [(ih _).2 h] at ht; cases ht
      | ok vs =>
        simp only [Except.ok.injEq]
        constructor
        · rintro rfl
          exact .cons hf ((ih vs).1 ht)
        · intro h
          cases h with
          | cons h1 h2 =>
            rw [hf] at h1
            cases h1
            have := (ih _).2 h2
            rw [ht] at this
            cases this
            rfl

/-- C65: a file that raises stops the whole -/
theorem C65_bulk_raises (scraper : Label → Except PyErr V) (pre post : List Label) (f : Label) (e : PyErr)
    (hp : ∀ g ∈ pre, ∃ v, scraper g = .ok v) (hf : scraper f = .error e) :
    bulkScrape scraper (pre ++ f :: post) = .error e := by
  induction pre with
  | nil => simp [bulkScrape, hf]
  | cons g t ih =>
    obtain ⟨v, hv⟩ := hp g List.mem_cons_self
    simp [bulkScrape, hv, ih fun g hg => hp g (List.mem_cons_of_mem _ hg)]

end

/-- two fields, one not matching; the supplemental function overrides one field and adds another -/
example : ∃ d, scrapePatterns toyRe (0 : Nat) [((1 : Nat), 1), (2, 9)] (some fun _ _ => .ok [(3, ['x']), (2, ['y'])])
      (fun _ => .ok ['a', 'b']) = .ok d ∧
    Dict.keys d = [1, 2, 3] ∧ Dict.get? d 1 = some ['a', 'b'] ∧ Dict.get? d 2 = some ['y'] := by
  refine ⟨_, rfl, ?_⟩
  obtain ⟨text, h1, extra, h2, h3, h4⟩ := C65_scrape_patterns toyRe (0 : Nat) [((1 : Nat), 1), (2, 9)]
    (some fun _ _ => .ok [(3, ['x']), (2, ['y'])]) (fun _ => .ok ['a', 'b'])
    (by rintro f text x h h'; cases h; cases h'; simp [Dict.WF]) _ rfl
  cases h1
  rcases h2 with ⟨h2, _⟩ | ⟨f, h2, h2'⟩
  · cases h2
  · cases h2; cases h2'
    exact ⟨h3.trans rfl, (h4 1).trans rfl, (h4 2).trans rfl⟩

example : bulkScrape (fun n : Nat => if n = 0 then .error .osError else .ok (n + 1)) [3, 5] = .ok [4, 6] :=
  (C65_bulk _ _ _).2 (.cons rfl (.cons rfl .nil))

end Verif.Props
