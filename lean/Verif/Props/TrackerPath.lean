import Verif.Model.TrackerPath
import Verif.Props.Tracker
import Mathlib.Data.List.Basic
/-!
# C130: where the log files of Trackers are
-/
namespace Verif.Props
open Verif Verif.Model

theorem splitSlash_none {s : Str} (h : '/' ∉ s) : splitSlash s = [s] := by
  induction s with
  | nil => rfl
  | cons c t ih =>
    have hc : c ≠ '/' := fun e => h (by simp [e])
    rw [splitSlash, if_neg hc, ih fun e => h (by simp [e])]

theorem child_plain (d : PPath) {s : Str} (h : '/' ∉ s) (h1 : s ≠ []) (h2 : s ≠ ['.']) :
    d.child s = ⟨d.root, d.parts ++ [s]⟩ := by
  have : splitRoot s = ([], s) := by
    unfold splitRoot
    cases s with
    | nil => rfl
    | cons c t => rw [if_neg]; simp only [List.head?_cons, Option.some.injEq]; exact fun e => h (by simp [e])
  simp [PPath.child, this, pathParts, splitSlash_none h, h1, h2]

theorem logName_slash {identifier : Str} {name : Option Str} (h1 : '/' ∉ identifier) (h2 : ∀ n, name = some n → '/' ∉ n) :
    '/' ∉ logName identifier name := by
  unfold logName
  simp only [List.mem_append, not_or]
  refine ⟨⟨?_, ?_⟩, by decide⟩
  · split
    · simp
    · simp only [List.mem_append, not_or]
      exact ⟨h1, by decide⟩
  · cases name with
    | none => decide
    | some n => exact h2 n rfl

theorem logName_long (identifier : Str) (name : Option Str) : 5 ≤ (logName identifier name).length := by
  unfold logName
  simp only [List.length_append]
  have : ".json".toList.length = 5 := by decide
  omega

/-- **C130**: with an identifier and a name without slashes, the log lies in the directory, in a file whose name consists of
the identifier and an underscore (if there is an identifier), the name, and ".json" -/
theorem C130_path_partial (outdir : PPath) (identifier name : Str) (h1 : '/' ∉ identifier) (h2 : '/' ∉ name) :
    logPath outdir identifier (some name) =
      ⟨outdir.root, outdir.parts ++ [(if identifier = [] then name else identifier ++ '_' :: name) ++ ".json".toList]⟩ := by
  have hl := logName_long identifier (some name)
  rw [logPath, child_plain _ (logName_slash h1 fun n e => by injection e with e; exact e ▸ h2)
    (by intro e; simp [e] at hl) (by intro e; simp [e] at hl)]
  congr 3
  unfold logName
  split <;> simp

theorem split_at {a a' b b' : Str} {c : Char} (ha : c ∉ a) (ha' : c ∉ a') (h : a ++ c :: b = a' ++ c :: b') :
    a = a' ∧ b = b' := by
  induction a generalizing a' with
  | nil =>
    cases a' with
    | nil => simpa using h
    | cons x t => simp only [List.nil_append, List.cons_append, List.cons.injEq] at h; exact absurd h.1 fun e => ha' (by simp [e])
  | cons x t ih =>
    cases a' with
    | nil => simp only [List.nil_append, List.cons_append, List.cons.injEq] at h; exact absurd h.1.symm fun e => ha (by simp [e])
    | cons y u =>
      simp only [List.cons_append, List.cons.injEq] at h
      obtain ⟨rfl, h⟩ := h
      obtain ⟨rfl, rfl⟩ := ih (fun e => ha (by simp [e])) (fun e => ha' (by simp [e])) h
      exact ⟨rfl, rfl⟩

/-- **C130** (partial): two Trackers with the same directory have different files if their identifiers and names are
different, there are no slashes in them, no underscores in the identifiers, and either both have an identifier or there
are no underscores in the names -/
theorem C130_distinct_partial (outdir : PPath) (i i' n n' : Str) (hi : '/' ∉ i) (hi' : '/' ∉ i') (hn : '/' ∉ n) (hn' : '/' ∉ n')
    (ui : '_' ∉ i) (ui' : '_' ∉ i') (un : (i ≠ [] ∧ i' ≠ []) ∨ ('_' ∉ n ∧ '_' ∉ n')) (hne : (i, n) ≠ (i', n')) :
    logPath outdir i (some n) ≠ logPath outdir i' (some n') := by
  intro h
  rw [C130_path_partial _ _ _ hi hn, C130_path_partial _ _ _ hi' hn'] at h
  simp only [PPath.mk.injEq, true_and, List.append_cancel_left_eq, List.cons.injEq, and_true, List.append_cancel_right_eq] at h
  apply hne
  by_cases e : i = []
  · by_cases e' : i' = []
    · rw [if_pos e, if_pos e'] at h
      rw [e, e', h]
    · rw [if_pos e, if_neg e'] at h
      rcases un with ⟨u, _⟩ | ⟨u, _⟩
      · exact absurd e u
      · exact absurd (by rw [h]; simp) u
  · by_cases e' : i' = []
    · rw [if_neg e, if_pos e'] at h
      rcases un with ⟨_, u⟩ | ⟨_, u⟩
      · exact absurd e' u
      · exact absurd (by rw [← h]; simp) u
    · rw [if_neg e, if_neg e'] at h
      obtain ⟨rfl, rfl⟩ := split_at ui ui' h
      rfl

/-- **C130**: with the same directory and the same identifier, different names are enough -/
theorem C130_names_partial (outdir : PPath) (i n n' : Str) (hi : '/' ∉ i) (hn : '/' ∉ n) (hn' : '/' ∉ n') (hne : n ≠ n') :
    logPath outdir i (some n) ≠ logPath outdir i (some n') := by
  intro h
  rw [C130_path_partial _ _ _ hi hn, C130_path_partial _ _ _ hi hn'] at h
  simp only [PPath.mk.injEq, true_and, List.append_cancel_left_eq, List.cons.injEq, and_true, List.append_cancel_right_eq] at h
  by_cases e : i = []
  · rw [if_pos e, if_pos e] at h; exact hne h
  · rw [if_neg e, if_neg e] at h
    simp only [List.append_cancel_left_eq, List.cons.injEq, true_and] at h
    exact hne h

/-- C130, in full: Trackers with different identifiers or names have different log files -/
def C130_full : Prop :=
  ∀ (outdir : PPath) (i i' : Str) (n n' : Option Str), (i, n) ≠ (i', n') → logPath outdir i n ≠ logPath outdir i' n'

/-- **C130**: underscores make files the same … -/
theorem C130_underscore (outdir : PPath) :
    logPath outdir "a".toList (some "b_c".toList) = logPath outdir "a_b".toList (some "c".toList) ∧
    logPath outdir [] (some "a_b".toList) = logPath outdir "a".toList (some "b".toList) := by
  constructor <;> rw [C130_path_partial _ _ _ (by decide) (by decide), C130_path_partial _ _ _ (by decide) (by decide)] <;> rfl

/-- … and so does a missing name -/
theorem C130_none (outdir : PPath) (i : Str) : logPath outdir i none = logPath outdir i (some "None".toList) := rfl

/-- C130 is false of the code -/
theorem C130_full_false : ¬ C130_full := fun h =>
  h ⟨[], []⟩ "a".toList "a_b".toList (some "b_c".toList) (some "c".toList) (by decide) (C130_underscore _).1

/-- **C130**: a name that begins with a slash puts the log outside the directory -/
theorem C130_outside (outdir : PPath) (n : Str) : (logPath outdir [] (some ('/' :: n))).root ≠ [] ∧
    ∀ outdir', logPath outdir' [] (some ('/' :: n)) = logPath outdir [] (some ('/' :: n)) := by
  have h : (splitRoot (logName [] (some ('/' :: n)))).1 ≠ [] := by
    unfold splitRoot logName
    simp only [if_true, List.nil_append, Option.getD_some, List.cons_append, List.head?_cons]
    split <;> simp
  constructor
  · rw [logPath, PPath.child, if_neg h]; exact h
  · intro outdir'
    rw [logPath, logPath, PPath.child, if_neg h, PPath.child, if_neg h]

theorem splitSlash_append {a b : Str} (h : '/' ∉ a) : splitSlash (a ++ '/' :: b) = a :: splitSlash b := by
  induction a with
  | nil => simp [splitSlash]
  | cons c t ih =>
    have hc : c ≠ '/' := fun e => h (by simp [e])
    rw [List.cons_append, splitSlash, if_neg hc, ih fun e => h (by simp [e])]

/-- **C130**: a slash inside the identifier or the name puts the log into another directory below; a dot before the slash is
left out -/
theorem C130_below (outdir : PPath) (a b : Str) (ha : '/' ∉ a) (hb : '/' ∉ b) (h0 : a ≠ []) :
    logPath outdir [] (some (a ++ '/' :: b)) =
      ⟨outdir.root, outdir.parts ++ (if a = ['.'] then [] else [a]) ++ [b ++ ".json".toList]⟩ := by
  have hn : logName [] (some (a ++ '/' :: b)) = a ++ '/' :: (b ++ ".json".toList) := by
    simp [logName]
  have hj : '/' ∉ b ++ ".json".toList := by
    simp only [List.mem_append, not_or]; exact ⟨hb, by decide⟩
  have hl : 5 ≤ (b ++ ".json".toList).length := by
    have : ".json".toList.length = 5 := by decide
    simp only [List.length_append]; omega
  have hr : splitRoot (a ++ '/' :: (b ++ ".json".toList)) = ([], a ++ '/' :: (b ++ ".json".toList)) := by
    unfold splitRoot
    cases a with
    | nil => exact absurd rfl h0
    | cons c t => rw [if_neg]; simp only [List.cons_append, List.head?_cons, Option.some.injEq]; exact fun e => ha (by simp [e])
  have hd1 : b ++ ".json".toList ≠ [] := by intro e; rw [e] at hl; simp at hl
  have hd2 : b ++ ".json".toList ≠ ['.'] := by intro e; rw [e] at hl; simp at hl
  generalize b ++ ".json".toList = j at *
  rw [logPath, hn, PPath.child, hr, if_pos rfl]
  congr 1
  rw [pathParts, splitSlash_append ha, splitSlash_none hj, List.append_assoc]
  congr 1
  by_cases hdot : a = ['.']
  · rw [if_pos hdot]; simp [hdot, hd1, hd2]
  · rw [if_neg hdot]; simp [h0, hdot, hd1, hd2]

/-- so two Trackers may have the same file though no name has an underscore or is missing -/
example (outdir : PPath) : logPath outdir [] (some "./x".toList) = logPath outdir [] (some "x".toList) :=
  (C130_below outdir ['.'] ['x'] (by decide) (by decide) (by decide)).trans
    ((C130_path_partial outdir [] ['x'] (by decide) (by decide)).trans (by simp)).symm

variable {ι J : Type} [DecidableEq ι] [Jval J]

/-- the operations of one of the Trackers -/
def opsOf (i : ι) (h : List (ι × TrkOp J)) : List (TrkOp J) := (h.filter fun x => x.1 = i).map Prod.snd

/-- **C130**: Trackers with different files do not affect each other: whatever is done to all of them, in whatever order, each
one and its file are as if only its own operations had been done, and no other file is touched -/
theorem C130_fleet (dumps : Dumps J) (path : ι → PPath) (hp : ∀ i j, i ≠ j → path i ≠ path j) (h : List (ι × TrkOp J))
    (ts : ι → Trk J) (d : LogFiles) :
    (∀ i, { (fleetRun dumps path (ts, d) h).1 i with file := (fleetRun dumps path (ts, d) h).2 (path i) } =
      trkRun dumps { ts i with file := d (path i) } (opsOf i h)) ∧
    ∀ p, (∀ i, p ≠ path i) → (fleetRun dumps path (ts, d) h).2 p = d p := by
  induction h generalizing ts d with
  | nil => exact ⟨fun i => rfl, fun p _ => rfl⟩
  | cons x t ih =>
    obtain ⟨i1, i2⟩ := ih (fleetOp dumps path (ts, d) x).1 (fleetOp dumps path (ts, d) x).2
    refine ⟨fun i => ?_, fun p hpp => ?_⟩
    · refine (i1 i).trans ?_
      by_cases hx : x.1 = i
      · subst hx
        simp only [opsOf, List.filter_cons, decide_true, if_true, List.map_cons, trkRun, List.foldl_cons]
        congr 1
        simp [fleetOp]
      · simp only [opsOf, List.filter_cons, hx, decide_false, Bool.false_eq_true, if_false]
        congr 1
        simp only [fleetOp, if_neg (Ne.symm hx), if_neg (hp i x.1 (Ne.symm hx))]
    · refine (i2 p hpp).trans ?_
      simp only [fleetOp, if_neg (hpp x.1)]

/-- the directory "/logs" -/
def logsDir : PPath := ⟨['/'], ["logs".toList]⟩

/-- two Trackers, "x" of the run "1" and "x" of the run "2" -/
def runPath (b : Bool) : PPath := logPath logsDir (if b then "1".toList else "2".toList) (some "x".toList)

theorem runPath_ne : ∀ i j, i ≠ j → runPath i ≠ runPath j := by
  intro i j hij
  refine C130_distinct_partial logsDir _ _ _ _ ?_ ?_ (by decide) (by decide) ?_ ?_ (Or.inr ⟨by decide, by decide⟩) ?_ <;>
    revert i j <;> decide

example : runPath true = ⟨['/'], ["logs".toList, "1_x.json".toList]⟩ :=
  (C130_path_partial logsDir "1".toList "x".toList (by decide) (by decide)).trans (by decide)

example : (fleetRun toyDumps runPath (fun _ => { name := 0, initStamp := 0 }, fun _ => none)
    (toyOps.map (fun o => (true, o)) ++ [(false, .dump 7), (true, .clear)])).2 (runPath false) = some [91, 100, 93] := by
  have := (C130_fleet toyDumps runPath runPath_ne
    (toyOps.map (fun o => (true, o)) ++ [(false, .dump 7), (true, .clear)]) (fun _ => { name := 0, initStamp := 0 })
    (fun _ => none)).1 false
  exact (congrArg Trk.file this).trans rfl

end Verif.Props
