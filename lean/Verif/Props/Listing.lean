import Verif.Lemmas.ListingRun
import Verif.Props.Claims
/-!
# C153: listing a `TagIndex` while others add keys

`update` (implements.py:391-395) takes no lock. Processes are scripts (Verif/Model/ListClients.lean); their programs are
interleaved operation by operation, and the schedule may stop any of them anywhere.
-/
namespace Verif.Props
open Verif Verif.Model Verif.Lemmas Verif.Spec

variable {ρ : Type}

/-- Nobody removes keys. Every process has seen a list of keys that only grows (`LsSeen`, Verif/Spec/ListClients.lean): it
begins with the keys that were there, every key the process adds is in it from then on, at the position that `add` told, and
every listing the process makes is the list at that moment, but for at most one entry of zeros at the end. What two
processes have seen never disagrees: one is the beginning of the other. When all have returned, all of it is in the index. -/
def ListShared (E : Env) (ix : Index) (keys0 U : List Str) (scripts : List (LsScript ρ)) (out : List (Prog ρ) × Store) : Prop :=
  ∃ views : Nat → List Str,
    (∀ (i : Nat) sc r, scripts[i]? = some sc → out.1[i]? = some (.ret r) →
      (∃ calls, sc.Follows calls r ∧ LsSeen keys0 calls (views i)) ∧ views i ⊆ U) ∧
    (∀ (i j : Nat) a b, i < scripts.length → j < scripts.length → out.1[i]? = some (.ret a) → out.1[j]? = some (.ret b) →
      views i <+: views j ∨ views j <+: views i) ∧
    ((∀ q ∈ out.1, ∃ a, q = .ret a) → ∃ keys, (indexUpdate E ix).run E out.2 = (.ok keys, out.2) ∧ keys.Nodup ∧ keys ⊆ U ∧
      ∀ (i : Nat) a, i < scripts.length → out.1[i]? = some (.ret a) → views i <+: keys)

/-- every listing a process makes has nothing but keys, and all the keys that nobody removes and that were there at the
start or that the process has added before -/
def ListComplete (keys0 U : List Str) (scripts : List (LsScript ρ)) (out : List (Prog ρ) × Store) : Prop :=
  ∀ (i : Nat) sc r, scripts[i]? = some sc → out.1[i]? = some (.ret r) →
    ∃ calls, sc.Follows calls r ∧ ∀ pre l post, calls = pre ++ (.keys, .ok (.keys l)) :: post →
      l ⊆ U ∧ ∀ k, (∀ sc' ∈ scripts, sc'.Uses fun o => ∀ key, o = .del key → key.text ≠ k) →
        (k ∈ keys0 ∨ ∃ key eo n, key.text = k ∧ (LsCall.op (.add key eo), Except.ok (LsOut.pos n)) ∈ pre) → k ∈ l

/-- C153, in full: however the processes add, remove and list, and however they are interleaved -/
def C153_full : Prop :=
  ∀ (ρ : Type) (E : Env) (ix : Index) (_ : NamesOK E ix.name) (s : Store) (_ : s.WF) (keys0 : List Str)
    (_ : IxRep E s ix keys0) (fl : Nat) (_ : LockClean s ix.name fl) (_ : fl < 256 ^ 5) (U : List Str)
    (_ : UniverseOK E U) (_ : NoBlanks U) (_ : keys0 ⊆ U) (fuel : Nat) (_ : fuel + 256 ^ 5 < 256 ^ 8)
    (scripts : List (LsScript ρ)) (_ : ∀ sc ∈ scripts, sc.Uses (KeyOpOK E U)) (sched : List Nat),
    ListComplete keys0 U scripts (interleave E sched (scripts.map (LsScript.run E fuel ix)) s)

/-- C153, the part that holds: when keys are only added, no process makes a marker or lock block or uses the count block
while another is about to make its marker or lock block, and one entry of zeros is allowed for -/
theorem C153_listing_partial (E : Env) (ix : Index) (hok : NamesOK E ix.name) (s : Store) (w : s.WF) (keys0 : List Str)
    (h : IxRep E s ix keys0) (fl : Nat) (hc : LockClean s ix.name fl) (hfl : fl < 256 ^ 5) (U : List Str)
    (hU : UniverseOK E U) (hnb : NoBlanks U) (h0 : keys0 ⊆ U) (fuel : Nat) (hf : fuel + 256 ^ 5 < 256 ^ 8)
    (scripts : List (LsScript ρ)) (hs : ∀ sc ∈ scripts, sc.Uses (AddOK E U)) (sched : List Nat)
    (hq : CodeQuietRun E ix.name sched (scripts.map (LsScript.run E fuel ix)) s) :
    ListShared E ix keys0 U scripts (interleave E sched (scripts.map (LsScript.run E fuel ix)) s) := by
  obtain ⟨h1, h2⟩ := lsClients hok hU hnb w h h0 hc hfl hf scripts hs sched hq
  generalize interleave E sched (scripts.map (LsScript.run E fuel ix)) s = out at h1 h2 ⊢
  have hv : ∀ i : Nat, ∃ v, ∀ (sc : LsScript ρ) (r : ρ), scripts[i]? = some sc → out.1[i]? = some (.ret r) →
      (∃ calls, sc.Follows calls r ∧ LsSeen keys0 calls v) ∧ HasSeen E ix U out.2 v := by
    intro i
    by_cases hi : ∃ sc r, scripts[i]? = some sc ∧ out.1[i]? = some (.ret r)
    · obtain ⟨sc, r, hi1, hi2⟩ := hi
      obtain ⟨calls, v, a1, a2, a3⟩ := h1 i sc r hi1 hi2
      refine ⟨v, fun sc' r' g1 g2 => ?_⟩
      rw [hi1] at g1; rw [hi2] at g2
      injection g1 with g1; injection g2 with g2; injection g2 with g2
      subst g1; subst g2
      exact ⟨⟨calls, a1, a2⟩, a3⟩
    · exact ⟨[], fun sc r g1 g2 => absurd ⟨sc, r, g1, g2⟩ hi⟩
  choose views hviews using hv
  have get : ∀ {i : Nat}, i < scripts.length → ∃ sc, scripts[i]? = some sc := fun hi => ⟨_, List.getElem?_eq_getElem hi⟩
  refine ⟨views, fun i sc r g1 g2 => ?_, fun i j a b hi hj ga gb => ?_, fun hret => ?_⟩
  · obtain ⟨b1, b2⟩ := hviews i sc r g1 g2
    exact ⟨b1, b2.mem⟩
  · obtain ⟨sc, hsc⟩ := get hi
    obtain ⟨sc', hsc'⟩ := get hj
    exact (hviews i sc a hsc ga).2.comparable (hviews j sc' b hsc' gb).2
  · obtain ⟨keys, hk, hrep⟩ := h2 hret
    refine ⟨keys, run_indexUpdate hrep hok, hrep.nodup, hk, fun i a hi ga => ?_⟩
    obtain ⟨sc, hsc⟩ := get hi
    exact (hviews i sc a hsc ga).2.prefix_rep hrep

/-- what a process has seen includes what it had seen before, and what it added -/
theorem lsSeen_sub {v v' : List Str} {calls : List (LsCall × Except PyErr LsOut)} (h : LsSeen v calls v') :
    v <+: v' ∧ ∀ key eo n, (LsCall.op (.add key eo), Except.ok (LsOut.pos n)) ∈ calls → key.text ∈ v' := by
  induction calls generalizing v with
  | nil => cases h; exact ⟨List.prefix_refl _, by simp⟩
  | cons x t ih =>
    obtain ⟨o, out⟩ := x
    obtain ⟨v1, h1, h2⟩ := h
    obtain ⟨p2, a2⟩ := ih h2
    refine ⟨h1.1.trans p2, fun key eo n hm => ?_⟩
    rcases List.mem_cons.1 hm with hm | hm
    · injection hm with e1 e2
      subst e1; subst e2
      rcases h1.2 with ⟨m, _, hk⟩ | ⟨_, hk, _⟩
      · exact p2.subset (List.mem_of_getElem? hk)
      · cases hk
    · exact a2 key eo n hm

theorem lsSeen_append {v v' : List Str} {c1 c2 : List (LsCall × Except PyErr LsOut)} (h : LsSeen v (c1 ++ c2) v') :
    ∃ m, LsSeen v c1 m ∧ LsSeen m c2 v' := by
  induction c1 generalizing v with
  | nil => exact ⟨v, rfl, h⟩
  | cons x t ih =>
    obtain ⟨o, out⟩ := x
    obtain ⟨v1, h1, h2⟩ := h
    obtain ⟨m, h3, h4⟩ := ih h2
    exact ⟨m, ⟨v1, h1, h3⟩, h4⟩

/-- C153, seen from one process: every listing has all the keys that were there, all the keys the process has added before,
and nothing else but keys of `U` and at most one entry of zeros, which is the last -/
theorem C153_listing_has_partial (E : Env) (ix : Index) (hok : NamesOK E ix.name) (s : Store) (w : s.WF) (keys0 : List Str)
    (h : IxRep E s ix keys0) (fl : Nat) (hc : LockClean s ix.name fl) (hfl : fl < 256 ^ 5) (U : List Str)
    (hU : UniverseOK E U) (hnb : NoBlanks U) (h0 : keys0 ⊆ U) (fuel : Nat) (hf : fuel + 256 ^ 5 < 256 ^ 8)
    (scripts : List (LsScript ρ)) (hs : ∀ sc ∈ scripts, sc.Uses (AddOK E U)) (sched : List Nat)
    (hq : CodeQuietRun E ix.name sched (scripts.map (LsScript.run E fuel ix)) s) (i : Nat) (sc : LsScript ρ) (r : ρ)
    (hi : scripts[i]? = some sc)
    (hr : (interleave E sched (scripts.map (LsScript.run E fuel ix)) s).1[i]? = some (.ret r)) :
    ∃ calls, sc.Follows calls r ∧ ∀ pre l post, calls = pre ++ (.keys, .ok (.keys l)) :: post →
      ∃ v, (l = v ∨ ∃ b, IsBlank b ∧ l = v ++ [b]) ∧ v ⊆ U ∧ keys0 <+: v ∧
        ∀ key eo n, (LsCall.op (.add key eo), Except.ok (LsOut.pos n)) ∈ pre → key.text ∈ v := by
  obtain ⟨views, h1, -, -⟩ := C153_listing_partial E ix hok s w keys0 h fl hc hfl U hU hnb h0 fuel hf scripts hs sched hq
  obtain ⟨⟨calls, hfol, hseen⟩, hsub⟩ := h1 i sc r hi hr
  refine ⟨calls, hfol, fun pre l post e => ?_⟩
  subst e
  obtain ⟨m, s1, v1, hs1, s2⟩ := lsSeen_append hseen
  obtain ⟨p1, a1⟩ := lsSeen_sub s1
  obtain ⟨p2, _⟩ := lsSeen_sub s2
  obtain ⟨hp, l', hl, hl'⟩ := hs1
  injection hl with hl; injection hl with hl
  subst hl
  exact ⟨v1, hl', fun x hx => hsub (p2.subset hx), p1.trans hp, fun key eo n hm => hp.subset (a1 key eo n hm)⟩

/-! ## processes that add and list -/

def listed : Except PyErr LsOut → Option (List Str)
  | .ok (.keys l) => some l
  | _ => none

def posOf : Except PyErr LsOut → Option Nat
  | .ok (.pos n) => some n
  | _ => none

theorem posOf_some {r : Except PyErr LsOut} {n : Nat} (h : posOf r = some n) : r = .ok (.pos n) := by
  cases r with
  | error e => cases h
  | ok o => cases o with
    | pos m => injection h with h; rw [h]
    | keys l => cases h

abbrev LsTold := List (Option Nat) × Option (List Str)

/-- adds keys, and lists them all; the positions are kept -/
def addsThenList (told : List (Option Nat)) : List Key → LsScript LsTold
  | [] => .call .keys fun r => .ret (told, listed r)
  | k :: t => .call (.op (.add k true)) fun r => addsThenList (told ++ [posOf r]) t

def removes (k : Key) : LsScript LsTold := .call (.op (.del k)) fun _ => .ret ([], none)

theorem follows_adds {told : List (Option Nat)} {ks : List Key} {calls : List (LsCall × Except PyErr LsOut)} {b : LsTold}
    (h : (addsThenList told ks).Follows calls b) : ∃ outs last, outs.length = ks.length ∧
      calls = (ks.map fun k => LsCall.op (.add k true)).zip outs ++ [(.keys, last)] ∧
      b = (told ++ outs.map posOf, listed last) := by
  induction ks generalizing told calls with
  | nil =>
    cases calls with
    | nil => exact h.elim
    | cons x t =>
      obtain ⟨o, r⟩ := x
      obtain ⟨rfl, h2⟩ := h
      cases t with
      | nil => exact ⟨[], r, rfl, rfl, by simpa using (Eq.symm h2)⟩
      | cons => exact h2.elim
  | cons k ks ih =>
    cases calls with
    | nil => exact h.elim
    | cons x t =>
      obtain ⟨o, r⟩ := x
      obtain ⟨rfl, h2⟩ := h
      obtain ⟨outs, last, e1, e2, e3⟩ := ih h2
      exact ⟨r :: outs, last, by simp [e1], by rw [e2]; rfl, by rw [e3]; simp⟩

def kCs : Key := .str "c".toList
def lsU : List Str := [kA.text, kB.text, kCs.text]

theorem lsU_ok : UniverseOK labEnv lsU := ⟨fun a _ b _ h => by rwa [labEnv_sha, labEnv_sha] at h, by decide⟩

theorem lsU_noBlanks : NoBlanks lsU := by
  rintro k hk ⟨n, hn, e⟩
  obtain ⟨m, rfl⟩ := Nat.exists_eq_add_of_lt hn
  rw [Nat.zero_add, List.replicate_succ] at e
  simp only [lsU, List.mem_cons, List.not_mem_nil, or_false] at hk
  rcases hk with h | h | h <;> subst h <;> injection e with e _ <;> exact absurd e (by decide)

theorem addsThenList_uses {told : List (Option Nat)} {ks : List Key} (h : ∀ k ∈ ks, k ∈ [kA, kB, kCs]) :
    (addsThenList told ks).Uses (AddOK labEnv lsU) := by
  induction ks generalizing told with
  | nil => exact fun _ => trivial
  | cons k t ih =>
    refine ⟨⟨?_, _, _, rfl⟩, fun _ => ih fun x hx => h x (List.mem_cons_of_mem _ hx)⟩
    have := h k (List.mem_cons_self ..)
    simp only [List.mem_cons, List.not_mem_nil, or_false] at this
    rcases this with h | h | h <;> subst h <;>
      exact ⟨rfl, by simp [KOp.key, kA, kB, kCs, Key.text], by simp [KOp.key, lsU]⟩

theorem ls_uses_mono {ok ok' : KOp → Prop} (h : ∀ o, ok o → ok' o) (sc : LsScript ρ) (hs : sc.Uses ok) : sc.Uses ok' := by
  induction sc with
  | ret r => trivial
  | raise e => trivial
  | call o k ih =>
    cases o with
    | keys => exact fun r => ih r (hs r)
    | op o => exact ⟨h o hs.1, fun r => ih r (hs.2 r)⟩

/-- the entry of zeros is real: process 0 adds "a"; process 1 lists the index after the block of the entry has been made and
before it is written. Nothing else happens, and the lock is not disturbed. -/
def blankSched : List Nat := List.replicate 9 0 ++ List.replicate 60 1 ++ List.replicate 90 0
def blankPs : List (Prog LsTold) := [addsThenList [] [kA], addsThenList [] []].map (LsScript.run labEnv 5 newIx)

theorem C153_blank : CodeQuietRun labEnv newIx.name blankSched blankPs newStore ∧
    (interleave labEnv blankSched blankPs newStore).1.map outcomeL =
      [some ([some 0], some [['a']]), some ([], some [[Char.ofNat 0]])] :=
  ⟨quietRun_of_B _ (by decide +kernel), by decide +kernel⟩

/-- a key is missing: process 0 adds "a", "b", "c" and lists the index; when it has read the length and "a", process 1
removes "a", by which "c" moves to the place of "a". Process 0 is told "a" and "b". -/
def skipSched : List Nat := List.replicate 50 0 ++ List.replicate 60 1 ++ List.replicate 90 0
def skipScripts : List (LsScript LsTold) := [addsThenList [] [kA, kB, kCs], removes kA]
def skipPs : List (Prog LsTold) := skipScripts.map (LsScript.run labEnv 5 newIx)

theorem C153_skips : CodeQuietRun labEnv newIx.name skipSched skipPs newStore ∧
    (interleave labEnv skipSched skipPs newStore).1.map outcomeL =
      [some ([some 0, some 1, some 2], some [['a'], ['b']]), some ([], none)] :=
  ⟨quietRun_of_B _ (by decide +kernel), by decide +kernel⟩

theorem outcomeL_ret {α : Type} {l : List (Prog α)} {os : List (Option α)} (h : l.map outcomeL = os) {i : Nat} {a : α}
    (hi : os[i]? = some (some a)) : l[i]? = some (.ret a) := by
  subst h
  rw [List.getElem?_map] at hi
  cases hp : l[i]? with
  | none => rw [hp] at hi; cases hi
  | some p =>
    rw [hp] at hi
    cases p with
    | ret b => simp only [Option.map_some, Option.some.injEq, outcomeL] at hi; rw [hi]
    | _ => simp [outcomeL] at hi

/-- C153 is false of the code: nobody removes "c", process 0 has added it at position 2, and does not find it -/
theorem C153_full_false : ¬ C153_full := by
  intro hC
  obtain ⟨calls, hfol, hall⟩ := hC LsTold labEnv newIx (labNames (by simp [newIx, ixName])) newStore newStore_wf [] newIx_rep 0
    newIx_clean (by decide) lsU lsU_ok lsU_noBlanks (by simp) 5 (by decide) skipScripts (by
      intro sc hsc
      simp only [skipScripts, List.mem_cons, List.not_mem_nil, or_false] at hsc
      rcases hsc with h | h <;> subst h
      · exact ls_uses_mono (fun _ h => h.1) _ (addsThenList_uses fun _ h => h)
      · exact ⟨⟨rfl, by simp [KOp.key, kA, Key.text], by simp [KOp.key, lsU]⟩, fun _ => trivial⟩) skipSched 0 _ _ rfl
    (outcomeL_ret C153_skips.2 rfl)
  obtain ⟨outs, last, e1, e2, e3⟩ := follows_adds hfol
  match outs, e1 with
  | [o1, o2, o3], _ =>
    simp only [List.nil_append, List.map_cons, List.map_nil, Prod.mk.injEq, List.cons.injEq, and_true] at e3
    obtain ⟨⟨-, -, h3⟩, h4⟩ := e3
    have hl : last = .ok (.keys [['a'], ['b']]) := by
      cases last with
      | error e => cases h4
      | ok o => cases o with
        | pos n => cases h4
        | keys l => injection h4 with h4; rw [← h4]
    have := (hall _ _ [] (by rw [e2, hl])).2 kCs.text (by
      intro sc hsc
      simp only [skipScripts, List.mem_cons, List.not_mem_nil, or_false] at hsc
      rcases hsc with h | h <;> subst h
      · refine ls_uses_mono (fun o h key e => ?_) _ (addsThenList_uses fun _ h => h)
        obtain ⟨_, k, eo, h⟩ := h
        rw [h] at e; cases e
      · refine ⟨fun key e => ?_, fun _ => trivial⟩
        injection e with e
        rw [← e]; decide) (Or.inr ⟨kCs, true, 2, rfl, by simp [posOf_some h3.symm]⟩)
    exact absurd this (by decide)

/-- process 0 adds "a" and "c", process 1 adds "b" and "a"; both list the index; the schedule changes processes wherever
the lock allows -/
def lsScripts : List (LsScript LsTold) := [addsThenList [] [kA, kCs], addsThenList [] [kB, kA]]
def lsPs : List (Prog LsTold) := lsScripts.map (LsScript.run labEnv 60 newIx)
def lsSched : List Nat := busySched labEnv ixName 400 0 lsPs newStore

/-- process 0 adds "a" after "b" and sees all three keys; process 1 lists before "c" is there -/
example : (interleave labEnv lsSched lsPs newStore).1.map outcomeL =
    [some ([some 1, some 2], some [['b'], ['a'], ['c']]), some ([some 0, some 1], some [['b'], ['a']])] := by decide +kernel

/-- the hypotheses of C153 are met -/
example : ListShared labEnv newIx [] lsU lsScripts (interleave labEnv lsSched lsPs newStore) := by
  have hr : quietRunB labEnv ixName lsSched lsPs newStore = true := by decide +kernel
  exact C153_listing_partial labEnv newIx (labNames (by simp [newIx, ixName])) newStore newStore_wf [] newIx_rep 0
    newIx_clean (by decide) lsU lsU_ok lsU_noBlanks (by simp) 60 (by decide) lsScripts (by
      intro sc hsc
      simp only [lsScripts, List.mem_cons, List.not_mem_nil, or_false] at hsc
      rcases hsc with h | h <;> subst h <;> exact addsThenList_uses (by simp)) lsSched (quietRun_of_B _ hr)

end Verif.Props
