import Verif.Lemmas.PadFail
import Verif.Props.TagIndex
/-!
# C39-C44, C48: Notepad

A history is a list of calls by clients of a notepad. Calls do not overlap in time. `answersOK` (Verif/Spec/Notepad.lean)
says which answers a dictionary may give. The whole life of a notepad is covered: created, joined by further clients,
used, closed, perhaps created again.
-/
namespace Verif.Props
open Verif Verif.Model Verif.Lemmas Verif.Spec

variable {V : Type}

/-- run a history of calls on the notepad with prefix `pre` -/
def padHistory (E : Env) (c : Codec V) (isNone : V → Bool) (pre : Str) (ops : List (NoteOp V)) (s0 : Store) :
    List (NoteRes V) × List Pad × Store :=
  let r := playPads E c isNone (fun _ : Unit => pre) (ops.map fun o => ((), o)) (fun _ => []) s0
  (r.1.map Prod.snd, r.2.1 (), r.2.2)

/-- no notepad yet -/
def noteStart : NoteState V := ⟨0, none⟩

theorem callsOf_unit (ops : List (NoteOp V)) : callsOf () (ops.map fun o => ((), o)) = ops.map NoteOp.call := by
  induction ops with
  | nil => rfl
  | cons o t ih => simpa [callsOf] using ih

theorem answersOf_unit (rs : List (Unit × NoteRes V)) : answersOf () rs = rs.map Prod.snd := by
  induction rs with
  | nil => rfl
  | cons o t ih => simpa [answersOf] using ih

theorem padHistory_spec (E : Env) (c : Codec V) (isNone : V → Bool) (pre : Str) (U : Str → Prop)
    (hU : KeysOK E pre U) (hok : NamesOK E (indexName pre)) (ops : List (NoteOp V))
    (hops : ∀ o ∈ ops, OpOK E c isNone U o) (hlen : 2 * ops.length < 256 ^ 5) (s0 : Store) (w : s0.WF)
    (hno : NoPad s0 pre) :
    answersOK noteStart (ops.map NoteOp.call) (padHistory E c isNone pre ops s0).1 ∧
    (padHistory E c isNone pre ops s0).2.2.WF ∧
    StRep E c isNone pre U (padHistory E c isNone pre ops s0).2.2 (padHistory E c isNone pre ops s0).2.1
      (noteEnd noteStart (ops.map NoteOp.call)) ops.length ∧
    SameOff (padTouch pre) s0 (padHistory E c isNone pre ops s0).2.2 := by
  obtain ⟨w', h, hs⟩ := playPads_spec (E := E) (c := c) (isNone := isNone) (ι := Unit) (fun _ => pre) (fun _ => U)
    (fun _ => hU) (fun _ => hok) (fun i j hij => absurd rfl hij) (ops.map fun o => ((), o))
    (by intro x hx; obtain ⟨o, ho, rfl⟩ := List.mem_map.1 hx; exact hops o ho) (fun _ => []) s0 w
    (fun _ => noteStart) 0 (fun _ => ⟨rfl, rfl, hno⟩) (by simp; omega)
  obtain ⟨h1, h2⟩ := h ()
  rw [callsOf_unit, answersOf_unit] at h1
  rw [callsOf_unit, List.length_map, Nat.zero_add] at h2
  exact ⟨h1, w', h2, hs.mono fun x ⟨_, hx⟩ => hx⟩

/-! ## C39 -/

/-- C39: from any memory in which no block of the notepad exists, any history of calls by any number of clients gets
the answers of a dictionary, and only addresses beginning with the prefix and an underscore are touched -/
theorem C39_notepad_is_a_dictionary (E : Env) (c : Codec V) (isNone : V → Bool) (pre : Str) (U : Str → Prop)
    (hU : KeysOK E pre U) (hok : NamesOK E (indexName pre)) (ops : List (NoteOp V))
    (hops : ∀ o ∈ ops, OpOK E c isNone U o) (hlen : 2 * ops.length < 256 ^ 5) (s0 : Store) (w : s0.WF)
    (hno : NoPad s0 pre) :
    answersOK noteStart (ops.map NoteOp.call) (padHistory E c isNone pre ops s0).1 ∧
    ∀ x, ¬ (pre ++ ['_']) <+: x → (padHistory E c isNone pre ops s0).2.2.content x = s0.content x := by
  obtain ⟨h1, _, _, h4⟩ := padHistory_spec E c isNone pre U hU hok ops hops hlen s0 w hno
  exact ⟨h1, fun x hx => (h4 x fun ht => hx (touch_prefix ht)).2⟩

/-- keys of the examples: anything nonempty that does not begin with "index" -/
def labKeys (k : Str) : Prop := k ≠ [] ∧ ¬ indexWord <+: k

theorem labKeysOK (pre : Str) : KeysOK labEnv pre labKeys :=
  ⟨fun _ h => h.1, fun _ h => h.2, fun k _ => by
    have : padAddr pre k ≠ [] := by simp [padAddr]
    show (!(padAddr pre k).isEmpty) = true
    cases h : padAddr pre k with
    | nil => exact absurd h this
    | cons _ _ => rfl,
   fun a b _ _ h => by rwa [labEnv_sha, labEnv_sha] at h⟩

theorem labIndexOK (pre : Str) : NamesOK labEnv (indexName pre) := labNames (by simp [indexName])

theorem labStable {v : Nat} (h : 2 ≤ v) : Stable demoCodec (fun _ => false) v (List.replicate v v) := by
  obtain ⟨w, rfl⟩ : ∃ w, v = w + 2 := ⟨v - 2, by omega⟩
  refine ⟨?_, by simp, ?_, rfl⟩
  · simp [demoCodec]
  · simp [demoCodec, List.replicate_succ]

def np : Str := "np".toList

/-- two clients, an overwrite, a refused overwrite, a deletion, a refused deletion, a close and a second life -/
def demoNotes : List (NoteOp Nat) :=
  [.create (.sliding 1), .set 0 kA 2 true, .join .fake, .set 1 kB 3 true, .set 0 kA 4 true, .set 1 kA 5 false, .get 1 kA,
   .del 0 kB, .del 1 kB, .keys 1, .items 0, .close 1, .join .fake, .create .fake, .keys 0]

theorem labKey_lab : ∀ k ∈ [kA, kB, kC], k.hashed labEnv = labEnv.utf8 k.text ∧ labKeys k.text := by
  intro k hk
  simp only [List.mem_cons, List.not_mem_nil, or_false] at hk
  rcases hk with rfl | rfl | rfl <;> exact ⟨rfl, by simp [Key.text, kA, kB, kC], by
    rw [← List.isPrefixOf_iff_prefix]; decide⟩

theorem demoNotes_ok : ∀ o ∈ demoNotes, OpOK labEnv demoCodec (fun _ => false) labKeys o := by
  have hA := labKey_lab kA (by simp)
  have hB := labKey_lab kB (by simp)
  intro o ho
  simp only [demoNotes, List.mem_cons, List.not_mem_nil, or_false] at ho
  rcases ho with rfl | rfl | rfl | rfl | rfl | rfl | rfl | rfl | rfl | rfl | rfl | rfl | rfl | rfl | rfl <;>
    simp only [OpOK, LockMode.Runs] <;>
    first
      | trivial
      | omega
      | exact ⟨hA.1, hA.2, _, labStable (by omega)⟩
      | exact ⟨hB.1, hB.2, _, labStable (by omega)⟩
      | exact hA.2
      | exact hB

example : answersOK noteStart (demoNotes.map NoteOp.call)
      (padHistory labEnv demoCodec (fun _ => false) np demoNotes Store.empty).1 ∧
    ∀ x, ¬ (np ++ ['_']) <+: x →
      (padHistory labEnv demoCodec (fun _ => false) np demoNotes Store.empty).2.2.content x = Store.empty.content x :=
  C39_notepad_is_a_dictionary labEnv demoCodec (fun _ => false) np labKeys (labKeysOK np) (labIndexOK np) demoNotes
    demoNotes_ok (by decide) Store.empty wf_empty (fun _ _ => rfl)

/-! ## C40 -/

/-- `ps` are the client objects in use of the notepad with prefix `pre`, after a history of calls which found no block of
the notepad, and left the memory `s` and the dictionary `m` -/
def InUse (E : Env) (c : Codec V) (isNone : V → Bool) (pre : Str) (U : Str → Prop) (s : Store) (ps : List Pad)
    (m : Str → Option V) : Prop :=
  ∃ (ops : List (NoteOp V)) (s0 : Store), (∀ o ∈ ops, OpOK E c isNone U o) ∧ 2 * ops.length + 2 < 256 ^ 5 ∧ s0.WF ∧
    NoPad s0 pre ∧ (padHistory E c isNone pre ops s0).2.2 = s ∧ (padHistory E c isNone pre ops s0).2.1 = ps ∧
    (noteEnd noteStart (ops.map NoteOp.call)).map = some m

theorem InUse.rep {E : Env} {c : Codec V} {isNone : V → Bool} {pre : Str} {U : Str → Prop} {s : Store} {ps : List Pad}
    {m : Str → Option V} (h : InUse E c isNone pre U s ps m) (hU : KeysOK E pre U) (hok : NamesOK E (indexName pre)) :
    s.WF ∧ ∃ ix keys fl, PadRep E c isNone pre U s ix m keys fl ∧ fl + keys.length + 2 < 256 ^ 5 ∧
      ∀ p ∈ ps, p.pre = pre ∧ p.index = .tag ix ∧ p.mode.Runs := by
  obtain ⟨ops, s0, hops, hlen, w, hno, rfl, rfl, hm⟩ := h
  obtain ⟨_, w', h, _⟩ := padHistory_spec E c isNone pre U hU hok ops hops (by omega) s0 w hno
  have h2 := h.2
  rw [hm] at h2
  obtain ⟨ix, keys, fl, hrep, hfl, hcl⟩ := h2
  exact ⟨w', ix, keys, fl, hrep, by omega, hcl⟩

theorem InUse.get {E : Env} {c : Codec V} {isNone : V → Bool} {pre : Str} {U : Str → Prop} {s : Store} {ps : List Pad}
    {m : Str → Option V} (h : InUse E c isNone pre U s ps m) (hU : KeysOK E pre U) (hok : NamesOK E (indexName pre))
    {p : Pad} (hp : p ∈ ps) {key : Key} (hk : U key.text) : (padGet c isNone p key).run E s =
      (match m key.text with | some v => .ok v | none => .err .fileNotFound, s) := by
  obtain ⟨_, ix, keys, fl, hrep, _, hcl⟩ := h.rep hU hok
  exact hrep.get hU (hcl p hp).1 hk

/-- C40, in full: `get` with a default gives the default for an absent key, after any history -/
def C40_full : Prop :=
  ∀ (V : Type) (E : Env) (c : Codec V) (isNone : V → Bool) (pre : Str) (U : Str → Prop) (_ : KeysOK E pre U)
    (_ : NamesOK E (indexName pre)) (s : Store) (ps : List Pad) (m : Str → Option V)
    (_ : InUse E c isNone pre U s ps m) (p : Pad) (_ : p ∈ ps) (key : Key) (_ : U key.text) (d : V),
    ((padGetD c isNone p key d).run E s).1 = .ok ((m key.text).getD d)

/-- C40: an absent key raises `FileNotFoundError`, whatever the default -/
theorem C40_absent_raises (E : Env) (c : Codec V) (isNone : V → Bool) (pre : Str) (U : Str → Prop)
    (hU : KeysOK E pre U) (hok : NamesOK E (indexName pre)) (s : Store) (ps : List Pad) (m : Str → Option V)
    (h : InUse E c isNone pre U s ps m) (p : Pad) (hp : p ∈ ps) (key : Key) (hk : U key.text) (hmk : m key.text = none)
    (d : V) : ((padGetD c isNone p key d).run E s).1 = .err .fileNotFound := by
  obtain ⟨_, ix, keys, fl, hrep, _, hcl⟩ := h.rep hU hok
  have e := hrep.get hU (hcl p hp).1 hk
  rw [padGetD, run_bind, run_attempt, e, hmk]
  rfl

/-- C40, the part that holds: a live key gives its value, and a key under which `None` was stored gives the default -/
theorem C40_get_default_partial (E : Env) (c : Codec V) (isNone : V → Bool) (pre : Str) (U : Str → Prop)
    (hU : KeysOK E pre U) (hok : NamesOK E (indexName pre)) (s : Store) (ps : List Pad) (m : Str → Option V)
    (h : InUse E c isNone pre U s ps m) (p : Pad) (hp : p ∈ ps) (key : Key) (hk : U key.text) (d : V) :
    (∀ v, m key.text = some v → ((padGetD c isNone p key d).run E s).1 = .ok v) ∧
    ∀ s' b v, s'.content (padAddr pre key.text) = some b → c.decode b = .ok v → isNone v = true →
      ((padGetD c isNone p key d).run E s').1 = .ok d := by
  obtain ⟨_, ix, keys, fl, hrep, _, hcl⟩ := h.rep hU hok
  refine ⟨fun v hv => ?_, fun s' b v hb hd hn => ?_⟩
  · rw [padGetD, run_bind, run_attempt, hrep.get hU (hcl p hp).1 hk, hv]
    rfl
  · have hokp : E.okName (padAddr p.pre key.text) = true := by rw [(hcl p hp).1]; exact hU.ok _ hk
    rw [padGetD, run_bind, run_attempt, run_padGet hokp, (hcl p hp).1, hb]
    simp only [readAs, hd, hn, if_true]
    rfl

/-- a notepad with two keys, and a second client -/
def twoNotes : List (NoteOp Nat) := [.create .fake, .set 0 kA 2 true, .set 0 kB 3 true, .join (.sliding 2)]

theorem twoNotes_ok : ∀ o ∈ twoNotes, OpOK labEnv demoCodec (fun _ => false) labKeys o := by
  have hA := labKey_lab kA (by simp)
  have hB := labKey_lab kB (by simp)
  intro o ho
  simp only [twoNotes, List.mem_cons, List.not_mem_nil, or_false] at ho
  rcases ho with rfl | rfl | rfl | rfl <;> simp only [OpOK, LockMode.Runs] <;>
    first
      | trivial
      | omega
      | exact ⟨hA.1, hA.2, _, labStable (by omega)⟩
      | exact ⟨hB.1, hB.2, _, labStable (by omega)⟩

/-- the dictionary `twoNotes` leaves -/
def twoMap : Str → Option Nat := upd (upd (fun _ => none) kA.text (some 2)) kB.text (some 3)
/-- the clients of `twoNotes` -/
def twoIx : Index := ⟨indexName np, 0⟩
def padOne : Pad := ⟨np, .tag twoIx, .fake⟩
def padTwo : Pad := ⟨np, .tag twoIx, .sliding 2⟩
/-- the memory `twoNotes` leaves -/
def twoStore : Store := (padHistory labEnv demoCodec (fun _ => false) np twoNotes Store.empty).2.2

theorem two_inUse : InUse labEnv demoCodec (fun _ => false) np labKeys twoStore [padOne, padTwo] twoMap :=
  ⟨twoNotes, Store.empty, twoNotes_ok, by decide, wf_empty, fun _ _ => rfl, rfl, rfl, rfl⟩

/-- C40 is false of the code -/
theorem C40_full_false : ¬ C40_full := by
  intro h
  have hC := labKey_lab kC (by simp)
  have h1 := h Nat labEnv demoCodec (fun _ => false) np labKeys (labKeysOK np) (labIndexOK np) _ _ _ two_inUse padOne
    (by simp) kC hC.2 9
  rw [C40_absent_raises labEnv demoCodec (fun _ => false) np labKeys (labKeysOK np) (labIndexOK np) _ _ _ two_inUse padOne
    (by simp) kC hC.2 rfl 9] at h1
  simp at h1

example : ((padGetD demoCodec (fun _ => false) padTwo kB 9).run labEnv twoStore).1 = .ok 3 :=
  (C40_get_default_partial labEnv demoCodec (fun _ => false) np labKeys (labKeysOK np) (labIndexOK np) _ _ _ two_inUse
    padTwo (by simp) kB (labKey_lab kB (by simp)).2 9).1 3 rfl

/-! ## C41 -/

/-- C41, in full: notepads with different prefixes each behave as a dictionary, however their calls are mixed -/
def C41_full : Prop :=
  ∀ (V ι : Type) [DecidableEq ι] (E : Env) (c : Codec V) (isNone : V → Bool) (pre : ι → Str) (U : ι → Str → Prop)
    (_ : ∀ i, KeysOK E (pre i) (U i)) (_ : ∀ i, NamesOK E (indexName (pre i)))
    (_ : ∀ i j, i ≠ j → pre i ≠ pre j) (h : List (ι × NoteOp V)) (_ : ∀ x ∈ h, OpOK E c isNone (U x.1) x.2)
    (_ : 2 * h.length < 256 ^ 5) (s0 : Store) (_ : s0.WF) (_ : ∀ i, NoPad s0 (pre i)) (i : ι),
    answersOK noteStart (callsOf i h) (answersOf i (playPads E c isNone pre h (fun _ => []) s0).1)

/-- C41, the part that holds: when no prefix with its underscore begins another with its underscore, any number of
notepads, their calls mixed in any way, each give the answers of a dictionary of their own; and closing one leaves the
others in place -/
theorem C41_prefixes_apart_partial {ι : Type} [DecidableEq ι] (E : Env) (c : Codec V) (isNone : V → Bool) (pre : ι → Str)
    (U : ι → Str → Prop) (hU : ∀ i, KeysOK E (pre i) (U i)) (hok : ∀ i, NamesOK E (indexName (pre i)))
    (hap : ∀ i j, i ≠ j → Apart (pre i) (pre j)) (h : List (ι × NoteOp V)) (hh : ∀ x ∈ h, OpOK E c isNone (U x.1) x.2)
    (hlen : 2 * h.length < 256 ^ 5) (s0 : Store) (w : s0.WF) (hno : ∀ i, NoPad s0 (pre i)) :
    (∀ i, answersOK noteStart (callsOf i h) (answersOf i (playPads E c isNone pre h (fun _ => []) s0).1)) ∧
    ∀ x, (∀ i, ¬ (pre i ++ ['_']) <+: x) → (playPads E c isNone pre h (fun _ => []) s0).2.2.content x = s0.content x := by
  obtain ⟨_, h1, h2⟩ := playPads_spec (c := c) (isNone := isNone) pre U hU hok hap h hh (fun _ => []) s0 w
    (fun _ => noteStart) 0 (fun i => ⟨rfl, rfl, hno i⟩) (by omega)
  exact ⟨fun i => (h1 i).1, fun x hx => (h2 x fun ⟨i, hi⟩ => hx i (touch_prefix hi)).2⟩

/-- different prefixes without underscores are apart -/
theorem apart_of_no_underscore {p q : Str} (hp : '_' ∉ p) (hq : '_' ∉ q) (h : p ≠ q) : Apart p q := by
  have key : ∀ p q : Str, '_' ∉ p → '_' ∉ q → (p ++ ['_']) <+: (q ++ ['_']) → p = q := by
    intro p
    induction p with
    | nil =>
      intro q _ hq h
      cases q with
      | nil => rfl
      | cons a t =>
        simp only [List.nil_append, List.cons_append, List.cons_prefix_cons] at h
        exact absurd (h.1 ▸ List.mem_cons_self) hq
    | cons a t ih =>
      intro q hp hq h
      cases q with
      | nil =>
        simp only [List.nil_append, List.cons_append, List.cons_prefix_cons] at h
        exact absurd (h.1 ▸ List.mem_cons_self) hp
      | cons b u =>
        simp only [List.cons_append, List.cons_prefix_cons] at h
        rw [h.1, ih u (fun hm => hp (List.mem_cons_of_mem _ hm)) (fun hm => hq (List.mem_cons_of_mem _ hm)) h.2]
  exact ⟨fun hh => h (key p q hp hq hh), fun hh => h (key q p hq hp hh).symm⟩

/-- two notepads; `false` has the prefix "a", `true` the prefix given -/
def twoPre (q : Str) : Bool → Str
  | false => "a".toList
  | true => q

def kBX : Key := .str "b_x".toList
def kX : Key := .str "x".toList

/-- each notepad sets one key, then the first reads its own back -/
def crossOps : List (Bool × NoteOp Nat) :=
  [(false, .create .fake), (true, .create .fake), (false, .set 0 kBX 2 true), (true, .set 0 kX 3 true), (false, .get 0 kBX)]

theorem cross_ok : ∀ x ∈ crossOps, OpOK labEnv demoCodec (fun _ => false) labKeys x.2 := by
  have hBX : labKeys kBX.text := ⟨by simp [kBX, Key.text], by rw [← List.isPrefixOf_iff_prefix]; decide⟩
  have hX : labKeys kX.text := ⟨by simp [kX, Key.text], by rw [← List.isPrefixOf_iff_prefix]; decide⟩
  intro o ho
  simp only [crossOps, List.mem_cons, List.not_mem_nil, or_false] at ho
  rcases ho with rfl | rfl | rfl | rfl | rfl <;> simp only [OpOK, LockMode.Runs] <;>
    first
      | exact ⟨rfl, hBX, _, labStable (by omega)⟩
      | exact ⟨rfl, hX, _, labStable (by omega)⟩
      | exact hBX

theorem labPreNames (q : Str) (i : Bool) : NamesOK labEnv (indexName (twoPre q i)) := labIndexOK _

/-- the last answer of `crossOps` -/
def crossLast (q : Str) : Option (Outcome Nat) :=
  match (playPads labEnv demoCodec (fun _ => false) (twoPre q) crossOps (fun _ => []) Store.empty).1 with
  | [_, _, _, _, (_, .value (.ok v))] => some (.ok v)
  | [_, _, _, _, (_, .value (.error e))] => some (.err e)
  | _ => none

theorem cross_bad : crossLast "a_b".toList = some (.ok 3) := by decide +kernel

/-- C41 is false of the code: `Notepad("a")["b_x"]` and `Notepad("a_b")["x"]` are the same block -/
theorem C41_full_false : ¬ C41_full := by
  intro hfull
  have h := hfull Nat Bool labEnv demoCodec (fun _ => false) (twoPre "a_b".toList) (fun _ => labKeys)
    (fun i => labKeysOK _) (labPreNames _) (by intro i j hij; cases i <;> cases j <;> simp_all [twoPre])
    crossOps cross_ok (by decide) Store.empty wf_empty (fun _ _ _ => rfl) false
  have hb := cross_bad
  unfold crossLast at hb
  generalize hrs : (playPads labEnv demoCodec (fun _ => false) (twoPre "a_b".toList) crossOps (fun _ => []) Store.empty).1
    = rs at h hb
  have hidx : rs.map Prod.fst = [false, true, false, true, false] := by rw [← hrs]; rfl
  split at hb
  · rename_i a b c' d i v
    simp only [List.map_cons, List.map_nil, List.cons.injEq, and_true] at hidx
    obtain ⟨a1, a2⟩ := a; obtain ⟨b1, b2⟩ := b; obtain ⟨c1, c2⟩ := c'; obtain ⟨d1, d2⟩ := d
    simp only at hidx
    obtain ⟨rfl, rfl, rfl, rfl, rfl⟩ := hidx
    injection hb with hb; injection hb with hb
    subst hb
    have : noteAnswer (⟨1, some (upd (fun _ => none) kBX.text (some 2))⟩ : NoteState Nat) (.get 0 kBX.text)
        (.value (.ok 3)) := h.2.2.1
    simp [noteAnswer, NoteState.has, NoteCall.client?, mapAnswer, upd] at this
  · simp at hb
  · simp at hb

example : (∀ i, answersOK noteStart (callsOf i crossOps)
      (answersOf i (playPads labEnv demoCodec (fun _ => false) (twoPre "c".toList) crossOps (fun _ => []) Store.empty).1)) ∧
    ∀ x, (∀ i, ¬ (twoPre "c".toList i ++ ['_']) <+: x) →
      (playPads labEnv demoCodec (fun _ => false) (twoPre "c".toList) crossOps (fun _ => []) Store.empty).2.2.content x =
        Store.empty.content x :=
  C41_prefixes_apart_partial labEnv demoCodec (fun _ => false) (twoPre "c".toList) (fun _ => labKeys)
    (fun i => labKeysOK _) (labPreNames _)
    (by
      intro i j hij
      have h1 : Apart "a".toList "c".toList := apart_of_no_underscore (by decide) (by decide) (by decide)
      cases i <;> cases j
      · exact absurd rfl hij
      · exact h1
      · exact ⟨h1.2, h1.1⟩
      · exact absurd rfl hij)
    crossOps cross_ok (by decide) Store.empty wf_empty (fun _ _ _ => rfl)

/-! ## C42 -/

/-- C42: once a notepad has been closed, after any history of its clients, exactly the blocks that existed before it was
created exist, with their content -/
theorem C42_close_releases (E : Env) (c : Codec V) (isNone : V → Bool) (pre : Str) (U : Str → Prop)
    (hU : KeysOK E pre U) (hok : NamesOK E (indexName pre)) (ops : List (NoteOp V))
    (hops : ∀ o ∈ ops, OpOK E c isNone U o) (hlen : 2 * ops.length < 256 ^ 5) (s0 : Store) (w : s0.WF)
    (hno : NoPad s0 pre) (hend : (noteEnd noteStart (ops.map NoteOp.call)).map = none) (x : Str) :
    (padHistory E c isNone pre ops s0).2.2.content x = s0.content x := by
  obtain ⟨_, _, h3, h4⟩ := padHistory_spec E c isNone pre U hU hok ops hops hlen s0 w hno
  have h2 := h3.2
  rw [hend] at h2
  by_cases hx : padTouch pre x
  · rw [h2.2 x hx, hno x hx]
  · exact (h4 x hx).2

/-- closing ends the notepad -/
theorem end_of_close (st : NoteState V) (cs : List (NoteCall V)) (n : Nat) (h : n < (noteEnd st cs).clients) :
    (noteEnd st (cs ++ [.close n])).map = none := by
  induction cs generalizing st with
  | nil =>
    have hn : n < st.clients := h
    simp only [List.nil_append, noteEnd, noteNext, NoteState.has, NoteCall.client?, decide_eq_true hn, if_true]
    cases hm : st.map with
    | none => simp only [hm]
    | some m => simp only [mapNext]
  | cons x t ih => exact ih _ h

example (x : Str) : (padHistory labEnv demoCodec (fun _ => false) np (demoNotes.take 12) Store.empty).2.2.content x =
    Store.empty.content x :=
  C42_close_releases labEnv demoCodec (fun _ => false) np labKeys (labKeysOK np) (labIndexOK np) (demoNotes.take 12)
    (fun o ho => demoNotes_ok o (List.mem_of_mem_take ho)) (by decide) Store.empty wf_empty (fun _ _ => rfl)
    (end_of_close noteStart ((demoNotes.take 11).map NoteOp.call) 1 (by decide)) x

/-! ## C43 -/

/-- C43, in full: a `set` whose value cannot be stored raises and leaves the keys and the values as they were -/
def C43_full : Prop :=
  ∀ (V : Type) (E : Env) (c : Codec V) (isNone : V → Bool) (pre : Str) (U : Str → Prop) (_ : KeysOK E pre U)
    (_ : NamesOK E (indexName pre)) (s : Store) (ps : List Pad) (m : Str → Option V)
    (_ : InUse E c isNone pre U s ps m) (p : Pad) (_ : p ∈ ps) (key : Key) (_ : key.hashed E = E.utf8 key.text)
    (_ : U key.text) (v : V) (e : PyErr) (_ : Unstorable c v e) (eo : Bool),
    ∃ e' s', (padSet E c p key v eo).run E s = (.err e', s') ∧
      (∀ q ∈ ps, ((padKeys E q).run E s').1 = ((padKeys E q).run E s).1) ∧
      ∀ q ∈ ps, ∀ k, U k.text → ((padGet c isNone q k).run E s').1 = ((padGet c isNone q k).run E s).1

/-- C43, the part that holds: all values read as before (and the key still has none, if it had none); the listing of keys
is as before if the key was live and otherwise has the key added at its end -/
theorem C43_failed_set_partial (E : Env) (c : Codec V) (isNone : V → Bool) (pre : Str) (U : Str → Prop)
    (hU : KeysOK E pre U) (hok : NamesOK E (indexName pre)) (s : Store) (ps : List Pad) (m : Str → Option V)
    (h : InUse E c isNone pre U s ps m) (p : Pad) (hp : p ∈ ps) (key : Key) (hk : key.hashed E = E.utf8 key.text)
    (hUk : U key.text) (v : V) (e : PyErr) (hv : Unstorable c v e) (eo : Bool) :
    ∃ e' s', (padSet E c p key v eo).run E s = (.err e', s') ∧
      (e ≠ .fileExists → ¬ (eo = false ∧ m key.text ≠ none) → e' = e) ∧
      (∀ q ∈ ps, ∃ l, (padKeys E q).run E s = (.ok (some l), s) ∧
        (padKeys E q).run E s' = (.ok (some (if m key.text = none then l ++ [key.text] else l)), s')) ∧
      ∀ q ∈ ps, ∀ k, U k.text → ((padGet c isNone q k).run E s').1 = ((padGet c isNone q k).run E s).1 := by
  obtain ⟨w, ix, keys, fl, hrep, hfl, hcl⟩ := h.rep hU hok
  obtain ⟨hpp, hpi, hm⟩ := hcl p hp
  obtain ⟨s', e', e1, he, w', h', hs⟩ := run_padSet_bad hU hok w hrep hfl hpp hpi hm hk hUk hv eo
  have hok' : NamesOK E ix.name := by rw [hrep.name]; exact hok
  have hlist : (ixAdd keys key.text eo).2 = if m key.text = none then keys ++ [key.text] else keys := by
    by_cases hmk : m key.text = none
    · have : key.text ∉ keys := fun hc => (hrep.live _).1 hc hmk
      rw [if_pos hmk, ixAdd, position_none.2 this]
    · rw [if_neg hmk, ixAdd_of_mem ((hrep.live _).2 hmk)]
  refine ⟨e', s', e1, he, fun q hq => ⟨keys, ?_, ?_⟩, fun q hq k hk => ?_⟩
  · simp only [padKeys, (hcl q hq).2.1]; rw [run_bind, run_indexUpdate hrep.rep hok']; rfl
  · simp only [padKeys, (hcl q hq).2.1]; rw [run_bind, run_indexUpdate h' hok', hlist]; rfl
  · have hokq : E.okName (padAddr q.pre k.text) = true := by rw [(hcl q hq).1]; exact hU.ok _ hk
    rw [run_padGet hokq, run_padGet hokq, (hcl q hq).1, (hs _ (pad_not_tag (hU.free _ hk))).2]

/-- C43 is false of the code: after a failed first `set`, the key is listed -/
theorem C43_full_false : ¬ C43_full := by
  intro hfull
  have hC := labKey_lab kC (by simp)
  obtain ⟨e1, s1, r1, h1, _⟩ := hfull Nat labEnv demoCodec (fun _ => false) np labKeys (labKeysOK np) (labIndexOK np) _ _ _
    two_inUse padOne (by simp) kC hC.1 hC.2 0 .typeError (Or.inl rfl) true
  obtain ⟨e2, s2, r2, _, h2, _⟩ := C43_failed_set_partial labEnv demoCodec (fun _ => false) np labKeys (labKeysOK np)
    (labIndexOK np) _ _ _ two_inUse padOne (by simp) kC hC.1 hC.2 0 .typeError (Or.inl rfl) true
  rw [r1] at r2
  injection r2 with _ r2
  subst r2
  obtain ⟨l, hl1, hl2⟩ := h2 padOne (by simp)
  have h3 := h1 padOne (by simp)
  rw [hl1, hl2, if_pos (show twoMap kC.text = none from rfl)] at h3
  simp at h3

/-! ## C78 -/

/-- C78: after a failed `set` of a new key, the key is listed but for every client `del` raises
`KeyError` and changes nothing -/
theorem C78_phantom_key (E : Env) (c : Codec V) (isNone : V → Bool) (pre : Str) (U : Str → Prop)
    (hU : KeysOK E pre U) (hok : NamesOK E (indexName pre)) (s : Store) (ps : List Pad) (m : Str → Option V)
    (h : InUse E c isNone pre U s ps m) (p : Pad) (hp : p ∈ ps) (key : Key) (hk : key.hashed E = E.utf8 key.text)
    (hUk : U key.text) (hmk : m key.text = none) (v : V) (e : PyErr) (hv : Unstorable c v e) (eo : Bool) :
    ∃ l s', ((padSet E c p key v eo).run E s).2 = s' ∧
      (∀ q ∈ ps, (padKeys E q).run E s' = (.ok (some (l ++ [key.text])), s') ∧
        (padDel E q key).run E s' = (.err .keyError, s')) := by
  obtain ⟨w, ix, keys, fl, hrep, hfl, hcl⟩ := h.rep hU hok
  obtain ⟨hpp, hpi, hm⟩ := hcl p hp
  obtain ⟨s', e', e1, he, w', h', hs⟩ := run_padSet_bad hU hok w hrep hfl hpp hpi hm hk hUk hv eo
  have hok' : NamesOK E ix.name := by rw [hrep.name]; exact hok
  have hfree := hU.free _ hUk
  have hlist : (ixAdd keys key.text eo).2 = keys ++ [key.text] := by
    have : key.text ∉ keys := fun hc => (hrep.live _).1 hc hmk
    rw [ixAdd, position_none.2 this]
  refine ⟨keys, s', by rw [e1], fun q hq => ⟨?_, ?_⟩⟩
  · simp only [padKeys, (hcl q hq).2.1]; rw [run_bind, run_indexUpdate h' hok', hlist]; rfl
  · have hn : s'.content (padAddr q.pre key.text) = none := by
      rw [(hcl q hq).1, (hs _ (pad_not_tag hfree)).2]; exact hrep.noval _ hfree hmk
    unfold padDel
    rw [not_reservedExact hfree]
    simp only [Bool.false_eq_true, if_false]
    rw [run_bind, run_attempt, run_bind, run_deleteBlock_none (by
      rw [(hcl q hq).1]; exact hU.ok _ hUk) (content_none.1 hn)]
    rfl

/-- what `close` of the notepad gives after a failed `set` -/
def closeAfterFail : Outcome Unit × Bool × Bool :=
  let s1 := ((padSet labEnv demoCodec padOne kC 0 true).run labEnv twoStore).2
  let r := (padClose labEnv padOne).run labEnv s1
  (r.1, (r.2.content (indexName np)).isSome, (r.2.content (padAddr np kA.text)).isSome)

/-- C78: `close` then raises `KeyError` too, and leaves the index in memory -/
theorem C78_close_raises : closeAfterFail = (.err .keyError, true, false) := by decide +kernel

example : ∃ l s', ((padSet labEnv demoCodec padOne kC 0 true).run labEnv twoStore).2 = s' ∧
    ∀ q ∈ [padOne, padTwo], (padKeys labEnv q).run labEnv s' = (.ok (some (l ++ [kC.text])), s') ∧
      (padDel labEnv q kC).run labEnv s' = (.err .keyError, s') :=
  C78_phantom_key labEnv demoCodec (fun _ => false) np labKeys (labKeysOK np) (labIndexOK np) _ _ _ two_inUse padOne
    (by simp) kC (labKey_lab kC (by simp)).1 (labKey_lab kC (by simp)).2 rfl 0 .typeError (Or.inl rfl) true

/-! ## C44 -/

/-- C44, in full: no `set` or `del` with a string key loses another key from the listing -/
def C44_full : Prop :=
  ∀ (V : Type) (E : Env) (c : Codec V) (isNone : V → Bool) (pre : Str) (U : Str → Prop) (_ : KeysOK E pre U)
    (_ : NamesOK E (indexName pre)) (s : Store) (ps : List Pad) (m : Str → Option V)
    (_ : InUse E c isNone pre U s ps m) (p : Pad) (_ : p ∈ ps) (t : Str) (v : V) (eo : Bool) (s' : Store)
    (_ : s' = ((padSet E c p (.str t) v eo).run E s).2 ∨ s' = ((padDel E p (.str t)).run E s).2),
    ∃ l, ((padKeys E p).run E s').1 = .ok (some l) ∧ ∀ k, m k ≠ none → k ≠ t → k ∈ l

/-- C44: `set` with a string key beginning with "index" raises `KeyError` and changes nothing, and so does `del` of the
keys "index" and "index_lock" -/
theorem C44_reserved_partial (E : Env) (c : Codec V) (p : Pad) (t : Str) (v : V) (eo : Bool) (s : Store) :
    (indexWord <+: t → (padSet E c p (.str t) v eo).run E s = (.err .keyError, s)) ∧
    (t = indexWord ∨ t = "index_lock".toList → (padDel E p (.str t)).run E s = (.err .keyError, s)) := by
  constructor
  · intro h
    have : reserved (.str t) = true := List.isPrefixOf_iff_prefix.2 h
    rw [padSet, this]; rfl
  · intro h
    have : reservedExact (.str t) = true := by
      rcases h with rfl | rfl <;> simp [reservedExact]
    rw [padDel, this]; rfl

/-- C44, the part that holds: a `set` of a storable value or a `del`, with a key in play (so one that does not begin with
"index"), loses no other key from the listing -/
theorem C44_no_loss_partial (E : Env) (c : Codec V) (isNone : V → Bool) (pre : Str) (U : Str → Prop)
    (hU : KeysOK E pre U) (hok : NamesOK E (indexName pre)) (s : Store) (ps : List Pad) (m : Str → Option V)
    (h : InUse E c isNone pre U s ps m) (p : Pad) (hp : p ∈ ps) (t : Str) (ht : U t) (v : V) (b : Bytes)
    (hv : Stable c isNone v b) (eo : Bool) (s' : Store)
    (hs' : s' = ((padSet E c p (.str t) v eo).run E s).2 ∨ s' = ((padDel E p (.str t)).run E s).2) :
    ∃ l, ((padKeys E p).run E s').1 = .ok (some l) ∧ ∀ k, k ≠ t → (k ∈ l ↔ m k ≠ none) := by
  obtain ⟨w, ix, keys, fl, hrep, hfl, hcl⟩ := h.rep hU hok
  obtain ⟨hpp, hpi, hm⟩ := hcl p hp
  have hok' : NamesOK E ix.name := by rw [hrep.name]; exact hok
  have fin : ∀ {s1 m1 keys1 fl1}, PadRep E c isNone pre U s1 ix m1 keys1 fl1 → (∀ k, k ≠ t → m1 k = m k) →
      ∃ l, ((padKeys E p).run E s1).1 = .ok (some l) ∧ ∀ k, k ≠ t → (k ∈ l ↔ m k ≠ none) := by
    intro s1 m1 keys1 fl1 h1 hm1
    refine ⟨keys1, ?_, fun k hk => by rw [h1.live, hm1 k hk]⟩
    simp only [padKeys, hpi]; rw [run_bind, run_indexUpdate h1.rep hok']; rfl
  rcases hs' with rfl | rfl
  · obtain ⟨s1, keys1, fl1, e1, w1, h1, _, _⟩ := run_padSet hU hok w hrep hfl hpp hpi hm (key := .str t) rfl ht hv eo
    rw [e1]
    refine fin h1 fun k hk => ?_
    split
    · rfl
    · exact if_neg hk
  · obtain ⟨s1, keys1, fl1, e1, w1, h1, _, _⟩ := run_padDel hU hok w hrep hfl hpp hpi hm (key := .str t) rfl ht
    rw [e1]
    exact fin h1 fun k hk => if_neg hk

/-- the listing after `del np["index_key_0"]` -/
theorem C44_damage : ((padKeys labEnv padOne).run labEnv
    ((padDel labEnv padOne (.str "index_key_0".toList)).run labEnv twoStore).2).1 = .ok (some [kB.text]) := by
  decide +kernel

/-- C44 is false of the code: after `del np["index_key_0"]` the live key "a" is no longer listed -/
theorem C44_full_false : ¬ C44_full := by
  intro h
  obtain ⟨l, h1, h2⟩ := h Nat labEnv demoCodec (fun _ => false) np labKeys (labKeysOK np) (labIndexOK np) _ _ _ two_inUse
    padOne (by simp) "index_key_0".toList 0 true _ (Or.inr rfl)
  rw [C44_damage] at h1
  injection h1 with h1
  injection h1 with h1
  subst h1
  have h3 := h2 kA.text (by rw [show twoMap kA.text = some 2 from rfl]; simp) (by decide)
  revert h3
  decide

example : ∃ l, ((padKeys labEnv padTwo).run labEnv ((padDel labEnv padTwo kA).run labEnv twoStore).2).1 = .ok (some l) ∧
    ∀ k, k ≠ kA.text → (k ∈ l ↔ twoMap k ≠ none) :=
  C44_no_loss_partial labEnv demoCodec (fun _ => false) np labKeys (labKeysOK np) (labIndexOK np) _ _ _ two_inUse
    padTwo (by simp) kA.text (labKey_lab kA (by simp)).2 2 _ (labStable (by omega)) true _ (Or.inr rfl)

/-! ## C48 -/

/-- C48, in full: whenever the setting process is killed, other keys read as before, and the key being set reads its old
or its new value -/
def C48_full : Prop :=
  ∀ (V : Type) (E : Env) (c : Codec V) (isNone : V → Bool) (pre : Str) (U : Str → Prop) (_ : KeysOK E pre U)
    (_ : NamesOK E (indexName pre)) (s : Store) (ps : List Pad) (m : Str → Option V)
    (_ : InUse E c isNone pre U s ps m) (p : Pad) (_ : p ∈ ps) (key : Key) (_ : U key.text) (v : V) (b : Bytes)
    (_ : Stable c isNone v b) (eo : Bool) (n : Nat) (q : Pad) (_ : q ∈ ps) (k : Key) (_ : U k.text),
    let now := ((padGet c isNone q k).run E ((padSet E c p key v eo).crash E n s)).1
    now = ((padGet c isNone q k).run E s).1 ∨ (k.text = key.text ∧ now = .ok v)

/-- C48, the part that holds: other keys read as before; the key being set reads its old or its new value, or is missing,
or its value is decoded from a block of zeros as long as the encoding of the new value. Any key not beginning with
"index" may be set, to any value. -/
theorem C48_crash_in_set_partial (E : Env) (c : Codec V) (isNone : V → Bool) (pre : Str) (U : Str → Prop)
    (hU : KeysOK E pre U) (hok : NamesOK E (indexName pre)) (s : Store) (ps : List Pad) (m : Str → Option V)
    (h : InUse E c isNone pre U s ps m) (p : Pad) (hp : p ∈ ps) (key : Key) (hk : ¬ indexWord <+: key.text) (v : V)
    (eo : Bool) (n : Nat) (q : Pad) (hq : q ∈ ps) (k : Key) (hUk : U k.text) :
    ((padGet c isNone q k).run E ((padSet E c p key v eo).crash E n s)).1 = ((padGet c isNone q k).run E s).1 ∨
    (k.text = key.text ∧ ∃ b, c.encode v = .ok b ∧
      ∃ o ∈ [none, some (List.replicate b.length 0), some b],
        ((padGet c isNone q k).run E ((padSet E c p key v eo).crash E n s)).1 = readAs c isNone o) := by
  obtain ⟨w, ix, keys, fl, hrep, hfl, hcl⟩ := h.rep hU hok
  obtain ⟨hpp, hpi, _⟩ := hcl p hp
  have hA := always_crash (always_padSet hU hok w hrep hfl hpp hpi hk v eo) n
  have hokq : E.okName (padAddr q.pre k.text) = true := by rw [(hcl q hq).1]; exact hU.ok _ hUk
  rw [run_padGet hokq, run_padGet hokq, (hcl q hq).1]
  by_cases hkk : k.text = key.text
  · rw [hkk]
    rcases hA.2 with hc | ⟨b, hb, hc⟩
    · left; rw [hc]
    · refine Or.inr ⟨rfl, b, hb, ?_⟩
      rcases hc with hc | hc | hc
      · exact ⟨none, by simp, by rw [hc]⟩
      · exact ⟨some (List.replicate b.length 0), by simp, by rw [hc]⟩
      · exact ⟨some b, by simp, by rw [hc]⟩
  · left
    rw [(hA.1 _ _).2]
    rintro (hx | hx)
    · exact pad_not_tag (hU.free _ hUk) hx
    · exact hkk (pad_inj hx)

example : ((padGet demoCodec (fun _ => false) padTwo kB).run labEnv
      ((padSet labEnv demoCodec padOne kA 4 true).crash labEnv 7 twoStore)).1 = .ok 3 := by
  rcases C48_crash_in_set_partial labEnv demoCodec (fun _ => false) np labKeys (labKeysOK np) (labIndexOK np) _ _ _
    two_inUse padOne (by simp) kA (labKey_lab kA (by simp)).2.2 4 true 7 padTwo (by simp) kB (labKey_lab kB (by simp)).2
    with h | ⟨h, _⟩
  · rw [h, two_inUse.get (labKeysOK np) (labIndexOK np) (by simp) (labKey_lab kB (by simp)).2]; rfl
  · simp [kA, kB, Key.text] at h

/-- what the overwritten key reads as, when the overwriting process is killed after `n` primitive operations -/
def crashRead (n : Nat) : Outcome Nat :=
  ((padGet demoCodec (fun _ => false) padTwo kA).run labEnv
    ((padSet labEnv demoCodec padOne kA 4 true).crash labEnv n twoStore)).1

theorem C48_crash_reads : (crashRead 0, crashRead 6, crashRead 7, crashRead 8) = (.ok 2, .err .fileNotFound, .ok 0, .ok 4) := by
  decide +kernel

/-- C48 is false of the code: killed between unlinking the old block and creating the new one, the key is missing -/
theorem C48_full_false : ¬ C48_full := by
  intro h
  have hA := labKey_lab kA (by simp)
  have h1 := h Nat labEnv demoCodec (fun _ => false) np labKeys (labKeysOK np) (labIndexOK np) _ _ _ two_inUse
    padOne (by simp) kA hA.2 4 _ (labStable (by omega)) true 6 padTwo (by simp) kA hA.2
  have h2 := C48_crash_reads
  simp only [Prod.mk.injEq] at h2
  have h3 : ((padGet demoCodec (fun _ => false) padTwo kA).run labEnv
    ((padSet labEnv demoCodec padOne kA 4 true).crash labEnv 6 twoStore)).1 = .err .fileNotFound := h2.2.1
  simp only [h3] at h1
  rw [two_inUse.get (labKeysOK np) (labIndexOK np) (by simp) hA.2] at h1
  rcases h1 with h1 | ⟨_, h1⟩
  · cases h1
  · cases h1

end Verif.Props
