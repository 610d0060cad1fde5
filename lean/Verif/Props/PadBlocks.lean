import Verif.Lemmas.PadBlocks
import Verif.Props.Views
import Verif.Props.Notepad
/-!
# C158, C159: the blocks that `fetch=False` gives
-/
namespace Verif.Props
open Verif Verif.Model Verif.Lemmas Verif.Spec
variable {V : Type}

/-! ## C158 -/

/-- `ps` are the client objects in use of a notepad in the state `st`, after a history of calls which found no block of the
notepad and left the memory `s`; there may be `n` more calls -/
def NoteReady (E : Env) (c : Codec V) (isNone : V → Bool) (pre : Str) (U : Str → Prop) (n : Nat) (s : Store) (ps : List Pad)
    (st : NoteState V) : Prop :=
  ∃ (ops : List (NoteOp V)) (s0 : Store), (∀ o ∈ ops, OpOK E c isNone U o) ∧ 2 * (ops.length + n) + 2 < 256 ^ 5 ∧
    s0.WF ∧ NoPad s0 pre ∧ (playNote E c isNone pre ops [] s0).2.2 = s ∧ (playNote E c isNone pre ops [] s0).2.1 = ps ∧
    noteEnd noteStart (ops.map NoteOp.call) = st

section
variable (E : Env) (c : Codec V) (isNone : V → Bool) (pre : Str) (U : Str → Prop) (hU : KeysOK E pre U)
  (hok : NamesOK E (indexName pre)) (s : Store) (ps : List Pad) (st : NoteState V)

theorem NoteReady.rep {E : Env} {c : Codec V} {isNone : V → Bool} {pre : Str} {U : Str → Prop} {n : Nat} {s : Store}
    {ps : List Pad} {st : NoteState V} (h : NoteReady E c isNone pre U n s ps st) (hU : KeysOK E pre U) (hok : NamesOK E (indexName pre)) :
    s.WF ∧ ∃ t, StRep E c isNone pre U s ps st t ∧ 2 * (t + n) + 2 < 256 ^ 5 := by
  obtain ⟨ops, s0, hops, hlen, w, hno, rfl, rfl, rfl⟩ := h
  obtain ⟨_, w', h⟩ := playNote_spec hU hok ops hops w (st := noteStart) (t := 0) ⟨rfl, rfl, hno⟩ (by omega)
  exact ⟨w', _, h, by omega⟩

/-- what has been got, if anything -/
theorem gotBlock {E : Env} {c : Codec V} {isNone : V → Bool} {pre : Str} {U : Str → Prop} {n : Nat} {s : Store}
    {ps : List Pad} {st : NoteState V} (h : NoteReady E c isNone pre U n s ps st) (hU : KeysOK E pre U) (hok : NamesOK E (indexName pre))
    {p : Pad} (hp : p ∈ ps) {key : Key} (hUk : U key.text) {i : Nat} {s1 : Store}
    (hv : (padBlock p key).run E s = (.ok i, s1)) :
    s1 = s ∧ ∃ m v e, st.map = some m ∧ m key.text = some v ∧ Stable c isNone v e ∧ HoldsBlock pre key.text i ⟨true, e⟩ s := by
  obtain ⟨w, t, hr, _⟩ := h.rep hU hok
  have h2 := hr.2
  cases hm : st.map with
  | none =>
    rw [hm] at h2
    rw [h2.1] at hp
    cases hp
  | some m =>
    rw [hm] at h2
    obtain ⟨ix, keys, fl, hrep, _, hcl⟩ := h2
    have hpre := (hcl p hp).1
    cases hmk : m key.text with
    | none =>
      have hn := content_none.1 (hrep.noval _ (hU.free _ hUk) hmk)
      rw [padBlock, hpre, run_attach_none (hU.ok _ hUk) hn] at hv
      cases hv
    | some v =>
      obtain ⟨e, hc, hst⟩ := hrep.val _ _ hmk
      obtain ⟨j, hj, hjs⟩ := names_of_content hc
      rw [padBlock, hpre, run_attach (hU.ok _ hUk) hj] at hv
      cases hv
      exact ⟨rfl, m, v, e, rfl, hmk, hst, ⟨w.lt hj, hjs, fun x => ⟨fun hx => ⟨rfl, w.inj hx hj⟩, fun hx => by rw [hx.2]; exact hj⟩⟩⟩

include hU hok

/-- C158: `np.get(key, fetch=False)` gives a block with the encoding of the value last set under the key; for an absent key it
raises `FileNotFoundError`, whatever the default. It changes nothing. -/
theorem C158_block_now (h : NoteReady E c isNone pre U 0 s ps st) (p : Pad) (hp : p ∈ ps) (key : Key) (hUk : U key.text) :
    ∃ m, st.map = some m ∧
      match m key.text with
      | some v => ∃ i, (padBlockD p key).run E s = (.ok (some i), s) ∧ c.encode v = .ok (s.segs i) ∧ c.decode (s.segs i) = .ok v
      | none => (padBlockD p key).run E s = (.err .fileNotFound, s) := by
  obtain ⟨w, t, hr, _⟩ := h.rep hU hok
  have h2 := hr.2
  cases hm : st.map with
  | none =>
    rw [hm] at h2
    rw [h2.1] at hp
    cases hp
  | some m =>
    rw [hm] at h2
    obtain ⟨ix, keys, fl, hrep, _, hcl⟩ := h2
    have hpre := (hcl p hp).1
    refine ⟨m, rfl, ?_⟩
    cases hmk : m key.text with
    | none =>
      have hn := content_none.1 (hrep.noval _ (hU.free _ hUk) hmk)
      simp only
      rw [padBlockD, run_bind, run_attempt, padBlock, hpre, run_attach_none (hU.ok _ hUk) hn]
      rfl
    | some v =>
      obtain ⟨e, hc, hst⟩ := hrep.val _ _ hmk
      obtain ⟨j, hj, hjs⟩ := names_of_content hc
      refine ⟨j, ?_, by rw [hjs]; exact hst.1, by rw [hjs]; exact hst.2.2.1⟩
      rw [padBlockD, run_bind, run_attempt, padBlock, hpre, run_attach (hU.ok _ hUk) hj]
      rfl

/-- C158: the block never changes through the notepad: whatever calls are made afterwards, by any clients (the key set again, deleted,
everything closed and made anew), the block keeps the bytes it had. -/
theorem C158_snapshot (ops : List (NoteOp V)) (h : NoteReady E c isNone pre U ops.length s ps st) (p : Pad) (hp : p ∈ ps) (key : Key)
    (hUk : U key.text) (i : Nat) (s1 : Store) (hv : (padBlock p key).run E s = (.ok i, s1)) (hops : ∀ o ∈ ops, OpOK E c isNone U o) :
    (playNote E c isNone pre ops ps s1).2.2.segs i = s1.segs i := by
  obtain ⟨rfl, m, v, e, hm, hmk, hst, hh⟩ := gotBlock h hU hok hp hUk hv
  obtain ⟨w, t, hr, ht⟩ := h.rep hU hok
  obtain ⟨b', hb, _, h'⟩ := playNote_block hU hok hUk ops hops w hr ht hh
  rw [h'.bytes, hb, hh.bytes]

/-- C158: while the key keeps the block (it has not been set again, deleted, or everything cleared or closed), writing the encoding of
another value into the block, which must have the same length, is setting the key: all later answers, to any client, are those of a
dictionary with the other value. An encoding of another length raises `ValueError`, and nothing changes. -/
theorem C158_write_sets (ops : List (NoteOp V)) (n : Nat) (h : NoteReady E c isNone pre U (ops.length + n) s ps st) (p : Pad) (hp : p ∈ ps)
    (key : Key) (hUk : U key.text) (i : Nat) (s1 : Store) (hv : (padBlock p key).run E s = (.ok i, s1))
    (hops : ∀ o ∈ ops, OpOK E c isNone U o) (hkeep : ¬ lost key.text st (ops.map NoteOp.call)) (v' : V) (e' : Bytes)
    (hst' : Stable c isNone v' e') :
    let s2 := (playNote E c isNone pre ops ps s1).2.2
    let ps2 := (playNote E c isNone pre ops ps s1).2.1
    let st2 := noteEnd st (ops.map NoteOp.call)
    if e'.length = (s1.segs i).length then
      ∃ s3 m, (blockWrite i e').run E s2 = (.ok (), s3) ∧ st2.map = some m ∧
        ∀ ops' : List (NoteOp V), ops'.length ≤ n → (∀ o ∈ ops', OpOK E c isNone U o) →
          answersOK ⟨st2.clients, some (upd m key.text (some v'))⟩ (ops'.map NoteOp.call) (playNote E c isNone pre ops' ps2 s3).1
    else (blockWrite i e').run E s2 = (.err .valueError, s2) := by
  obtain ⟨rfl, m, v, e, hm, hmk, hst, hh⟩ := gotBlock h hU hok hp hUk hv
  obtain ⟨w, t, hr, ht⟩ := h.rep hU hok
  obtain ⟨b', hb, hheld, h'⟩ := playNote_block hU hok hUk ops hops w hr (by omega) hh
  obtain ⟨_, w2, hr2⟩ := playNote_spec hU hok ops hops w hr (by omega)
  have hn := (h'.name _).2 ⟨hheld.2 ⟨rfl, hkeep⟩, rfl⟩
  simp only
  split
  · rename_i hl
    have hl2 : e'.length = ((playNote E c isNone pre ops ps s1).2.2.segs i).length := by rw [hl, h'.bytes, hb, hh.bytes]
    have h2 := hr2.2
    cases hm2 : (noteEnd st (ops.map NoteOp.call)).map with
    | none =>
      rw [hm2] at h2
      have := content_none.1 (h2.2 _ (Or.inr ⟨key.text, hU.free _ hUk, rfl⟩))
      rw [hn] at this
      cases this
    | some m2 =>
      rw [hm2] at h2
      obtain ⟨ix, keys, fl, hrep, hfl, hcl⟩ := h2
      obtain ⟨v2, hmk2⟩ : ∃ v2, m2 key.text = some v2 := by
        cases hmk2 : m2 key.text with
        | none =>
          have := content_none.1 (hrep.noval _ (hU.free _ hUk) hmk2)
          rw [hn] at this
          cases this
        | some v2 => exact ⟨v2, rfl⟩
      have ef := eff_wrote w2 hn e'
      refine ⟨_, m2, run_write hl2, rfl, fun ops' hlen hops' => ?_⟩
      exact (playNote_spec hU hok ops' hops' ef.wf (st := ⟨(noteEnd st (ops.map NoteOp.call)).clients, some (upd m2 key.text (some v'))⟩)
        (t := t + ops.length) ⟨hr2.1, ix, keys, fl, hrep.poke hU hUk hmk2 hst' ef, hfl, hcl⟩ (by omega)).1
  · rename_i hl
    exact run_write_bad (by rw [h'.bytes, hb, ← hh.bytes]; exact hl)

/-- C158: once the key has lost the block, writing into it changes nothing that can be found under a name. -/
theorem C158_stale_write (ops : List (NoteOp V)) (h : NoteReady E c isNone pre U ops.length s ps st) (p : Pad) (hp : p ∈ ps)
    (key : Key) (hUk : U key.text) (i : Nat) (s1 : Store) (hv : (padBlock p key).run E s = (.ok i, s1))
    (hops : ∀ o ∈ ops, OpOK E c isNone U o) (hlost : lost key.text st (ops.map NoteOp.call)) (data : Bytes) :
    ((blockWrite i data).run E (playNote E c isNone pre ops ps s1).2.2).2.names = (playNote E c isNone pre ops ps s1).2.2.names ∧
    ((blockWrite i data).run E (playNote E c isNone pre ops ps s1).2.2).2.content = (playNote E c isNone pre ops ps s1).2.2.content := by
  obtain ⟨rfl, m, v, e, hm, hmk, hst, hh⟩ := gotBlock h hU hok hp hUk hv
  obtain ⟨w, t, hr, ht⟩ := h.rep hU hok
  obtain ⟨b', hb, hheld, h'⟩ := playNote_block hU hok hUk ops hops w hr ht hh
  have hoff : ∀ x, (playNote E c isNone pre ops ps s1).2.2.names x ≠ some i := fun x hx =>
    (hheld.1 ((h'.name x).1 hx).1).2 hlost
  unfold blockWrite
  by_cases hl : data.length = ((playNote E c isNone pre ops ps s1).2.2.segs i).length
  · rw [run_write hl]
    refine ⟨rfl, ?_⟩
    funext y
    simp only [Store.content, Store.wrote]
    cases hy : (playNote E c isNone pre ops ps s1).2.2.names y with
    | none => simp
    | some j =>
      have hne : j ≠ i := fun he => hoff y (he ▸ hy)
      simp [hne]
  · rw [run_write_bad hl]
    exact ⟨rfl, rfl⟩

end

/-! ### A notepad of one-byte values: `a` is 2, `b` is 3; two clients -/

/-- one byte -/
def cellCodec : Codec Nat where
  encode := fun v => .ok [v]
  decode := fun b => match b with
    | [x] => .ok x
    | _ => .error .valueError

theorem cellStable (v : Nat) : Stable cellCodec (fun _ => false) v [v] := ⟨rfl, by simp, rfl, rfl⟩

def cellStore : Store := (playNote labEnv cellCodec (fun _ => false) np twoNotes [] Store.empty).2.2

theorem cell_set_ok (n : Nat) (k : Key) (hk : k ∈ [kA, kB, kC]) (v : Nat) (eo : Bool) :
    OpOK labEnv cellCodec (fun _ => false) labKeys (.set n k v eo) :=
  ⟨(labKey_lab k hk).1, (labKey_lab k hk).2, _, cellStable v⟩

theorem cellNotes_ok : ∀ o ∈ twoNotes, OpOK labEnv cellCodec (fun _ => false) labKeys o := by
  intro o ho
  simp only [twoNotes, List.mem_cons, List.not_mem_nil, or_false] at ho
  rcases ho with rfl | rfl | rfl | rfl
  · trivial
  · exact cell_set_ok _ _ (by simp) _ _
  · exact cell_set_ok _ _ (by simp) _ _
  · show 0 < 2; omega

theorem cell_ready (n : Nat) (hn : n < 1000) :
    NoteReady labEnv cellCodec (fun _ => false) np labKeys n cellStore [padOne, padTwo] ⟨2, some twoMap⟩ :=
  ⟨twoNotes, Store.empty, cellNotes_ok, by
    have : twoNotes.length = 4 := rfl
    have : (256 : Nat) ^ 5 > 10000 := by decide
    omega, wf_empty, fun _ _ => rfl, rfl, rfl, rfl⟩

/-- the block of `a` -/
def cellA : Nat := 3

theorem cellA_got : (padBlock padOne kA).run labEnv cellStore = (.ok cellA, cellStore) := by
  have h1 : ((padBlock padOne kA).run labEnv cellStore).1 = .ok cellA := by decide +kernel
  obtain ⟨e, _⟩ := gotBlock (cell_ready 0 (by decide)) (labKeysOK np) (labIndexOK np) (p := padOne) (by simp) (key := kA)
    (labKey_lab kA (by simp)).2 (Prod.ext h1 rfl)
  exact Prod.ext h1 e

/-- the block of `a` holds 2; there is none of `c` -/
example : cellStore.segs cellA = [2] ∧ (padBlockD padOne kC).run labEnv cellStore = (.err .fileNotFound, cellStore) := by
  constructor
  · obtain ⟨_, m, v, e, hm, hmk, hst, hh⟩ := gotBlock (cell_ready 0 (by decide)) (labKeysOK np) (labIndexOK np) (p := padOne) (by simp)
      (key := kA) (labKey_lab kA (by simp)).2 cellA_got
    cases hm
    cases hmk
    rw [hh.bytes]
    exact (Except.ok.inj hst.1).symm
  · obtain ⟨m, hm, h⟩ := C158_block_now labEnv cellCodec (fun _ => false) np labKeys (labKeysOK np) (labIndexOK np) _ _ _
      (cell_ready 0 (by decide)) padOne (by simp) kC (labKey_lab kC (by simp)).2
    cases hm
    exact h

/-- the other client sets `b` and tries to set `a` while it exists: `a` keeps its block -/
def otherKeys : List (NoteOp Nat) := [.set 1 kB 7 true, .set 1 kA 9 false]

theorem otherKeys_ok : ∀ o ∈ otherKeys, OpOK labEnv cellCodec (fun _ => false) labKeys o := by
  intro o ho
  simp only [otherKeys, List.mem_cons, List.not_mem_nil, or_false] at ho
  rcases ho with rfl | rfl
  · exact cell_set_ok _ _ (by simp) _ _
  · exact cell_set_ok _ _ (by simp) _ _

theorem otherKeys_keep : ¬ lost kA.text ⟨2, some twoMap⟩ (otherKeys.map NoteOp.call) := by
  rintro (⟨_, h, _⟩ | ⟨_, _, h⟩ | h)
  · exact absurd h (by decide)
  · cases h
  · exact h

/-- 5 is written into the block of `a`: both clients get 5 -/
example : ∃ s3, (blockWrite cellA [5]).run labEnv (playNote labEnv cellCodec (fun _ => false) np otherKeys [padOne, padTwo] cellStore).2.2 =
      (.ok (), s3) ∧
    answersOK ⟨2, some (upd (upd twoMap kB.text (some 7)) kA.text (some 5))⟩ [.get 0 kA.text, .get 1 kA.text]
      (playNote labEnv cellCodec (fun _ => false) np [.get 0 kA, .get 1 kA]
        (playNote labEnv cellCodec (fun _ => false) np otherKeys [padOne, padTwo] cellStore).2.1 s3).1 := by
  obtain ⟨s3, m, e, hm, h⟩ := C158_write_sets labEnv cellCodec (fun _ => false) np labKeys (labKeysOK np) (labIndexOK np) _ _ _ otherKeys 2
    (cell_ready _ (by decide)) padOne (by simp) kA (labKey_lab kA (by simp)).2 _ _ cellA_got otherKeys_ok otherKeys_keep 5 [5] (cellStable 5)
  have hm' : m = upd twoMap kB.text (some 7) := (Option.some.inj hm).symm
  subst hm'
  refine ⟨s3, e, h [.get 0 kA, .get 1 kA] (by decide) ?_⟩
  intro o ho
  simp only [List.mem_cons, List.not_mem_nil, or_false] at ho
  rcases ho with rfl | rfl <;> exact (labKey_lab kA (by simp)).2

/-- two bytes do not fit -/
example : (blockWrite cellA [5, 5]).run labEnv (playNote labEnv cellCodec (fun _ => false) np otherKeys [padOne, padTwo] cellStore).2.2 =
    (.err .valueError, (playNote labEnv cellCodec (fun _ => false) np otherKeys [padOne, padTwo] cellStore).2.2) :=
  run_write_bad (by decide +kernel)

/-- the other client sets `a` to 9: the block keeps the 2, and writing into it is lost -/
def setA : List (NoteOp Nat) := [.set 1 kA 9 true]

theorem setA_ok : ∀ o ∈ setA, OpOK labEnv cellCodec (fun _ => false) labKeys o := by
  intro o ho
  simp only [setA, List.mem_cons, List.not_mem_nil, or_false] at ho
  subst ho
  exact cell_set_ok _ _ (by simp) _ _

example : (playNote labEnv cellCodec (fun _ => false) np setA [padOne, padTwo] cellStore).2.2.segs cellA = cellStore.segs cellA :=
  C158_snapshot labEnv cellCodec (fun _ => false) np labKeys (labKeysOK np) (labIndexOK np) _ _ _ setA (cell_ready _ (by decide)) padOne
    (by simp) kA (labKey_lab kA (by simp)).2 _ _ cellA_got setA_ok

example : lost kA.text ⟨2, some twoMap⟩ (setA.map NoteOp.call) ∧
    ((blockWrite cellA [5]).run labEnv (playNote labEnv cellCodec (fun _ => false) np setA [padOne, padTwo] cellStore).2.2).2.content =
      (playNote labEnv cellCodec (fun _ => false) np setA [padOne, padTwo] cellStore).2.2.content := by
  have h : lost kA.text ⟨2, some twoMap⟩ (setA.map NoteOp.call) := Or.inl ⟨rfl, rfl, rfl⟩
  exact ⟨h, (C158_stale_write labEnv cellCodec (fun _ => false) np labKeys (labKeysOK np) (labIndexOK np) _ _ _ setA (cell_ready _ (by decide))
    padOne (by simp) kA (labKey_lab kA (by simp)).2 _ _ cellA_got setA_ok h [5]).2⟩

/-! ## C159 -/

/-- C159, in full: `gp.get(key, fetch=False)` gives the block in which the array stored under the key is -/
def C159_full : Prop :=
  ∀ (E : Env) (c : Codec ArrMeta) (nbytes : Str → List Nat → Nat) (pre : Str) (U : Str → Prop), KeysOK E pre U → NamesOK E (indexName pre) →
    ∀ (noLock : Bool) (s : Store) (gs : List Grid) (st : GridState Arr), GridReady E c nbytes pre U noLock 0 s gs st →
    ∀ g ∈ gs, ∀ key : Key, key.hashed E = E.utf8 key.text → U key.text →
    ∀ m a room, st.map = some m → m key.text = some (a, room) →
      ∃ i, (gridBlockD E c g key).run E s = (.ok (some i), s) ∧ ∃ rest, s.segs i = a.data ++ rest

section
variable (E : Env) (c : Codec ArrMeta) (nbytes : Str → List Nat → Nat) (pre : Str) (U : Str → Prop) (hU : KeysOK E pre U)
  (hok : NamesOK E (indexName pre)) (noLock : Bool) (s : Store) (gs : List Grid) (st : GridState Arr)
include hU hok

/-- C159: of every key there is, it raises `TypeError`, whatever the default; of a key there is not, `gp.get` gives the default, and
`gp.__getitem__` raises `KeyError`. Nothing changes. -/
theorem C159_raises_partial (h : GridReady E c nbytes pre U noLock 0 s gs st) (g : Grid) (hg : g ∈ gs) (key : Key)
    (hk : key.hashed E = E.utf8 key.text) (hUk : U key.text) :
    ∃ m, st.map = some m ∧
      if (m key.text).isSome then (gridBlockD E c g key).run E s = (.err .typeError, s)
      else (gridBlockD E c g key).run E s = (.ok none, s) ∧ (gridBlock E c g key).run E s = (.err .keyError, s) := by
  obtain ⟨w, t, hr, _⟩ := h.rep hU hok
  have h2 := hr.2
  cases hm : st.map with
  | none =>
    rw [hm] at h2
    rw [h2.1] at hg
    cases hg
  | some m =>
    rw [hm] at h2
    obtain ⟨ix, keys, f, fl, hrep, _, hcl⟩ := h2
    have hgi := (hcl g hg).2.1
    have hokn : NamesOK E ix.name := by rw [hrep.name]; exact hok
    refine ⟨m, rfl, ?_⟩
    cases hmk : m key.text with
    | none =>
      have habs : ∀ k' ∈ keys, E.sha (E.utf8 k') ≠ E.sha (E.utf8 key.text) := fun k' hk' he =>
        (hrep.live _).1 (hU.inj _ _ (hrep.used k' hk') hUk he ▸ hk') hmk
      have hb : (gridBlock E c g key).run E s = (.err .keyError, s) := by
        unfold gridBlock
        rw [run_bind, run_attempt, run_bind, hgi, run_metaGet_absent hrep.rep hokn hk habs]
        rfl
      refine ⟨?_, hb⟩
      rw [gridBlockD, run_bind, run_attempt, hb]
      rfl
    | some ar =>
      obtain ⟨a, room⟩ := ar
      obtain ⟨i, hi⟩ := List.mem_iff_getElem?.1 ((hrep.live key.text).2 (by rw [hmk]; simp))
      obtain ⟨b, hb, hdec⟩ := hrep.info _ _ _ hmk
      obtain ⟨rest, hr1, hr2⟩ := hrep.val _ _ _ hmk
      obtain ⟨j, hj, hjs⟩ := names_of_content hr1
      have hb : (gridBlock E c g key).run E s = (.err .typeError, s) := by
        unfold gridBlock
        rw [run_bind, run_attempt, run_bind, hgi, run_metaGet hrep.rep hokn hk hi, hb, andThen_ok, run_bind, hdec,
          run_ofExcept_ok, andThen_ok, run_bind, run_attach (n := (metaOf pre key.text a).name) (hU.ok _ hUk) hj]
        rfl
      show (gridBlockD E c g key).run E s = (.err .typeError, s)
      rw [gridBlockD, run_bind, run_attempt, hb]
      rfl

end

/-- C159 is false of the code -/
theorem C159_full_false : ¬ C159_full := by
  intro h
  obtain ⟨i, e, _⟩ := h labEnv metaCodec u1Bytes np labKeys (labKeysOK np) (labIndexOK np) true _ _ _ (two_ready 0 (by decide)) gridOne (by simp)
    kA hA.1 hA.2 _ _ _ rfl rfl
  obtain ⟨m, hm, h'⟩ := C159_raises_partial labEnv metaCodec u1Bytes np labKeys (labKeysOK np) (labIndexOK np) true _ _ _ (two_ready 0 (by decide))
    gridOne (by simp) kA hA.1 hA.2
  cases hm
  have h2 : (gridBlockD labEnv metaCodec gridOne kA).run labEnv twoFreeStore = (.err .typeError, twoFreeStore) := h'
  rw [h2] at e
  cases e

/-- `a` is there, `c` is not -/
example : (gridBlockD labEnv metaCodec gridOne kA).run labEnv twoFreeStore = (.err .typeError, twoFreeStore) ∧
    (gridBlockD labEnv metaCodec gridOne kC).run labEnv twoFreeStore = (.ok none, twoFreeStore) := by
  constructor
  · obtain ⟨m, hm, h'⟩ := C159_raises_partial labEnv metaCodec u1Bytes np labKeys (labKeysOK np) (labIndexOK np) true _ _ _
      (two_ready 0 (by decide)) gridOne (by simp) kA hA.1 hA.2
    cases hm
    exact h'
  · obtain ⟨m, hm, h'⟩ := C159_raises_partial labEnv metaCodec u1Bytes np labKeys (labKeysOK np) (labIndexOK np) true _ _ _
      (two_ready 0 (by decide)) gridOne (by simp) kC (labKey_lab kC (by simp)).1 (labKey_lab kC (by simp)).2
    cases hm
    exact h'.1

end Verif.Props
