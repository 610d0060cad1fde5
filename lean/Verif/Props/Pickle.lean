import Verif.Lemmas.PickleTorn
import Verif.Lemmas.PickleDepth
import Verif.Props.Notepad
/-!
# C136-C139: the pickle codec

A value is a heap of objects and a place in it. `SameGraph` (Verif/Spec/Pickle.lean) says that two such values are the
same: same types, same contents, same sharing, same cycles.
-/
namespace Verif.Props
open Verif Verif.Model Verif.Lemmas Verif.Spec
open Verif.Lemmas.Pickle (ok_bind)

/-- the parts of a pickle: the protocol, and the framed opcodes -/
theorem dumps_parts {short : Nat → Bool} {lim : Nat} {h : PHeap} {r : PRef} {b : Bytes} (hb : dumpsP short lim h r = .ok b) :
    ∃ e m y, save short h lim r [] = .ok (e, m) ∧ framer (e ++ [.op .stop]) [] = .ok y ∧ b = [0x80, 5] ++ y ∧
      y.length + 2 ≤ maxSize := by
  simp only [dumpsP] at hb
  obtain ⟨⟨e, m⟩, h1, hb⟩ := ok_bind hb
  obtain ⟨y, h2, hb⟩ := ok_bind hb
  split at hb
  · cases hb
  · rename_i hl
    cases hb
    refine ⟨e, m, y, h1, h2, rfl, ?_⟩
    simp only [List.length_append, List.length_cons, List.length_nil] at hl
    omega

/-- reading the protocol -/
theorem runP_proto {n : Nat} (hn : n ≤ 5) (f : Nat) (z : Bytes) (M : PM) :
    runP (f + 1) ⟨none, 0x80 :: n :: z⟩ M = runP f ⟨none, z⟩ M := by
  have e : readOp ⟨none, 0x80 :: n :: z⟩ = .ok (.proto n, ⟨none, z⟩) := by
    show ((Rd.num 1 ⟨none, n :: z⟩) >>= fun p => Except.ok (POp.proto p.1, p.2)) = _
    have : Rd.num 1 ⟨none, n :: z⟩ = .ok (n, ⟨none, z⟩) := by
      simp [Rd.num, Rd.read, leNat, bind, Except.bind]
    rw [this]; rfl
  rw [Pickle.runP_plain (by simp) (by simp) e]
  show ((if n ≤ 5 then Except.ok M else _) >>= _) = _
  rw [if_pos hn]; rfl

/-! ## keys -/

theorem mapM_mono {α β : Type} {f g : α → Option β} (hfg : ∀ x y, f x = some y → g x = some y) :
    ∀ (xs : List α) ys, xs.mapM f = some ys → xs.mapM g = some ys
  | [], ys, h => by simpa using h
  | x :: xs, ys, h => by
    simp only [List.mapM_cons] at h ⊢
    cases h1 : f x with
    | none => rw [h1] at h; cases h
    | some y =>
      rw [h1] at h
      cases h2 : xs.mapM f with
      | none => simp [h2] at h
      | some zs =>
        rw [hfg x y h1, mapM_mono hfg xs zs h2]
        rw [h2] at h
        exact h

theorem keyN_succ {h : PHeap} : ∀ (n : Nat) (r : PRef) k, keyN h n r = some k → keyN h (n + 1) r = some k
  | 0, _, _, hk => by cases hk
  | n + 1, r, k, hk => by
    cases r with
    | obj a =>
      simp only [keyN] at hk ⊢
      cases hn : h[a]? with
      | none => rw [hn] at hk; cases hk
      | some nd =>
        rw [hn] at hk
        cases nd with
        | tuple xs =>
          simp only at hk ⊢
          cases h1 : xs.mapM (keyN h n) with
          | none => rw [h1] at hk; cases hk
          | some ys =>
            rw [h1] at hk
            have h2 := mapM_mono (fun x y => keyN_succ n x y) xs ys h1
            rw [h2]; exact hk
        | _ => exact hk
    | _ => exact hk

theorem keyN_add {h : PHeap} {n : Nat} {r : PRef} {k : List KeyTok} (hk : keyN h n r = some k) : ∀ g, keyN h (n + g) r = some k
  | 0 => hk
  | g + 1 => keyN_succ _ _ _ (keyN_add hk g)

/-- a reference is one key at most -/
theorem isKey_eq {h : PHeap} {n : Nat} {r : PRef} {k l : List KeyTok} (hk : keyN h n r = some k) (hl : IsKey h r l) : l = k := by
  obtain ⟨m, hm⟩ := hl
  have h1 := keyN_add hk m
  have h2 := keyN_add hm n
  rw [Nat.add_comm m n, h1] at h2
  exact (Option.some.inj h2).symm

/-- a dict as Python has it, by computing the keys -/
theorem dict_ok {h : PHeap} {kvs : List (PRef × PRef)} (n : Nat) (h1 : ∀ p ∈ kvs, (keyN h n p.1).isSome = true)
    (h2 : (kvs.map fun p => keyN h n p.1).Nodup) : NodeOK h (.dict kvs) := by
  refine ⟨fun p hp => ?_, ?_⟩
  · obtain ⟨k, hk⟩ := Option.isSome_iff_exists.1 (h1 p hp)
    exact ⟨k, n, hk⟩
  · have h3 : kvs.Pairwise fun p q => keyN h n p.1 ≠ keyN h n q.1 := List.pairwise_map.1 h2
    refine List.Pairwise.imp_of_mem (fun {p q} hp hq hpq k l hk hl hkl => hpq ?_) h3
    obtain ⟨k', hk'⟩ := Option.isSome_iff_exists.1 (h1 p hp)
    obtain ⟨l', hl'⟩ := Option.isSome_iff_exists.1 (h1 q hq)
    rw [hk', hl', ← isKey_eq hk' hk, ← isKey_eq hl' hl, hkl]

/-! ## C136 -/

/-- **C136**: what `pickle.loads` makes of what `pickle.dumps` made, whatever bytes follow it, is the same value: same types,
same contents in the same order, same sharing, same cycles -/
theorem C136_round_trip (short : Nat → Bool) (lim : Nat) (h : PHeap) (r : PRef) (hok : HeapOK h) (b : Bytes)
    (hb : (pickleCodec short lim).encode (h, r) = .ok b) (rest : Bytes) :
    ∃ h' r', (pickleCodec short lim).decode (b ++ rest) = .ok (h', r') ∧ SameGraph h r h' r' := by
  obtain ⟨e, m, y, h1, h2, rfl, hl⟩ := dumps_parts hb
  obtain ⟨H, memo, r', q1, q2⟩ := Pickle.save_graph hok short h1
  have ho := Pickle.save_opsOK hok short lim r [] e m h1
  obtain ⟨n, hn, hrun⟩ := Pickle.framer_run e [] [] y ho rfl h2 (by omega) ⟨[], [], [], []⟩ _ r' [] q1 rfl rest
  refine ⟨H, r', ?_, q2⟩
  show runP (([0x80, 5] ++ y ++ rest).length + 1) ⟨none, [0x80, 5] ++ y ++ rest⟩ ⟨[], [], [], []⟩ = _
  have hlen : ([0x80, 5] ++ y ++ rest).length = n + (y.length - n + rest.length + 2) := by
    simp only [List.length_append, List.length_cons, List.length_nil]; omega
  rw [hlen]
  exact (runP_proto (by omega) _ _ _).trans (hrun _)

/-- **C136**: a pickle is a nonempty string of bytes -/
theorem C136_bytes (short : Nat → Bool) (lim : Nat) (h : PHeap) (r : PRef) (hok : HeapOK h) (b : Bytes)
    (hb : (pickleCodec short lim).encode (h, r) = .ok b) : b ≠ [] ∧ ∀ x ∈ b, x < 256 := by
  obtain ⟨e, m, y, h1, h2, rfl, hl⟩ := dumps_parts hb
  have ho := Pickle.save_opsOK hok short lim r [] e m h1
  refine ⟨by simp, fun x hx => ?_⟩
  rcases List.mem_append.1 hx with hx | hx
  · simp only [List.mem_cons, List.not_mem_nil, or_false] at hx
    omega
  · refine Pickle.framer_byte (e ++ [.op .stop]) [] y (fun o hoo => ?_) (by simp) h2 x hx
    simp only [Pickle.opsOf, List.filterMap_append, List.mem_append] at hoo
    rcases hoo with hoo | hoo
    · exact .inl (ho o hoo)
    · simp at hoo; exact .inr hoo

/-- `d = {"ab": t, t: d, 7: [t, True, None, 1.5]}` with `t = (b"\xff", -300)` -/
def loopHeap : PHeap :=
  [.dict [(.obj 1, .obj 2), (.obj 2, .obj 0), (.int 7, .obj 4)], .str [0x61, 0x62], .tuple [.obj 3, .int (-300)], .bytes [255],
    .list [.obj 2, .bool true, .none, .float 0x3ff8000000000000]]

theorem loopHeap_ok : HeapOK loopHeap := by
  intro a n hn
  match a with
  | 0 => cases hn; exact dict_ok 3 (by decide) (by decide)
  | 1 => cases hn; intro c hc; simp at hc; omega
  | 2 => cases hn; simp [NodeOK]
  | 3 => cases hn; intro c hc; simp at hc; omega
  | 4 => cases hn; trivial
  | a + 5 => simp [loopHeap] at hn

/-- its pickle, as CPython's `pickle.py` writes it -/
def loopPickle : Bytes :=
  [128, 5, 149, 44, 0, 0, 0, 0, 0, 0, 0, 125, 148, 40, 140, 2, 97, 98, 148, 67, 1, 255, 148, 74, 212, 254, 255, 255, 134, 148,
    104, 3, 104, 0, 75, 7, 93, 148, 40, 104, 3, 136, 78, 71, 63, 248, 0, 0, 0, 0, 0, 0, 101, 117, 46]

theorem loop_dumps : (pickleCodec (fun _ => true) 1000).encode (loopHeap, .obj 0) = .ok loopPickle := by decide +kernel

example : ∃ h' r', (pickleCodec (fun _ => true) 1000).decode (loopPickle ++ [1, 2, 3]) = .ok (h', r') ∧
    SameGraph loopHeap (.obj 0) h' r' :=
  C136_round_trip _ _ _ _ loopHeap_ok _ loop_dumps _

example : loopPickle ≠ [] ∧ ∀ x ∈ loopPickle, x < 256 := C136_bytes _ _ _ _ loopHeap_ok _ loop_dumps

/-! ## C137 -/

theorem zeros_replicate (m : Nat) : Pickle.Zeros (List.replicate m 0) := fun _ hx => (List.mem_replicate.1 hx).2

/-- **C137**: a pickle cut short anywhere, with any number of zeros after the cut, does not load. So a block that was made
but not, or not wholly, written gives no value. -/
theorem C137_torn (short : Nat → Bool) (lim : Nat) (h : PHeap) (r : PRef) (hok : HeapOK h) (b : Bytes)
    (hb : (pickleCodec short lim).encode (h, r) = .ok b) (k : Nat) (hk : k < b.length) (m : Nat) :
    ∃ e, (pickleCodec short lim).decode (b.take k ++ List.replicate m 0) = .error e := by
  obtain ⟨e, me, y, h1, h2, rfl, hl⟩ := dumps_parts hb
  have ho := Pickle.save_opsOK hok short lim r [] e me h1
  show ∃ x, runP ((([0x80, 5] ++ y).take k ++ List.replicate m 0).length + 1) ⟨none, ([0x80, 5] ++ y).take k ++ List.replicate m 0⟩
    ⟨[], [], [], []⟩ = .error x
  match k with
  | 0 => exact Pickle.dead_run (u := ⟨none, List.replicate m 0⟩) (zeros_replicate m) _ _
  | 1 =>
    cases m with
    | zero => exact ⟨_, rfl⟩
    | succ m =>
      obtain ⟨x, hx⟩ := Pickle.dead_run (u := ⟨none, List.replicate m 0⟩) (zeros_replicate m)
        (0x80 :: List.replicate (m + 1) 0).length ⟨[], [], [], []⟩
      exact ⟨x, (runP_proto (n := 0) (by omega) _ _ _).trans hx⟩
  | k + 2 =>
    have hk' : k < y.length := by simpa using hk
    obtain ⟨x, hx⟩ := Pickle.framer_torn e [] [] y ho rfl h2 (by omega) k hk' m
      (([0x80, 5] ++ y).take (k + 2) ++ List.replicate m 0).length ⟨[], [], [], []⟩
    exact ⟨x, (runP_proto (n := 5) (by omega) _ _ _).trans hx⟩

example : ∃ e, (pickleCodec (fun _ => true) 1000).decode (loopPickle.take 20 ++ List.replicate 35 0) = .error e :=
  C137_torn _ _ _ _ loopHeap_ok _ loop_dumps 20 (by decide) 35

/-! ## C138 -/

/-- **C138**: two values have the same pickle just if they are the same value -/
theorem C138_same_bytes (short : Nat → Bool) (lim : Nat) (h h' : PHeap) (r r' : PRef) (hok : HeapOK h) (hok' : HeapOK h') (b : Bytes)
    (hb : (pickleCodec short lim).encode (h, r) = .ok b) :
    (pickleCodec short lim).encode (h', r') = .ok b ↔ SameGraph h r h' r' := by
  constructor
  · intro hb'
    obtain ⟨H, R, h1, h2⟩ := C136_round_trip short lim h r hok b hb []
    obtain ⟨H', R', h3, h4⟩ := C136_round_trip short lim h' r' hok' b hb' []
    rw [h1] at h3
    cases h3
    exact Pickle.SameGraph.trans h2 (Pickle.SameGraph.symm h4)
  · intro hs
    show dumpsP short lim h' r' = _
    rw [← Pickle.dumps_same short lim hs]
    exact hb

/-- **C138**: what was loaded is pickled to the same bytes -/
theorem C138_again (short : Nat → Bool) (lim : Nat) (h : PHeap) (r : PRef) (hok : HeapOK h) (b : Bytes)
    (hb : (pickleCodec short lim).encode (h, r) = .ok b) :
    ∃ w, (pickleCodec short lim).decode b = .ok w ∧ (pickleCodec short lim).encode w = .ok b ∧ SameGraph h r w.1 w.2 := by
  obtain ⟨H, R, h1, h2⟩ := C136_round_trip short lim h r hok b hb []
  rw [List.append_nil] at h1
  refine ⟨(H, R), h1, ?_, h2⟩
  show dumpsP short lim H R = _
  rw [← Pickle.dumps_same short lim h2]
  exact hb

/-- None is not stored in a notepad -/
def isNoneP (v : PHeap × PRef) : Bool := decide (v.2 = .none)

/-- the call with another value -/
def withValue {V : Type} (f : V → V) : NoteOp V → NoteOp V
  | .set c k v eo => .set c k (f v) eo
  | o => o

/-- a call that sets a key to a value that can be pickled -/
def PickleCall (E : Env) (short : Nat → Bool) (lim : Nat) (U : Str → Prop) : NoteOp (PHeap × PRef) → Prop
  | .create mode => mode.Runs
  | .join mode => mode.Runs
  | .set _ k v _ => k.hashed E = E.utf8 k.text ∧ U k.text ∧ HeapOK v.1 ∧ v.2 ≠ .none ∧ ∃ b, (pickleCodec short lim).encode v = .ok b
  | .get _ k => U k.text
  | .del _ k => k.hashed E = E.utf8 k.text ∧ U k.text
  | _ => True

/-- only the encoding of a value matters -/
theorem stepPad_encode {V : Type} {E : Env} {c : Codec V} {isNone : V → Bool} {pre : Str} {cl : List Pad} {s : Store} {f : V → V} :
    ∀ {o : NoteOp V}, (∀ i k v eo, o = .set i k v eo → c.encode (f v) = c.encode v) →
    stepPad E c isNone pre cl s (withValue f o) = stepPad E c isNone pre cl s o
  | .set i k v eo, h => by
    have e : ∀ p, padSet E c p k (f v) eo = padSet E c p k v eo := by
      intro p
      unfold padSet memorize
      rw [h i k v eo rfl]
    simp only [withValue, stepPad, NoteOp.call, NoteCall.client?, padCall]
    cases cl[i]? with
    | none => rfl
    | some p => simp only; rw [e p]
  | .create _, _ | .join _, _ | .get _ _, _ | .del _ _, _ | .keys _, _ | .items _, _ | .clear _, _ | .close _, _ => rfl

theorem playPads_encode {V ι : Type} [DecidableEq ι] {E : Env} {c : Codec V} {isNone : V → Bool} {pre : ι → Str} {f : V → V} :
    ∀ (ops : List (ι × NoteOp V)) (cl : ι → List Pad) (s : Store),
    (∀ x ∈ ops, ∀ i k v eo, x.2 = .set i k v eo → c.encode (f v) = c.encode v) →
    playPads E c isNone pre (ops.map fun x => (x.1, withValue f x.2)) cl s = playPads E c isNone pre ops cl s
  | [], _, _, _ => rfl
  | (i, o) :: t, cl, s, h => by
    have h1 := stepPad_encode (E := E) (c := c) (isNone := isNone) (pre := pre i) (cl := cl i) (s := s) (f := f) (o := o)
      (h (i, o) (by simp))
    simp only [List.map_cons, playPads, h1]
    rw [playPads_encode t _ _ fun x hx => h x (by simp [hx])]

/-- what a notepad with the pickle codec is given may be replaced by the same values, which the codec brings back as they are -/
theorem pickle_history (E : Env) (short : Nat → Bool) (lim : Nat) (pre : Str) (U : Str → Prop)
    (ops : List (NoteOp (PHeap × PRef))) (hops : ∀ o ∈ ops, PickleCall E short lim U o) (s0 : Store) :
    ∃ f : PHeap × PRef → PHeap × PRef, (∀ i k v eo, .set i k v eo ∈ ops → SameGraph v.1 v.2 (f v).1 (f v).2) ∧
      padHistory E (pickleCodec short lim) isNoneP pre (ops.map (withValue f)) s0 =
        padHistory E (pickleCodec short lim) isNoneP pre ops s0 ∧
      ∀ o ∈ ops.map (withValue f), OpOK E (pickleCodec short lim) isNoneP U o := by
  let f : PHeap × PRef → PHeap × PRef := fun v =>
    match (pickleCodec short lim).encode v with
    | .ok b => match (pickleCodec short lim).decode b with
      | .ok w => w
      | .error _ => v
    | .error _ => v
  have hf : ∀ v b, HeapOK v.1 → (pickleCodec short lim).encode v = .ok b →
      (pickleCodec short lim).decode b = .ok (f v) ∧ (pickleCodec short lim).encode (f v) = .ok b ∧
        SameGraph v.1 v.2 (f v).1 (f v).2 := by
    intro v b hv hb
    obtain ⟨x, h1, h2, h3⟩ := C138_again short lim v.1 v.2 hv b hb
    have hfx : f v = x := by
      show (match (pickleCodec short lim).encode v with | .ok b => _ | .error _ => v) = x
      rw [hb]
      show (match (pickleCodec short lim).decode b with | .ok w => w | .error _ => v) = x
      rw [h1]
    rw [hfx]
    exact ⟨h1, h2, h3⟩
  refine ⟨f, fun i k v eo ho => ?_, ?_, ?_⟩
  · obtain ⟨_, _, h3, _, b, h5⟩ := hops _ ho
    exact (hf v b h3 h5).2.2
  · simp only [padHistory, List.map_map]
    have := playPads_encode (E := E) (c := pickleCodec short lim) (isNone := isNoneP) (pre := fun _ : Unit => pre) (f := f)
      (ops.map fun o => ((), o)) (fun _ => []) s0 (by
        intro x hx i k v eo hxe
        obtain ⟨o, ho, rfl⟩ := List.mem_map.1 hx
        have hxe : o = .set i k v eo := hxe
        subst hxe
        obtain ⟨_, _, h3, _, b, h5⟩ := hops _ ho
        rw [h5]
        exact (hf v b h3 h5).2.1)
    rw [List.map_map] at this
    rw [← this]
    rfl
  · intro o' ho'
    obtain ⟨o, ho, rfl⟩ := List.mem_map.1 ho'
    have h0 := hops o ho
    cases o with
    | set i k v eo =>
      obtain ⟨h1, h2, h3, h4, b, h5⟩ := h0
      obtain ⟨q1, q2, R, _, _, q3, _⟩ := hf v b h3 h5
      refine ⟨h1, h2, b, q2, (C136_bytes short lim v.1 v.2 h3 b h5).1, q1, ?_⟩
      simp only [isNoneP, decide_eq_false_iff_not]
      intro hn
      rw [hn] at q3
      generalize v.2 = x at q3 h4
      cases q3
      exact h4 rfl
    | _ => exact h0

/-- **C138**: a notepad with the pickle codec is a dictionary, whatever values that can be pickled it is given: the answers
are those of a dictionary that was given the same values (`f` says which objects they are made of) -/
theorem C138_notepad (E : Env) (short : Nat → Bool) (lim : Nat) (pre : Str) (U : Str → Prop) (hU : KeysOK E pre U)
    (hok : NamesOK E (indexName pre)) (ops : List (NoteOp (PHeap × PRef))) (hops : ∀ o ∈ ops, PickleCall E short lim U o)
    (hlen : 2 * ops.length < 256 ^ 5) (s0 : Store) (w : s0.WF) (hno : NoPad s0 pre) :
    ∃ f : PHeap × PRef → PHeap × PRef, (∀ i k v eo, .set i k v eo ∈ ops → SameGraph v.1 v.2 (f v).1 (f v).2) ∧
      answersOK noteStart ((ops.map (withValue f)).map NoteOp.call) (padHistory E (pickleCodec short lim) isNoneP pre ops s0).1 := by
  obtain ⟨f, h1, h2, h3⟩ := pickle_history E short lim pre U ops hops s0
  refine ⟨f, h1, ?_⟩
  rw [← h2]
  exact (padHistory_spec E (pickleCodec short lim) isNoneP pre U hU hok (ops.map (withValue f)) h3 (by simpa using hlen) s0 w hno).1

/-! ## C137: notepads -/

/-- **C137**: on a notepad with the pickle codec, used in any way before, the process setting a key is killed. Then another
key reads as before, and the key being set reads its old value, or the same value as was given, or raises: never another
value -/
theorem C137_crash_in_set (E : Env) (short : Nat → Bool) (lim : Nat) (pre : Str) (U : Str → Prop) (hU : KeysOK E pre U)
    (hok : NamesOK E (indexName pre)) (ops : List (NoteOp (PHeap × PRef))) (hops : ∀ o ∈ ops, PickleCall E short lim U o)
    (hlen : 2 * ops.length + 2 < 256 ^ 5) (s0 : Store) (w : s0.WF) (hno : NoPad s0 pre) (s : Store) (ps : List Pad)
    (hs : (padHistory E (pickleCodec short lim) isNoneP pre ops s0).2 = (ps, s)) (p : Pad) (hp : p ∈ ps) (key : Key)
    (hk : ¬ indexWord <+: key.text) (v : PHeap × PRef) (hv : HeapOK v.1) (eo : Bool) (n : Nat) (q : Pad) (hq : q ∈ ps) (k : Key)
    (hUk : U k.text) :
    let now := ((padGet (pickleCodec short lim) isNoneP q k).run E ((padSet E (pickleCodec short lim) p key v eo).crash E n s)).1
    now = ((padGet (pickleCodec short lim) isNoneP q k).run E s).1 ∨
      (k.text = key.text ∧ ((∃ e, now = .err e) ∨ ∃ w, now = .ok w ∧ SameGraph v.1 v.2 w.1 w.2)) := by
  intro now
  have h : ∃ m, InUse E (pickleCodec short lim) isNoneP pre U s ps m := by
    obtain ⟨f, _, h2, h3⟩ := pickle_history E short lim pre U ops hops s0
    rw [← h2] at hs
    have hl : 2 * (ops.map (withValue f)).length + 2 < 256 ^ 5 := by simpa using hlen
    have hst := (padHistory_spec E (pickleCodec short lim) isNoneP pre U hU hok _ h3 (by omega) s0 w hno).2.2.1
    cases hm : (noteEnd noteStart ((ops.map (withValue f)).map NoteOp.call)).map with
    | none =>
      have h4 := hst.2
      rw [hm, hs] at h4
      have h5 : ps = [] := h4.1
      rw [h5] at hp
      cases hp
    | some m => exact ⟨m, ops.map (withValue f), s0, h3, hl, w, hno, by rw [hs], by rw [hs], hm⟩
  obtain ⟨m, h⟩ := h
  rcases C48_crash_in_set_partial E (pickleCodec short lim) isNoneP pre U hU hok s ps m h p hp key hk v eo n q hq k hUk with
    h1 | ⟨hkk, b, hb, o, ho, h1⟩
  · exact .inl h1
  · refine .inr ⟨hkk, ?_⟩
    rw [show now = _ from h1]
    simp only [List.mem_cons, List.not_mem_nil, or_false] at ho
    rcases ho with rfl | rfl | rfl
    · exact .inl ⟨_, rfl⟩
    · have hb0 := (C136_bytes short lim v.1 v.2 hv b hb).1
      obtain ⟨e, he⟩ := C137_torn short lim v.1 v.2 hv b hb 0 (List.length_pos_iff.2 hb0) b.length
      rw [List.take_zero, List.nil_append] at he
      exact .inl ⟨e, by simp only [readAs, he]⟩
    · obtain ⟨h', r', hd, hs⟩ := C136_round_trip short lim v.1 v.2 hv b hb []
      rw [List.append_nil] at hd
      simp only [readAs, hd]
      split
      · exact .inl ⟨_, rfl⟩
      · exact .inr ⟨_, rfl, hs⟩

/-- two clients and two keys -/
def loopNotes : List (NoteOp (PHeap × PRef)) :=
  [.create .fake, .set 0 kA (loopHeap, .obj 0) true, .set 0 kB ([], .int 5) true, .join (.sliding 2), .get 1 kA, .items 1]

theorem loopNotes_ok : ∀ o ∈ loopNotes, PickleCall labEnv (fun _ => true) 1000 labKeys o := by
  have hA := labKey_lab kA (by simp)
  have hB := labKey_lab kB (by simp)
  intro o ho
  simp only [loopNotes, List.mem_cons, List.not_mem_nil, or_false] at ho
  rcases ho with rfl | rfl | rfl | rfl | rfl | rfl
  · trivial
  · exact ⟨hA.1, hA.2, loopHeap_ok, by simp, _, loop_dumps⟩
  · exact ⟨hB.1, hB.2, fun a n hn => by simp at hn, by simp, _, rfl⟩
  · simp only [PickleCall, LockMode.Runs]; omega
  · exact hA.2
  · trivial

example : ∃ f : PHeap × PRef → PHeap × PRef, (∀ i k v eo, .set i k v eo ∈ loopNotes → SameGraph v.1 v.2 (f v).1 (f v).2) ∧
    answersOK noteStart ((loopNotes.map (withValue f)).map NoteOp.call)
      (padHistory labEnv (pickleCodec (fun _ => true) 1000) isNoneP np loopNotes Store.empty).1 :=
  C138_notepad labEnv _ _ np labKeys (labKeysOK np) (labIndexOK np) loopNotes loopNotes_ok (by decide) _ wf_empty fun _ _ => rfl

/-- killed after any number of steps -/
example (n : Nat) :
    let now := ((padGet (pickleCodec (fun _ => true) 1000) isNoneP padTwo kA).run labEnv
      ((padSet labEnv (pickleCodec (fun _ => true) 1000) padOne kA ([], .bool true) true).crash labEnv n
        (padHistory labEnv (pickleCodec (fun _ => true) 1000) isNoneP np loopNotes Store.empty).2.2)).1
    now = ((padGet (pickleCodec (fun _ => true) 1000) isNoneP padTwo kA).run labEnv
      (padHistory labEnv (pickleCodec (fun _ => true) 1000) isNoneP np loopNotes Store.empty).2.2).1 ∨
      (kA.text = kA.text ∧ ((∃ e, now = .err e) ∨ ∃ w, now = .ok w ∧ SameGraph [] (.bool true) w.1 w.2)) :=
  C137_crash_in_set labEnv _ _ np labKeys (labKeysOK np) (labIndexOK np) loopNotes loopNotes_ok (by decide) _ wf_empty
    (fun _ _ => rfl) _ [padOne, padTwo] (Prod.ext rfl rfl) padOne (by simp) kA (labKey_lab kA (by simp)).2.2 ([], .bool true)
    (fun a n hn => by simp at hn) true n padTwo (by simp) kA (labKey_lab kA (by simp)).2

/-- the same value with its objects elsewhere, and an object that is not used -/
def loopHeap' : PHeap :=
  [.str [0x61, 0x62], .list [.obj 4, .bool true, .none, .float 0x3ff8000000000000], .bytes [255], .list [],
    .tuple [.obj 2, .int (-300)], .dict [(.obj 0, .obj 4), (.obj 4, .obj 5), (.int 7, .obj 1)]]

theorem loopHeap'_ok : HeapOK loopHeap' := by
  intro a n hn
  match a with
  | 0 => cases hn; intro c hc; simp at hc; omega
  | 1 => cases hn; trivial
  | 2 => cases hn; intro c hc; simp at hc; omega
  | 3 => cases hn; trivial
  | 4 => cases hn; simp [NodeOK]
  | 5 => cases hn; exact dict_ok 3 (by decide) (by decide)
  | a + 6 => simp [loopHeap'] at hn

example : SameGraph loopHeap (.obj 0) loopHeap' (.obj 5) :=
  (C138_same_bytes (fun _ => true) 1000 _ _ _ _ loopHeap_ok loopHeap'_ok _ loop_dumps).1 (by decide +kernel)

/-- `x = []; [x, x]` is not `[[], []]` -/
example : ¬ SameGraph [.list [.obj 1, .obj 1], .list []] (.obj 0) [.list [.obj 1, .obj 2], .list [], .list []] (.obj 0) := by
  rw [← C138_same_bytes (fun _ => true) 1000 _ _ _ _ (by intro a n hn; match a with
    | 0 => cases hn; trivial
    | 1 => cases hn; trivial
    | a + 2 => simp at hn) (by intro a n hn; match a with
    | 0 => cases hn; trivial
    | 1 => cases hn; trivial
    | 2 => cases hn; trivial
    | a + 3 => simp at hn) _ rfl]
  decide +kernel

/-! ## C139 -/

/-- **C139**: pickling fails with `RecursionError` or `struct.error` or for want of memory, and in no other way -/
theorem C139_errors (short : Nat → Bool) (lim : Nat) (h : PHeap) (hc : Closed h) (r : PRef) (hr : ∀ a, r = .obj a → a < h.length)
    (e : PyErr) (he : (pickleCodec short lim).encode (h, r) = .error e) : e = .runtimeError ∨ e = structError ∨ e = .overflowError := by
  change dumpsP short lim h r = _ at he
  unfold dumpsP at he
  have hin : Pickle.RefIn h r := by
    cases r with
    | obj a => exact hr a rfl
    | _ => trivial
  cases h1 : save short h lim r [] with
  | error e' => rw [h1] at he; cases he; exact .inl (Pickle.save_err hc short _ _ _ _ hin h1)
  | ok p =>
    rw [h1] at he
    change (framer (p.1 ++ [.op .stop]) [] >>= _) = _ at he
    cases h2 : framer (p.1 ++ [.op .stop]) [] with
    | error e' => rw [h2] at he; cases he; exact .inr (.inl (Pickle.framer_err _ _ _ h2))
    | ok y =>
      rw [h2] at he
      change (if _ then _ else _) = _ at he
      split at he
      · cases he; exact .inr (.inr rfl)
      · cases he

/-- **C139**: there is no `RecursionError` if the bound is more than the number of objects times one more than the depth of
tuples directly in tuples: cycles do no harm -/
theorem C139_deep_enough (short : Nat → Bool) (lim : Nat) (h : PHeap) (hc : Closed h) (N : Nat) (hN : TuplesWithin h N) (r : PRef)
    (hr : ∀ a, r = .obj a → a < h.length) (hlim : h.length * (N + 1) + N < lim) (e : PyErr)
    (he : (pickleCodec short lim).encode (h, r) = .error e) : e ≠ .runtimeError := by
  obtain ⟨rank, h1, h2, h3⟩ := hN
  have hin : Pickle.RefIn h r := by
    cases r with
    | obj a => exact hr a rfl
    | _ => trivial
  have ht : Pickle.todo h [] = h.length := by simp [Pickle.todo]
  obtain ⟨ev, m, hs, _⟩ := Pickle.save_deep hc short h1 h2 h3 lim r [] hin (fun a _ _ => by have := h1 a; rw [ht]; omega)
    (by rw [ht]; omega)
  change dumpsP short lim h r = _ at he
  unfold dumpsP at he
  rw [hs] at he
  change (framer (ev ++ [.op .stop]) [] >>= _) = _ at he
  cases h2 : framer (ev ++ [.op .stop]) [] with
  | error e' => rw [h2] at he; cases he; rw [Pickle.framer_err _ _ _ h2]; simp [structError]
  | ok y =>
    rw [h2] at he
    change (if _ then _ else _) = _ at he
    split at he
    · cases he; simp
    · cases he

/-- **C139**: a list in a list in a list, ..., as deep as the bound or deeper, is a `RecursionError` -/
theorem C139_too_deep (short : Nat → Bool) (lim d : Nat) (hd : lim ≤ d) :
    (pickleCodec short lim).encode (Pickle.nestHeap d, .obj 0) = .error .runtimeError := by
  show dumpsP short lim (Pickle.nestHeap d) (.obj 0) = _
  unfold dumpsP
  rw [Pickle.nest_fails short d lim 0 [] (by omega) (by simp)]
  rfl

example : (pickleCodec (fun _ => true) 3).encode ([.list [.obj 1], .list [.obj 2], .list [.obj 3], .list []], .obj 0) =
    .error .runtimeError := C139_too_deep _ 3 3 (by omega)

theorem loopHeap_closed : Closed loopHeap := by
  intro a n hn b hb
  match a with
  | 0 | 1 | 2 | 3 | 4 => cases hn; simp [PNode.refs] at hb <;> simp [loopHeap] <;> omega
  | a + 5 => simp [loopHeap] at hn

example (e : PyErr) (he : (pickleCodec (fun _ => true) 12).encode (loopHeap, .obj 0) = .error e) : e ≠ .runtimeError :=
  C139_deep_enough _ 12 _ loopHeap_closed 1 ⟨fun _ => 1, by simp, by simp, by
    intro a xs hx b hb ht
    obtain ⟨ys, hy⟩ := ht
    match a with
    | 0 | 1 | 3 | 4 => cases hx
    | 2 =>
      cases hx
      simp at hb
      subst hb
      cases hy
    | a + 5 => simp [loopHeap] at hx⟩ _ (by simp [loopHeap]) (by simp [loopHeap]) e he

end Verif.Props
