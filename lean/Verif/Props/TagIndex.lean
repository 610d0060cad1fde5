import Verif.Lemmas.TagIndexHist
import Verif.Lemmas.CrashIndex
import Verif.Props.Shm
/-!
# C38, C45-C47: TagIndex, in sequence and after a crash

A history is a list of calls by clients of one index. Client 0 created the index, `join` adds a client. The calls do not
overlap in time. `ixPlay` (Verif/Spec/Index.lean) says what a list of distinct keys would answer.
-/
namespace Verif.Props
open Verif Verif.Model Verif.Lemmas Verif.Spec

/-- a platform for the examples: every nonempty name is fine; text is its code points; the "hash" is the text itself -/
def labEnv : Env where
  okName := fun n => !n.isEmpty
  utf8 := fun s => s.map Char.toNat
  utf8dec := fun b => some (b.map Char.ofNat)
  utf8_roundtrip := demoEnv.utf8_roundtrip
  utf8_nil := rfl
  utf8dec_zeros := demoEnv.utf8dec_zeros
  sha := fun b => b.map Char.ofNat

theorem labEnv_sha (t : Str) : labEnv.sha (labEnv.utf8 t) = t := by
  have : (Char.ofNat ∘ Char.toNat) = id := by funext c; simp
  simp [labEnv, List.map_map, this]

theorem labNames {name : Str} (h : name ≠ []) : NamesOK labEnv name := by
  have : ∀ t, labEnv.okName (name ++ t) = true := by
    intro t; cases name <;> simp_all [labEnv]
  constructor
  · simpa using this []
  · exact this _
  · intro n _; exact this _
  · intro n _; exact this _
  · intro b; rw [hashAddr, List.append_assoc]; exact this _
  · intro n _; rw [keyAddr, List.append_assoc]; exact this _
  · intro n _; rw [valAddr, List.append_assoc]; exact this _

/-- a key of the examples -/
def kA : Key := .str "a".toList
def kB : Key := .str "b".toList
def kC : Key := .other "c".toList
def ixName : Str := "ix".toList

/-- two clients: adds, a removal that moves a key, a refused add, a refused removal -/
def demoOps : List IxOp :=
  [.add 0 (.sliding 1) kA true, .join, .add 1 .fake kB false, .add 0 (.sliding 3) kC true, .del 1 (.sliding 1) kA,
   .list 0, .add 1 (.sliding 1) kB false, .del 0 .fake kA, .list 1]

theorem opsOK_lab (ops : List IxOp) (hk : ∀ o ∈ ops, ∀ k, o.key? = some k → k.hashed labEnv = labEnv.utf8 k.text ∧ k.text ≠ [])
    (hm : ∀ o ∈ ops, ∀ m, o.mode? = some m → m.Runs) : OpsOK labEnv (fun _ => True) ops :=
  ⟨fun o ho k h => ⟨(hk o ho k h).1, (hk o ho k h).2, trivial⟩, hm, fun a b _ _ h => by
    rwa [labEnv_sha, labEnv_sha] at h⟩

theorem demoOps_ok : OpsOK labEnv (fun _ => True) demoOps := by
  apply opsOK_lab
  · intro o ho k hk
    simp only [demoOps, List.mem_cons, List.not_mem_nil, or_false] at ho
    rcases ho with h | h | h | h | h | h | h | h | h <;> subst h <;> simp [IxOp.key?] at hk <;> subst hk <;>
      exact ⟨rfl, by simp [Key.text, kA, kB, kC]⟩
  · intro o ho m hm
    simp only [demoOps, List.mem_cons, List.not_mem_nil, or_false] at ho
    rcases ho with h | h | h | h | h | h | h | h | h <;> subst h <;> simp [IxOp.mode?] at hm <;> subst hm <;>
      simp [LockMode.Runs]

/-! ## C38 -/

/-- C38: from any memory in which no block of the index exists yet, creating the index and playing any history of calls
by any number of clients gives exactly the answers of an ordered list of distinct keys, and leaves every block whose
address is not one of the index's own as it was. `U` is the set of key texts in play; the digest must separate them. -/
theorem C38_tag_index (E : Env) (name : Str) (hok : NamesOK E name) (U : Str → Prop) (ops : List IxOp)
    (hops : OpsOK E U ops) (hlen : ops.length < 256 ^ 5) (s0 : Store) (w : s0.WF) (hno : NoIndex s0 name) :
    ∃ ix s1 s2, (tagIndexInit name true).run E s0 = (.ok ix, s1) ∧
      playIx E name ops [ix] s1 = ((ixPlay (ops.map IxOp.call) 1 []).1, s2) ∧
      ∀ x, (∀ sl : Slot, x ≠ sl.addr name) → s2.content x = s0.content x := by
  obtain ⟨ix, s1, e1, hn, w1, h1, hc1, hs1⟩ := run_tagIndexInit_create w hno hok
  subst hn
  obtain ⟨s2, fl, e2, w2, h2, hc2, _, hs2⟩ := playIx_spec ix hok ops hops [ix] (by simp) s1 w1 [] 0 h1 (by simp) hc1
    (by omega) (by simp; omega)
  refine ⟨ix, s1, s2, e1, e2, fun x hx => ((hs1.trans hs2) x ?_).2⟩
  rintro (⟨sl, _, h⟩ | ⟨sl, _, h⟩) <;> exact hx sl h

example : ∃ ix s1 s2, (tagIndexInit ixName true).run labEnv demoStore = (.ok ix, s1) ∧
    playIx labEnv ixName demoOps [ix] s1 = ([.position (.ok 0), .joined, .position (.ok 1), .position (.ok 2),
      .position (.ok 0), .listing ["c".toList, "b".toList], .position (.error .fileExists),
      .position (.error .keyError), .listing ["c".toList, "b".toList]], s2) ∧
    ∀ x, (∀ sl : Slot, x ≠ sl.addr ixName) → s2.content x = demoStore.content x :=
  C38_tag_index labEnv ixName (labNames (by simp [ixName])) _ demoOps demoOps_ok (by decide) demoStore demoStore_wf
    (fun sl _ => by
      have h1 : sl.addr ixName ≠ addrA := by simp [Slot.addr, ixName, addrA]
      have h2 : sl.addr ixName ≠ addrB := by simp [Slot.addr, ixName, addrB]
      simp [Store.content, demoStore, h1, h2])

/-! ## C45 -/

/-- C45, in full: after any history, `add` of any key returns, the listing then contains the key's text, and after a
further history every removal of a listed key succeeds -/
def C45_full : Prop :=
  ∀ (E : Env) (name : Str) (_ : NamesOK E name) (keys : List Key) (s0 : Store) (_ : s0.WF) (_ : NoIndex s0 name)
    (_ : keys.length < 256 ^ 5) (_ : ∀ a ∈ keys, ∀ b ∈ keys, E.sha (a.hashed E) = E.sha (b.hashed E) → a = b)
    (ix : Index) (s1 : Store) (_ : (tagIndexInit name true).run E s0 = (.ok ix, s1)) (del : Nat) (k : Key) (_ : keys[del]? = some k),
    ∃ rs s2, playIx E name (keys.map (fun k => .add 0 (.sliding 1) k true)) [ix] s1 = (rs, s2) ∧
      (∀ r ∈ rs, ∃ n, r = .position (.ok n)) ∧
      (∃ l, (indexUpdate E ix).run E s2 = (.ok l, s2) ∧ ∀ k ∈ keys, k.text ∈ l) ∧
      ∃ p s3, (indexDel E (.sliding 1) ix k).run E s2 = (.ok p, s3)

/-- C45: the empty string is refused with `ValueError` -/
theorem C45_empty_key (E : Env) (name : Str) (hok : NamesOK E name) (s0 : Store) (w : s0.WF) (hno : NoIndex s0 name)
    (k : Key) (hk : k = .str [] ∨ k = .other []) (hf : E.okName (keyAddr name 0) = true) :
    ∃ ix s1 s2, (tagIndexInit name true).run E s0 = (.ok ix, s1) ∧
      (indexAdd E .fake ix k true).run E s1 = (.err .valueError, s2) ∧
      s2.content name = some (toLE 8 1) := by
  obtain ⟨ix, s1, e1, hn, w1, h1, hc1, hs1⟩ := run_tagIndexInit_create w hno hok
  subst hn
  have ht : k.text = [] ∧ k.hashed E = [] := by rcases hk with h | h <;> subst h <;> exact ⟨rfl, E.utf8_nil⟩
  obtain ⟨s2, e2, n2, f2⟩ := run_write_at (E := E) (b := toLE 8 1) w1 h1.mem (by rw [h1.len]; simp)
  refine ⟨ix, s1, s2, e1, ?_, by rw [f2.content, if_pos rfl]⟩
  have hnone : s1.names (hashAddr E ix.name []) = none := by
    rw [← content_none]
    rw [addr_hash]
    exact h1.nohash _ (by simp)
  simp only [indexAdd, withLock, indexAdd_]
  rw [ht.2, run_bind, check, run_bind, run_existsBlock _ (hok.hash _), andThen_ok, hnone]
  simp only [Option.isSome_none, Bool.false_eq_true, if_false]
  rw [run_pure, andThen_ok, run_bind, run_readLength h1, andThen_ok, run_bind, run_intBytes (by simp), andThen_ok, run_bind]
  simp only [List.length_nil, Nat.zero_add]
  rw [e2, andThen_ok, ht.1, E.utf8_nil]
  rw [run_bind, List.length_nil, run_openBlock_zero]
  rfl

/-- adding `"y"` and then the bytes `b"x"` -/
def C45_demo : List IxResult × Store :=
  playIx labEnv ixName (([.str "y".toList, .bytes [120] "b'x'".toList] : List Key).map
    (fun k => .add 0 (.sliding 1) k true)) [⟨ixName, 0⟩] (Store.empty.created ixName 8)

/-- C45: once a `bytes` key is the last of an index, removing another key raises `FileNotFoundError`: the code looks
for the digest of the text it stored, and had filed the key under the digest of the bytes -/
theorem C45_bytes_then_remove : ((indexDel labEnv (.sliding 1) ⟨ixName, 0⟩ (.str "y".toList)).run labEnv C45_demo.2).1 =
    .err .fileNotFound := by decide +kernel

/-- C45 is false of the code -/
theorem C45_full_false : ¬ C45_full := by
  intro h
  obtain ⟨rs, s2, e, _, _, p, s3, hd⟩ := h labEnv ixName (labNames (by simp [ixName]))
    [.str "y".toList, .bytes [120] "b'x'".toList] Store.empty wf_empty (fun _ _ => rfl) (by decide)
    (by
      intro a ha b hb hs
      simp only [List.mem_cons, List.not_mem_nil, or_false] at ha hb
      rcases ha with ha | ha <;> rcases hb with hb | hb <;> subst ha <;> subst hb <;> first | rfl | (simp [labEnv, Key.hashed, Key.text] at hs))
    ⟨ixName, 0⟩ (Store.empty.created ixName 8) rfl 0 (.str "y".toList) rfl
  have h3 := C45_bytes_then_remove
  rw [C45_demo, e] at h3
  simp only [] at h3
  rw [hd] at h3
  simp at h3

/-- C45, the part that holds: a nonempty key that is not `bytes` is accepted after any history, is then listed with all
keys listed before, and every listed key can then be removed -/
theorem C45_accepts_partial (E : Env) (name : Str) (hok : NamesOK E name) (U : Str → Prop) (ops : List IxOp)
    (mode : LockMode) (key : Key) (hops : OpsOK E U (.add 0 mode key true :: ops)) (hlen : ops.length + 2 < 256 ^ 5)
    (s0 : Store) (w : s0.WF) (hno : NoIndex s0 name) :
    ∃ ix s1 s2 s3 n, (tagIndexInit name true).run E s0 = (.ok ix, s1) ∧ (playIx E name ops [ix] s1).2 = s2 ∧
      (indexAdd E mode ix key true).run E s2 = (.ok n, s3) ∧
      ∃ before after, (indexUpdate E ix).run E s2 = (.ok before, s2) ∧ (indexUpdate E ix).run E s3 = (.ok after, s3) ∧
        (∀ k, k ∈ after ↔ k ∈ before ∨ k = key.text) ∧ after[n]? = some key.text ∧
        ∀ k ∈ after, ∃ m s4 rest, (indexDel E mode ix (.str k)).run E s3 = (.ok m, s4) ∧
          (indexUpdate E ix).run E s4 = (.ok rest, s4) ∧ ∀ x, x ∈ rest ↔ x ∈ after ∧ x ≠ k := by
  have hp8 : (256 : Nat) ^ 5 < 256 ^ 8 := by decide
  obtain ⟨ix, s1, e1, hn, w1, h1, hc1, hs1⟩ := run_tagIndexInit_create w hno hok
  subst hn
  obtain ⟨s2, fl, e2, w2, h2, hc2, hfl, hs2⟩ := playIx_spec ix hok ops hops.tail [ix] (by simp) s1 w1 [] 0 h1 (by simp)
    hc1 (by omega) (by simp; omega)
  have hlk := length_ixPlay (ops.map IxOp.call) 1 []
  simp only [List.length_map, List.length_nil, Nat.zero_add] at hlk
  have hUk := ixPlay_mem (U := U) (ops.map IxOp.call) 1 [] (by simp) (by
    intro c hc k hk
    obtain ⟨o, ho, rfl⟩ := List.mem_map.1 hc
    cases o <;> simp [IxOp.call, IxCall.adds?] at hk
    subst hk
    exact (hops.keys _ (List.mem_cons_of_mem _ ho) _ rfl).2.2)
  simp only [List.length_singleton] at h2
  generalize hkeys : (ixPlay (ops.map IxOp.call) 1 []).2 = keys at h2 hlk hUk
  obtain ⟨hk, hne, hU⟩ := hops.keys _ List.mem_cons_self key rfl
  have hinj : ∀ k' ∈ keys, E.sha (E.utf8 k') = E.sha (E.utf8 key.text) → k' = key.text := fun k' hk' =>
    hops.inj _ _ (hUk k' hk') hU
  have hm := hops.modes _ List.mem_cons_self mode rfl
  obtain ⟨o, s3, fl3, e3, ho, w3, h3, hc3, hfl3, hs3⟩ := run_indexAdd w2 h2 hc2 (by omega) hok hm hk hne (by omega)
    hinj true
  have hn : ∃ n, (ixAdd keys key.text true).1 = .ok n ∧ (ixAdd keys key.text true).2[n]? = some key.text := by
    unfold ixAdd
    cases hp : position key.text keys with
    | some i => exact ⟨i, rfl, position_some hp⟩
    | none => exact ⟨keys.length, rfl, by simp⟩
  obtain ⟨n, hn1, hn2⟩ := hn
  have ho' : o = .ok n := by
    rw [hn1] at ho
    cases o <;> simp [toExcept] at ho
    rw [ho]
  have hmem : ∀ k, k ∈ (ixAdd keys key.text true).2 ↔ k ∈ keys ∨ k = key.text := by
    intro k
    refine ⟨mem_ixAdd, fun h => ?_⟩
    rcases h with h | h
    · unfold ixAdd
      cases position key.text keys with
      | some i => exact h
      | none => simp [h]
    · subst h; exact List.mem_of_getElem? hn2
  refine ⟨ix, s1, s2, s3, n, e1, by rw [e2], by rw [e3, ho'], keys, _, run_indexUpdate h2 hok, run_indexUpdate h3 hok,
    hmem, hn2, ?_⟩
  intro k hkm
  have hUall : ∀ k' ∈ (ixAdd keys key.text true).2, U k' := fun k' hk' => by
    rcases (hmem k').1 hk' with h | h
    · exact hUk k' h
    · rw [h]; exact hU
  obtain ⟨o4, s4, fl4, e4, ho4, _, w4, h4, hc4, hfl4, hs4⟩ := run_indexDel w3 h3 hc3 (by omega) hok hm (key := .str k) rfl
    (fun k' hk' => hops.inj _ _ (hUall k' hk') (hUall k hkm))
  have hnd := h3.nodup
  obtain ⟨i, hi⟩ : ∃ i, position k (ixAdd keys key.text true).2 = some i := by
    cases hp : position k (ixAdd keys key.text true).2 with
    | none => exact absurd hkm (position_none.1 hp)
    | some i => exact ⟨i, rfl⟩
  have hd : ixDel (ixAdd keys key.text true).2 (Key.str k).text = (.ok i, swapRemove (ixAdd keys key.text true).2 i) := by
    show (match position k _ with | some i => _ | none => _) = _
    rw [hi]
  rw [hd] at ho4 h4
  have : ∃ m, o4 = .ok m := by
    cases o4 <;> simp [toExcept, Except.map] at ho4
    exact ⟨_, rfl⟩
  obtain ⟨m, rfl⟩ := this
  exact ⟨m, s4, _, e4, run_indexUpdate h4 hok, fun x => mem_swapRemove_iff hnd (position_some hi)⟩

example : ∃ ix s1 s2 s3 n, (tagIndexInit ixName true).run labEnv Store.empty = (.ok ix, s1) ∧
    (playIx labEnv ixName demoOps [ix] s1).2 = s2 ∧
    (indexAdd labEnv (.sliding 1) ix (.str "z".toList) true).run labEnv s2 = (.ok n, s3) ∧
      ∃ before after, (indexUpdate labEnv ix).run labEnv s2 = (.ok before, s2) ∧
        (indexUpdate labEnv ix).run labEnv s3 = (.ok after, s3) ∧
        (∀ k, k ∈ after ↔ k ∈ before ∨ k = "z".toList) ∧ after[n]? = some "z".toList ∧
        ∀ k ∈ after, ∃ m s4 rest, (indexDel labEnv (.sliding 1) ix (.str k)).run labEnv s3 = (.ok m, s4) ∧
          (indexUpdate labEnv ix).run labEnv s4 = (.ok rest, s4) ∧ ∀ x, x ∈ rest ↔ x ∈ after ∧ x ≠ k :=
  C45_accepts_partial labEnv ixName (labNames (by simp [ixName])) (fun _ => True) demoOps (.sliding 1) (.str "z".toList)
    ⟨fun o ho k hk => by
      rcases List.mem_cons.1 ho with h | h
      · subst h; simp [IxOp.key?] at hk; subst hk; exact ⟨rfl, by simp [Key.text], trivial⟩
      · exact demoOps_ok.keys o h k hk,
     fun o ho m hm => by
      rcases List.mem_cons.1 ho with h | h
      · subst h; simp [IxOp.mode?] at hm; subst hm; simp [LockMode.Runs]
      · exact demoOps_ok.modes o h m hm, demoOps_ok.inj⟩ (by decide) Store.empty wf_empty (fun _ _ => rfl)

/-! ## C46 -/

/-- C46: a client killed after any number of primitive operations of `add` leaves an index from which any other client
lists all earlier keys, in order, followed by nothing, the new key, or a string of NULs as long as the new key's
encoding. Any key is allowed, even one that cannot be added. -/
theorem C46_crash_in_add (E : Env) (name : Str) (hok : NamesOK E name) (U : Str → Prop) (ops : List IxOp)
    (hops : OpsOK E U ops) (hlen : ops.length + 1 < 256 ^ 5) (s0 : Store) (w : s0.WF) (hno : NoIndex s0 name)
    (mode : LockMode) (key : Key) (existsOk : Bool) (n : Nat) :
    ∃ ix s1 s2 s3, (tagIndexInit name true).run E s0 = (.ok ix, s1) ∧ (playIx E name ops [ix] s1).2 = s2 ∧
      (indexAdd E mode ix key existsOk).crash E n s2 = s3 ∧
      ∃ before extra, (indexUpdate E ix).run E s2 = (.ok before, s2) ∧
        (tagIndexInit name false).run E s3 = (.ok ix, s3) ∧
        (indexUpdate E ix).run E s3 = (.ok (before ++ extra), s3) ∧
        extra ∈ [[], [key.text], [List.replicate (E.utf8 key.text).length (Char.ofNat 0)]] := by
  have hp8 : (256 : Nat) ^ 5 < 256 ^ 8 := by decide
  obtain ⟨ix, s1, e1, hn, w1, h1, hc1, hs1⟩ := run_tagIndexInit_create w hno hok
  subst hn
  obtain ⟨s2, fl, e2, w2, h2, hc2, hfl, hs2⟩ := playIx_spec ix hok ops hops [ix] (by simp) s1 w1 [] 0 h1 (by simp)
    hc1 (by omega) (by simp; omega)
  have hlk := length_ixPlay (ops.map IxOp.call) 1 []
  simp only [List.length_map, List.length_nil, Nat.zero_add] at hlk
  simp only [List.length_singleton] at h2
  generalize hkeys : (ixPlay (ops.map IxOp.call) 1 []).2 = keys at h2 hlk
  have hA : Always E (AddMid E ix keys key.text) (indexAdd E mode ix key existsOk) s2 := by
    unfold indexAdd
    refine always_withLock w2 hok hc2 (by omega)
      (fun a b _ h hs => h.same hs (not_lock_mem _) (not_lock_key _)) (h2.addMid _) ?_
    intro s3 w3 hs3 _
    have := always_indexAdd_ w3 (h2.sameLock hs3) hok (by omega) key existsOk
    exact ⟨always_mono this fun s h => h.2.1, (always_end this).2.2.offLock⟩
  have hC := always_crash hA n
  obtain ⟨extra, hex, hl⟩ := hC.listing hok (by omega)
  refine ⟨ix, s1, s2, _, e1, by rw [e2], rfl, keys, extra, run_indexUpdate h2 hok, ?_, hl, hex⟩
  unfold tagIndexInit
  simp only [if_true]
  rw [run_bind, run_existsBlock _ hok.mem, andThen_ok, hC.mem]
  simp only [Option.isSome_some, if_true]
  rw [run_bind, run_attach hok.mem hC.mem]; rfl

/-! ## C47 -/

/-- C47: a client killed after any number of primitive operations of a removal leaves an index from which any other
client still lists every key other than the target -/
theorem C47_crash_in_remove (E : Env) (name : Str) (hok : NamesOK E name) (U : Str → Prop) (ops : List IxOp)
    (mode : LockMode) (key : Key) (hops : OpsOK E U (.del 0 mode key :: ops)) (hlen : ops.length + 1 < 256 ^ 5)
    (s0 : Store) (w : s0.WF) (hno : NoIndex s0 name) (n : Nat) :
    ∃ ix s1 s2 s3, (tagIndexInit name true).run E s0 = (.ok ix, s1) ∧ (playIx E name ops [ix] s1).2 = s2 ∧
      (indexDel E mode ix key).crash E n s2 = s3 ∧
      ∃ before after, (indexUpdate E ix).run E s2 = (.ok before, s2) ∧
        (tagIndexInit name false).run E s3 = (.ok ix, s3) ∧
        (indexUpdate E ix).run E s3 = (.ok after, s3) ∧ ∀ k ∈ before, k ≠ key.text → k ∈ after := by
  have hp8 : (256 : Nat) ^ 5 < 256 ^ 8 := by decide
  obtain ⟨ix, s1, e1, hn, w1, h1, hc1, hs1⟩ := run_tagIndexInit_create w hno hok
  subst hn
  obtain ⟨s2, fl, e2, w2, h2, hc2, hfl, hs2⟩ := playIx_spec ix hok ops hops.tail [ix] (by simp) s1 w1 [] 0 h1 (by simp)
    hc1 (by omega) (by simp; omega)
  have hlk := length_ixPlay (ops.map IxOp.call) 1 []
  simp only [List.length_map, List.length_nil, Nat.zero_add] at hlk
  have hUk := ixPlay_mem (U := U) (ops.map IxOp.call) 1 [] (by simp) (by
    intro c hc k hk
    obtain ⟨o, ho, rfl⟩ := List.mem_map.1 hc
    cases o <;> simp [IxOp.call, IxCall.adds?] at hk
    subst hk
    exact (hops.keys _ (List.mem_cons_of_mem _ ho) _ rfl).2.2)
  simp only [List.length_singleton] at h2
  generalize hkeys : (ixPlay (ops.map IxOp.call) 1 []).2 = keys at h2 hlk hUk
  obtain ⟨hk, hne, hU⟩ := hops.keys _ List.mem_cons_self key rfl
  have hinj : ∀ k' ∈ keys, E.sha (E.utf8 k') = E.sha (E.utf8 key.text) → k' = key.text := fun k' hk' =>
    hops.inj _ _ (hUk k' hk') hU
  have hA : Always E (DelMid E ix keys key.text) (indexDel E mode ix key) s2 := by
    unfold indexDel
    have h0 := (always_start (always_indexDel_ w2 h2 hok hk hinj)).2.1
    refine always_withLock w2 hok hc2 (by omega)
      (fun a b _ h hs => h.same hs (not_lock_mem _) (not_lock_key _)) h0 ?_
    intro s3 w3 hs3 _
    have := always_indexDel_ w3 (h2.sameLock hs3) hok hk hinj
    exact ⟨always_mono this fun s h => h.2.1, (always_end this).2.2.offLock⟩
  have hC := always_crash hA n
  obtain ⟨after, hl, hall⟩ := hC.listing hok
  refine ⟨ix, s1, s2, _, e1, by rw [e2], rfl, keys, after, run_indexUpdate h2 hok, ?_, hl, hall⟩
  unfold tagIndexInit
  simp only [if_true]
  rw [run_bind, run_existsBlock _ hok.mem, andThen_ok, hC.mem]
  simp only [Option.isSome_some, if_true]
  rw [run_bind, run_attach hok.mem hC.mem]; rfl

/-- three keys -/
def threeOps : List IxOp := [.add 0 .fake kA true, .add 0 (.sliding 2) kB true, .add 0 .fake kC true]

theorem threeOps_ok : OpsOK labEnv (fun _ => True) threeOps := by
  apply opsOK_lab
  · intro o ho k hk
    simp only [threeOps, List.mem_cons, List.not_mem_nil, or_false] at ho
    rcases ho with h | h | h <;> subst h <;> simp [IxOp.key?] at hk <;> subst hk <;>
      exact ⟨rfl, by simp [Key.text, kA, kB, kC]⟩
  · intro o ho m hm
    simp only [threeOps, List.mem_cons, List.not_mem_nil, or_false] at ho
    rcases ho with h | h | h <;> subst h <;> simp [IxOp.mode?] at hm <;> subst hm <;> simp [LockMode.Runs]

example : ∃ ix s1 s2 s3, (tagIndexInit ixName true).run labEnv Store.empty = (.ok ix, s1) ∧
    (playIx labEnv ixName threeOps [ix] s1).2 = s2 ∧
    (indexAdd labEnv (.sliding 4) ix (.str "zz".toList) false).crash labEnv 9 s2 = s3 ∧
    ∃ before extra, (indexUpdate labEnv ix).run labEnv s2 = (.ok before, s2) ∧
      (tagIndexInit ixName false).run labEnv s3 = (.ok ix, s3) ∧
      (indexUpdate labEnv ix).run labEnv s3 = (.ok (before ++ extra), s3) ∧
      extra ∈ [[], ["zz".toList], [[Char.ofNat 0, Char.ofNat 0]]] :=
  C46_crash_in_add labEnv ixName (labNames (by simp [ixName])) _ threeOps threeOps_ok (by decide) Store.empty wf_empty
    (fun _ _ => rfl) (.sliding 4) (.str "zz".toList) false 9

/-- all three kinds of listing occur, at different crash points -/
example : let s2 := (playIx labEnv ixName threeOps [⟨ixName, 0⟩] (Store.empty.created ixName 8)).2
    let after := fun n => ((indexUpdate labEnv ⟨ixName, 0⟩).run labEnv
      ((indexAdd labEnv .fake ⟨ixName, 0⟩ (.str "zz".toList) false).crash labEnv n s2)).1
    after 3 = .ok ["a".toList, "b".toList, "c".toList] ∧
    after 4 = .ok ["a".toList, "b".toList, "c".toList, [Char.ofNat 0, Char.ofNat 0]] ∧
    after 5 = .ok ["a".toList, "b".toList, "c".toList, "zz".toList] := by decide +kernel

example : ∃ ix s1 s2 s3, (tagIndexInit ixName true).run labEnv Store.empty = (.ok ix, s1) ∧
    (playIx labEnv ixName threeOps [ix] s1).2 = s2 ∧ (indexDel labEnv (.sliding 1) ix kA).crash labEnv 14 s2 = s3 ∧
    ∃ before after, (indexUpdate labEnv ix).run labEnv s2 = (.ok before, s2) ∧
      (tagIndexInit ixName false).run labEnv s3 = (.ok ix, s3) ∧
      (indexUpdate labEnv ix).run labEnv s3 = (.ok after, s3) ∧ ∀ k ∈ before, k ≠ kA.text → k ∈ after :=
  C47_crash_in_remove labEnv ixName (labNames (by simp [ixName])) (fun _ => True) threeOps (.sliding 1) kA
    ⟨fun o ho k hk => by
      rcases List.mem_cons.1 ho with h | h
      · subst h; simp [IxOp.key?] at hk; subst hk; exact ⟨rfl, by simp [Key.text, kA], trivial⟩
      · exact threeOps_ok.keys o h k hk,
     fun o ho m hm => by
      rcases List.mem_cons.1 ho with h | h
      · subst h; simp [IxOp.mode?] at hm; subst hm; simp [LockMode.Runs]
      · exact threeOps_ok.modes o h m hm, threeOps_ok.inj⟩ (by decide) Store.empty wf_empty (fun _ _ => rfl) 14

end Verif.Props
