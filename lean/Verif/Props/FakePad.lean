import Verif.Lemmas.FakePad
import Verif.Props.Claims
/-!
# C160, C161: notepads without an index
-/
namespace Verif.Props
open Verif Verif.Model Verif.Lemmas Verif.Spec
variable {V ρ : Type}

/-! ## C160 -/

/-- C160: calls on the `Notepad`s of a prefix with `index_type=FakeIndex`, if there is no block of the prefix to begin with. All answers
are those of a dictionary, but that keys can't be listed and `close` leaves everything (see `fakeAnswer`); in the end the blocks of the
prefix are exactly those of the keys in the dictionary, and no other block has been touched. There is no condition on digests. -/
theorem C160_dictionary (E : Env) (c : Codec V) (isNone : V → Bool) (pre : Str) (s : Store) (w : s.WF)
    (hno : ∀ k, s.names (padAddr pre k) = none) (ops : List (LockMode × FakeCall V)) (hops : ∀ o ∈ ops, FakeOK E c isNone pre o.2) :
    (playFake E c isNone pre ops s).1 = fakeAnswers (fun _ => none) (ops.map Prod.snd) ∧
    (∀ k, ((playFake E c isNone pre ops s).2.names (padAddr pre k)).isSome = (fakeEnd (fun _ => none) (ops.map Prod.snd) k).isSome) ∧
    ∀ x, (∀ k, x ≠ padAddr pre k) → (playFake E c isNone pre ops s).2.names x = s.names x ∧
      (playFake E c isNone pre ops s).2.content x = s.content x := by
  obtain ⟨h1, _, h2, h3⟩ := playFake_spec (isNone := isNone) ops hops w (m := fun _ => none) (fun k => content_none.2 (hno k))
  refine ⟨h1, fun k => ?_, h3⟩
  have := h2.absent (k := k)
  rw [content_none] at this
  cases hn : (playFake E c isNone pre ops s).2.names (padAddr pre k) with
  | none => rw [this.1 hn]; rfl
  | some i =>
    cases hm : (fakeEnd (fun _ => none) (ops.map Prod.snd) k).isSome with
    | true => rfl
    | false => rw [this.2 hm] at hn; cases hn

/-- C160: whether the prefix is in use or not, opening it and closing it do nothing -/
theorem C160_open_close (E : Env) (pre : Str) (create : Bool) (mode : LockMode) (s : Store) :
    (padInitFake pre create mode).run E s = (.ok ⟨pre, .fake, mode⟩, s) ∧ (padClose E ⟨pre, .fake, mode⟩).run E s = (.ok (), s) :=
  ⟨rfl, rfl⟩

/-- opened without `create`; "a" set, set again without leave, read; "index" refused; closed, opened again, "a" still there; "b" missing;
"a" removed twice -/
def fakeHist : List (LockMode × FakeCall Nat) :=
  [(.fake, .open false), (.fake, .set kA 2 true), (.fake, .set kA 3 false), (.fake, .get kA), (.fake, .set (.str "index7".toList) 4 true),
   (.fake, .keys), (.fake, .clear), (.fake, .close), (.fake, .open true), (.sliding 3, .getD kA 9), (.fake, .getD kB 9), (.fake, .set kB 5 false),
   (.fake, .del kA), (.fake, .del kA), (.fake, .close)]

theorem fakeHist_ok : ∀ o ∈ fakeHist, FakeOK labEnv demoCodec (fun _ => false) np o.2 := by
  have hs : ∀ v, 2 ≤ v → ∃ b, Stable demoCodec (fun _ => false) v b := fun v h => ⟨_, labStable h⟩
  intro o ho
  simp only [fakeHist, List.mem_cons, List.not_mem_nil, or_false] at ho
  rcases ho with rfl | rfl | rfl | rfl | rfl | rfl | rfl | rfl | rfl | rfl | rfl | rfl | rfl | rfl | rfl <;>
    first | trivial | exact ⟨by decide +kernel, hs _ (by decide)⟩ | exact (by decide +kernel : labEnv.okName _ = true)

example : (playFake labEnv demoCodec (fun _ => false) np fakeHist Store.empty).1 =
    [.done (.ok ()), .done (.ok ()), .done (.error .keyError), .value (.ok 2), .done (.error .keyError), .keys none,
     .done (.error .typeError), .done (.ok ()), .done (.ok ()), .value (.ok 2), .value (.error .fileNotFound), .done (.ok ()),
     .done (.ok ()), .done (.error .keyError), .done (.ok ())] ∧
    ((playFake labEnv demoCodec (fun _ => false) np fakeHist Store.empty).2.names (padAddr np kB.text)).isSome = true := by
  obtain ⟨h1, h2, _⟩ := C160_dictionary labEnv demoCodec (fun _ => false) np Store.empty wf_empty (fun _ => rfl) fakeHist fakeHist_ok
  exact ⟨h1, h2 kB.text⟩

/-! ## C161 -/

/-- C161, in full: of processes that claim an absent key with `set(key, value, exists_ok=False)`, two are never both told that they have it -/
def C161_full : Prop :=
  ∀ (E : Env) (c : Codec Nat), CodecOK c → ∀ (pre : Str) (mode : LockMode) (s : Store), s.WF → ∀ key : Key,
    E.okName (padAddr pre key.text) = true → ¬ indexWord <+: key.text → s.names (padAddr pre key.text) = none →
    ∀ vals : List Nat, (∀ v ∈ vals, ∃ b, c.encode v = .ok b) → ∀ (sched : List Nat) (i j : Nat), i ≠ j →
      (interleave E sched (vals.map fun v => (claimOnce key v).prog E c (fun _ => false) ⟨pre, .fake, mode⟩) s).1[i]? = some (.ret true) →
      (interleave E sched (vals.map fun v => (claimOnce key v).prog E c (fun _ => false) ⟨pre, .fake, mode⟩) s).1[j]? ≠ some (.ret true)

/-- C161, the part that holds: a process whose keys no other process names gets, for each of its calls, exactly the dictionary's answer, and
leaves exactly the dictionary's blocks, whatever the others do to their keys, however all are interleaved or stopped, and without any lock -/
theorem C161_own_keys_partial (E : Env) (c : Codec V) (hc : CodecOK c) (isNone : V → Bool) (pre : Str) (own : Str → Prop)
    (hU : OwnOK E pre own) (s : Store) (w : s.WF) (procs : List (LockMode × PadScript V ρ)) (i : Nat) (mode : LockMode) (sc : PadScript V ρ)
    (hi : procs[i]? = some (mode, sc)) (hown : sc.On own) (hv : Stores c sc)
    (hother : ∀ j x, procs[j]? = some x → j ≠ i → x.2.On fun k => ¬ own k)
    (st : Str → Option V) (hst : Holds c pre own s st) (sched : List Nat) (r : ρ)
    (hr : (interleave E sched (procs.map fun x => x.2.prog E c isNone ⟨pre, .fake, x.1⟩) s).1[i]? = some (.ret r)) :
    ∃ calls st', sc.Follows calls r ∧ PlainLegal isNone st calls st' ∧
      Holds c pre own (interleave E sched (procs.map fun x => x.2.prog E c isNone ⟨pre, .fake, x.1⟩) s).2 st' := by
  obtain ⟨p', h1, h2, h3⟩ := private_run (D := fun x => ¬ ownBlocks pre own x) (fun _ h => h) i sched
    (procs.map fun x => x.2.prog E c isNone ⟨pre, .fake, x.1⟩) s w (sc.prog E c isNone ⟨pre, .fake, mode⟩) (by simp [hi])
    (prg_plain_script (isNone := isNone) (p := ⟨pre, .fake, mode⟩) hc hU rfl sc hown hv w hst) (by
      intro j q hj hji
      simp only [List.getElem?_map, Option.map_eq_some_iff] at hj
      obtain ⟨x, hx, rfl⟩ := hj
      refine ⟨fun _ => False, ?_, fun _ h => h.elim⟩
      refine uses_script (p := ⟨pre, .fake, x.1⟩) (own := fun k => ¬ own k) (fun sl => slots_off (p := ⟨pre, .fake, x.1⟩) hU sl)
        (fun ix hix => by cases hix) (fun k hk => ?_) (fun j hj => ?_) _ (hother j x hx hji)
      · rintro ⟨k', hk', he⟩
        rw [pad_inj he] at hk
        exact hk hk'
      · obtain ⟨ix, hix, _⟩ := hj
        cases hix)
  rw [hr] at h1
  injection h1 with h1
  subst h1
  exact h2 _ (RPriv.refl h3) r rfl

def fakeOwners : List (LockMode × PadScript Nat (List (Option Nat))) := [(.fake, ownerA), (.fake, ownerB)]

theorem fakeOwners_ran : (interleave labEnv ownSched (fakeOwners.map fun x => x.2.prog labEnv ownCodec (fun _ => false) ⟨np, .fake, x.1⟩)
    Store.empty).1.map outcomeL = [some [none, some 5, none], some [some 4]] := by decide +kernel

/-- the two owners of Verif/Props/PadOwn.lean, without an index -/
example : ∃ calls st', ownerA.Follows calls [none, some 5, none] ∧ PlainLegal (fun _ => false) (fun _ => none) calls st' ∧
    Holds ownCodec np ownA (interleave labEnv ownSched (fakeOwners.map fun x => x.2.prog labEnv ownCodec (fun _ => false) ⟨np, .fake, x.1⟩)
      Store.empty).2 st' := by
  have e5 : ∃ b, ownCodec.encode 5 = .ok b := ⟨_, rfl⟩
  refine C161_own_keys_partial labEnv ownCodec ownCodecOK (fun _ => false) np ownA ownA_ok Store.empty wf_empty fakeOwners 0 .fake ownerA rfl
    ?_ ?_ ?_ (fun _ => none) (fun _ _ => rfl) ownSched _ ?_
  · exact ⟨rfl, fun _ => ⟨rfl, fun _ => ⟨rfl, fun _ => ⟨rfl, fun _ => ⟨rfl, fun _ => trivial⟩⟩⟩⟩⟩
  · exact ⟨trivial, fun _ => ⟨e5, fun _ => ⟨trivial, fun _ => ⟨trivial, fun _ => ⟨trivial, fun _ => trivial⟩⟩⟩⟩⟩
  · have hB : ¬ ownA kB.text := by simp [ownA, kA, kB, Key.text]
    intro j x hx hj
    rcases j with _ | _ | j
    · exact absurd rfl hj
    · injection hx with hx
      subst hx
      exact ⟨hB, fun _ => ⟨hB, fun _ => ⟨hB, fun _ => ⟨trivial, fun _ => ⟨hB, fun _ => trivial⟩⟩⟩⟩⟩
    · cases hx
  · have := congrArg (fun l => l[0]?) fakeOwners_ran
    simp only [List.getElem?_map] at this
    cases hp : (interleave labEnv ownSched (fakeOwners.map fun x => x.2.prog labEnv ownCodec (fun _ => false) ⟨np, .fake, x.1⟩)
        Store.empty).1[0]? with
    | none => rw [hp] at this; simp at this
    | some p =>
      rw [hp] at this
      cases p with
      | ret a => simp only [Option.map_some, outcomeL] at this; simpa using this
      | _ => simp [outcomeL] at this

/-- both look, and see no "a"; process 0 makes its block; process 1 replaces it -/
def fakeClaims : List (Prog Bool) :=
  [4, 5].map fun v => (claimOnce kA v).prog labEnv ownCodec (fun _ => false) ⟨np, .fake, .fake⟩

def fakeRace : List Nat := [0, 1] ++ List.replicate 20 0 ++ List.replicate 20 1

theorem fakeRace_ran : (interleave labEnv fakeRace fakeClaims Store.empty).1.map outcomeL = [some true, some true] := by decide +kernel

/-- C161 is false of the code -/
theorem C161_full_false : ¬ C161_full := by
  intro h
  have h1 := fakeRace_ran
  have key : ∀ i, i < 2 → (interleave labEnv fakeRace fakeClaims Store.empty).1[i]? = some (.ret true) := by
    intro i hi
    have : ((interleave labEnv fakeRace fakeClaims Store.empty).1.map outcomeL)[i]? = some (some true) := by
      rw [h1]
      rcases i with _ | _ | i
      · rfl
      · rfl
      · omega
    rw [List.getElem?_map] at this
    cases hp : (interleave labEnv fakeRace fakeClaims Store.empty).1[i]? with
    | none => rw [hp] at this; simp at this
    | some p =>
      rw [hp] at this
      cases p with
      | ret a => simp only [Option.map_some, Option.some.injEq, outcomeL] at this; rw [this]
      | _ => simp [outcomeL] at this
  exact h labEnv ownCodec ownCodecOK np .fake Store.empty wf_empty kA ((labKeysOK np).ok _ (labKey_lab kA (by simp)).2)
    (labKey_lab kA (by simp)).2.2 rfl [4, 5] (by
      intro v hv
      simp only [List.mem_cons, List.not_mem_nil, or_false] at hv
      rcases hv with rfl | rfl <;> exact ⟨_, rfl⟩) fakeRace 0 1 (by decide) (key 0 (by decide)) (key 1 (by decide))

end Verif.Props
