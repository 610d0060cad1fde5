import Verif.Spec.LockWear
import Verif.Props.LockTimeout
import Verif.Lemmas.TagIndexHist
/-!
# C174: how often a `SlidingLock` can be used

Every use of a lock takes the next number, and `release` writes the number into a block of five bytes (implements.py:161, 237).
-/
namespace Verif.Props
open Verif Verif.Model Verif.Lemmas Verif.Spec
variable {α : Type} {E : Env}

/-- C174, in full: `with lock: body` gives what the body gives, every time, when there is nobody else -/
def C174_full : Prop :=
  ∀ (E : Env) (name : Str) (fuel : Nat), NamesOK E name → 0 < fuel → ∀ rs : List (Except PyErr Unit),
    (useAll E fuel name rs Store.empty).1 = rs.map asOutcome

theorem leaves_ofExcept (mine : Str → Prop) (r : Except PyErr α) : Leaves E mine (Prog.ofExcept r) := by
  intro s w
  cases r with
  | ok a => exact ⟨_, s, run_ofExcept_ok a s, by simp, w, fun _ _ => ⟨rfl, rfl⟩⟩
  | error e => exact ⟨_, s, run_ofExcept_err e s, by simp, w, fun _ _ => ⟨rfl, rfl⟩⟩

theorem same_of_leaves {name : Str} {s s' : Store}
    (h : ∀ x, lockNames name x → s'.names x = s.names x ∧ s'.content x = s.content x) :
    SameOff (fun x => ¬ lockNames name x) s s' := fun x hx => h x (not_not.1 hx)

/-- one use below the limit: the outcome is that of the body, the lock is free again, the count is one higher -/
theorem C174_use {s : Store} (w : s.WF) {name : Str} {fl fuel : Nat} (hok : NamesOK E name) (hf : 0 < fuel)
    (hc : LockClean s name fl) (hb : fl + 1 < 2 ^ 40) (body : Prog α) (hl : Leaves E (lockNames name) body) :
    ∃ o s1 s2 s3, (withLock (.sliding fuel) name body).run E s = (o, s3) ∧ body.run E s1 = (o, s2) ∧
      SameOff (lockNames name) s s1 ∧ SameOff (lockNames name) s2 s3 ∧ s3.WF ∧ LockClean s3 name (fl + 1) := by
  have hb : fl + 1 < 256 ^ 5 := hb
  obtain ⟨h, s1, e1, hnum, w1, hh, hs1, _⟩ := run_lockEnter w hok hf hc hb
  obtain ⟨o, s2, e2, ho, w2, hs2⟩ := hl s1 w1
  obtain ⟨s3, e3, w3, hc3, hs3⟩ := run_lockRelease (E := E) w2 (hh.same (same_of_leaves hs2)) (by rw [hnum]; exact hb)
  rw [hnum] at hc3
  refine ⟨o, s1, s2, s3, ?_, e2, hs1, hs3, w3, hc3⟩
  simp only [withLock]
  rw [run_bind, e1, andThen_ok, run_bind, run_attempt, e2]
  cases o with
  | ok a => rw [asValue_ok, andThen_ok, run_bind, e3]; rfl
  | err e => rw [asValue_err, andThen_ok, run_bind, e3]; rfl
  | stuck => exact absurd rfl ho

/-- C174, the part that holds: as long as there are no more than 2^40 - 1 uses in all -/
theorem C174_many_partial {name : Str} {fuel : Nat} (hok : NamesOK E name) (hf : 0 < fuel) (rs : List (Except PyErr α))
    {s : Store} (w : s.WF) {fl : Nat} (hc : LockClean s name fl) (hb : fl + rs.length < 2 ^ 40) :
    (useAll E fuel name rs s).1 = rs.map asOutcome ∧ (useAll E fuel name rs s).2.WF ∧
      LockClean (useAll E fuel name rs s).2 name (fl + rs.length) := by
  induction rs generalizing s fl with
  | nil => exact ⟨rfl, w, hc⟩
  | cons r t ih =>
    simp only [List.length_cons] at hb
    obtain ⟨o, s1, s2, s3, e, eb, _, _, w3, hc3⟩ := C174_use w hok hf hc (by omega) (Prog.ofExcept r) (leaves_ofExcept _ r)
    obtain ⟨h1, h2, h3⟩ := ih w3 hc3 (by omega)
    have ho : o = asOutcome r := by
      cases r with
      | ok a => rw [run_ofExcept_ok] at eb; injection eb with eb _; exact eb.symm
      | error x => rw [run_ofExcept_err] at eb; injection eb with eb _; exact eb.symm
    simp only [useAll, e, List.map_cons, List.length_cons]
    refine ⟨by rw [h1, ho], h2, ?_⟩
    rw [show fl + (t.length + 1) = fl + 1 + t.length by omega]
    exact h3

/-- with the number 2^40: the body runs, what it returns or raises is lost to an `OverflowError`, and the lock is never let go -/
theorem C174_last {s : Store} (w : s.WF) {name : Str} {fl fuel : Nat} (hok : NamesOK E name) (hf : 0 < fuel)
    (hc : LockClean s name fl) (hb : fl + 1 = 2 ^ 40) (body : Prog α) (hl : Leaves E (lockNames name) body) :
    ∃ o s1 s2, (withLock (.sliding fuel) name body).run E s = (.err .overflowError, s2) ∧ body.run E s1 = (o, s2) ∧
      SameOff (lockNames name) s s1 ∧ s2.WF ∧ Blocked s2 name fl (fl + 2) := by
  have hb : fl + 1 = 256 ^ 5 := hb
  obtain ⟨h, s1, e1, hnum, w1, hh, hs1, hfl⟩ := run_lockEnter_any w hok hf hc (by omega)
  obtain ⟨o, s2, e2, ho, w2, hs2⟩ := hl s1 w1
  have hh2 := hh.same (same_of_leaves hs2)
  have hfl2 : fromLE (s2.segs h.count) = fl := by
    have h1 := (hs2 _ (lockNames_count name)).2
    rw [content_some hh.count, content_some hh2.count] at h1
    injection h1 with h1
    rw [h1]; exact hfl
  have hrel : (lockRelease name h).run E s2 = (.err .overflowError, s2) := by
    rw [lockRelease, run_bind, run_intBytes_overflow (by omega)]; rfl
  refine ⟨o, s1, s2, ?_, e2, hs1, w2, hh2.blocked hnum hfl2⟩
  simp only [withLock]
  rw [run_bind, e1, andThen_ok, run_bind, run_attempt, e2]
  cases o with
  | ok a => rw [asValue_ok, andThen_ok, run_bind, hrel]; rfl
  | err e => rw [asValue_err, andThen_ok, run_bind, hrel]; rfl
  | stuck => exact absurd rfl ho

/-- after that no use ever gets inside, however long it waits; with `max_spins` it raises `TimeoutError` -/
theorem C174_dead {s : Store} (w : s.WF) {name : Str} {fl fuel : Nat} (hok : NamesOK E name) (hf : 0 < fuel)
    (hc : LockClean s name fl) (hb : fl + 1 = 2 ^ 40) (r : Except PyErr α) :
    (∀ fuel' (body : Prog α),
      ((withLock (.sliding fuel') name body).run E ((withLock (.sliding fuel) name (Prog.ofExcept r)).run E s).2).1 = .stuck) ∧
    ∀ mx fuel' (body : Prog α), 2 ^ 40 + mx + 2 ≤ fuel' → ∃ s',
      (withLockT fuel' name mx 0 body).run E ((withLock (.sliding fuel) name (Prog.ofExcept r)).run E s).2 =
        (.ok (.error .timeoutError, mx + 1), s') := by
  obtain ⟨o, s1, s2, e, _, _, w2, hbl⟩ := C174_last w hok hf hc hb (Prog.ofExcept r) (leaves_ofExcept _ r)
  have hlt : fl + 2 < 256 ^ 8 := by
    have : (2 : Nat) ^ 40 + 1 < 256 ^ 8 := by decide
    omega
  rw [e]
  refine ⟨fun fuel' body => ?_, fun mx fuel' body hfu => ?_⟩
  · obtain ⟨s', n', h, _⟩ := run_withLock_blocked w2 hbl hok hlt fuel' body
    rw [h]
  · obtain ⟨s', h, _⟩ := C80_timeout w2 hbl hok hlt mx 0 fuel' (by omega) body
    exact ⟨s', by rw [h]; simp [spinsAfter]⟩

/-- a `TagIndex` whose lock has the number 2^40 to give: the key is added, the call raises `OverflowError`, and nothing can be
added or removed any more -/
theorem C174_index {s : Store} (w : s.WF) {ix : Index} {keys : List Str} {fl fuel : Nat} (h : IxRep E s ix keys)
    (hc : LockClean s ix.name fl) (hb : fl + 1 = 2 ^ 40) (hok : NamesOK E ix.name) (hf : 0 < fuel) {key : Key}
    (hk : key.hashed E = E.utf8 key.text) (hne : key.text ≠ []) (hlen : keys.length + 1 < 256 ^ 8)
    (hnew : ∀ k' ∈ keys, E.sha (E.utf8 k') ≠ E.sha (E.utf8 key.text)) (existsOk : Bool) :
    ∃ s', (indexAdd E (.sliding fuel) ix key existsOk).run E s = (.err .overflowError, s') ∧
      IxRep E s' ix (keys ++ [key.text]) ∧
      ∀ fuel' key' ok, ((indexAdd E (.sliding fuel') ix key' ok).run E s').1 = .stuck ∧
        ((indexDel E (.sliding fuel') ix key').run E s').1 = .stuck := by
  have hb' : fl + 1 = 256 ^ 5 := hb
  obtain ⟨hd, s1, e1, hnum, w1, hh, hs1, hfl⟩ := run_lockEnter_any w hok hf hc (by omega)
  obtain ⟨s2, e2, w2, h2, hs2⟩ := run_indexAddNew w1 (h.sameLock hs1) hok hk hne hlen hnew existsOk
  have hoff := hs2.offLock
  have hh2 := hh.same hoff
  have hfl2 : fromLE (s2.segs hd.count) = fl := by
    have h1 := (hoff _ (by simpa using lockNames_count ix.name)).2
    rw [content_some hh.count, content_some hh2.count] at h1
    injection h1 with h1
    rw [h1]; exact hfl
  have hbl := hh2.blocked hnum hfl2
  have hlt : fl + 2 < 256 ^ 8 := by
    have : (2 : Nat) ^ 40 + 1 < 256 ^ 8 := by decide
    omega
  refine ⟨s2, ?_, h2, fun fuel' key' ok => ⟨?_, ?_⟩⟩
  · have hrel : (lockRelease ix.name hd).run E s2 = (.err .overflowError, s2) := by
      rw [lockRelease, run_bind, run_intBytes_overflow (by omega)]; rfl
    simp only [indexAdd, withLock]
    rw [run_bind, e1, andThen_ok, run_bind, run_attempt, e2, asValue_ok, andThen_ok, run_bind, hrel]; rfl
  · obtain ⟨s', n', e, _⟩ := run_withLock_blocked w2 hbl hok hlt fuel' (indexAdd_ E ix key' ok)
    rw [indexAdd, e]
  · obtain ⟨s', n', e, _⟩ := run_withLock_blocked w2 hbl hok hlt fuel' (indexDel_ E ix key')
    rw [indexDel, e]

theorem useAll_append (fuel : Nat) (name : Str) (a b : List (Except PyErr α)) (s : Store) :
    (useAll E fuel name (a ++ b) s).1 = (useAll E fuel name a s).1 ++ (useAll E fuel name b (useAll E fuel name a s).2).1 := by
  induction a generalizing s with
  | nil => rfl
  | cons r t ih => simp only [List.cons_append, useAll, ih]

/-- a lock that has been used `2 ^ 40 - 1` times is free, with that count -/
theorem worn_out (fuel : Nat) (hf : 0 < fuel) (name : Str) (hok : NamesOK E name) :
    ∀ n, n < 2 ^ 40 → (useAll E fuel name (List.replicate n (.ok () : Except PyErr Unit)) Store.empty).2.WF ∧
      LockClean (useAll E fuel name (List.replicate n (.ok () : Except PyErr Unit)) Store.empty).2 name n := by
  intro n hn
  obtain ⟨_, h2, h3⟩ := C174_many_partial (E := E) (name := name) (fuel := fuel) hok hf (List.replicate n (.ok () : Except PyErr Unit))
    wf_empty (fl := 0) ⟨Or.inl ⟨rfl, rfl⟩, fun _ => rfl, fun _ => rfl⟩ (by rw [List.length_replicate]; omega)
  rw [List.length_replicate, Nat.zero_add] at h3
  exact ⟨h2, h3⟩

/-- C174 is false of the code: use number 2^40 raises `OverflowError` -/
theorem C174_full_false : ¬ C174_full := by
  intro h
  have hok : NamesOK labEnv ['n'] := labNames (by simp)
  generalize hN : (2 : Nat) ^ 40 - 1 = N
  have hN1 : N + 1 = 2 ^ 40 := by
    have : (0 : Nat) < 2 ^ 40 := by decide
    omega
  obtain ⟨w, hc⟩ := worn_out (E := labEnv) 1 (by omega) ['n'] hok N (by omega)
  obtain ⟨o, s1, s2, e, _⟩ := C174_last w hok (fuel := 1) (by omega) hc hN1 (Prog.ofExcept (.ok ())) (leaves_ofExcept _ _)
  have h1 := h labEnv ['n'] 1 hok (by omega) (List.replicate N (.ok ()) ++ [.ok ()])
  rw [useAll_append, List.map_append] at h1
  have h2 := congrArg List.getLast? h1
  simp only [useAll, e, List.map_cons, List.map_nil, asOutcome, List.getLast?_append, List.getLast?_singleton,
    Option.some_or, Option.some.injEq] at h2
  cases h2

/-- four uses, one of which raises -/
example : (useAll labEnv 1 ['n'] [.ok 1, .ok 2, .error .keyError, .ok 3] Store.empty).1 = [.ok 1, .ok 2, .err .keyError, .ok 3] :=
  (C174_many_partial (labNames (by simp)) (by omega) _ wf_empty (fl := 0) ⟨Or.inl ⟨rfl, rfl⟩, fun _ => rfl, fun _ => rfl⟩
    (by decide)).1

/-- memory in which the lock has the number 2^40 to give -/
example : ∃ s : Store, s.WF ∧ LockClean s ['n'] (2 ^ 40 - 1) :=
  ⟨_, worn_out (E := labEnv) 1 (by omega) ['n'] (labNames (by simp)) (2 ^ 40 - 1) (by decide)⟩

end Verif.Props
