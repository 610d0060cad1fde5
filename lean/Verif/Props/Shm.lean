import Verif.Lemmas.ShmWF
import Verif.Model.Notepad
/-!
# C34-C37: single blocks of shared memory

`s.content x` is what a process sees that opens the block at address `x`: its bytes, or nothing. A world is `WF` when
no two names share a segment; the empty world is, and every program keeps it so (`run_wf`).
-/
namespace Verif.Props
open Verif Verif.Model Verif.Lemmas

/-! ## platforms for the examples -/

/-- a platform for the examples: names must not contain `/`; text is its code points; the "hash" is the text itself -/
def demoEnv : Env where
  okName := fun n => !n.contains '/'
  utf8 := fun s => s.map Char.toNat
  utf8dec := fun b => some (b.map Char.ofNat)
  utf8_roundtrip := by
    intro s
    have : (Char.ofNat ∘ Char.toNat) = id := by funext c; simp
    simp [List.map_map, this]
  utf8_nil := rfl
  utf8dec_zeros := by intro n; simp
  sha := fun b => b.map Char.ofNat

/-- a codec for the examples: numbers as single bytes; 0 cannot be encoded, 1 encodes to nothing -/
def demoCodec : Codec Nat where
  encode := fun v => if v = 0 then .error .typeError else if v = 1 then .ok [] else .ok (List.replicate v v)
  decode := fun b => match b with
    | [] => .error .valueError
    | x :: _ => .ok x

def addrA : Str := "a".toList
def addrB : Str := "b".toList
/-- a world with the blocks `a` = [7, 7, 7] and `b` = [1] -/
def demoStore : Store where
  names := fun x => if x = addrA then some 0 else if x = addrB then some 1 else none
  segs := fun i => if i = 0 then [7, 7, 7] else [1]
  next := 2

theorem demoStore_wf : demoStore.WF := by
  constructor
  · intro n i h
    simp only [demoStore] at h ⊢
    split at h
    · simp at h; omega
    · split at h
      · simp at h; omega
      · simp at h
  · intro n n' i h h'
    simp only [demoStore] at h h'
    split at h <;> split at h' <;> (try split at h) <;> (try split at h') <;> simp_all <;> omega

/-! ## C34 -/

variable {V : Type}

/-- C34: storing a value whose encoding is `b` and reading the address back gives `decode b`, whatever was there
before, and every other address keeps its contents. -/
theorem C34_memorize_remember (E : Env) (c : Codec V) (s : Store) (w : s.WF) (v : V) (a : Str) (b : Bytes)
    (existsOk : Bool) (hok : E.okName a = true) (henc : c.encode v = .ok b) (hb : b ≠ [])
    (hfree : existsOk = true ∨ s.content a = none) :
    ∃ s', (memorize c v a existsOk).run E s = (.ok a, s') ∧
      s'.content a = some b ∧ (∀ x, x ≠ a → s'.content x = s.content x) ∧
      (remember c a).run E s' = (match c.decode b with | .ok r => .ok r | .error e => .err e, s') := by
  obtain ⟨i, s1, s', e1, e2, n, f, _⟩ := run_put w hb hok (E := E)
  have hc : s'.content a = some b := by rw [f.content]; simp
  refine ⟨s', ?_, hc, fun x hx => by rw [f.content, if_neg hx], ?_⟩
  · rw [memorize]
    have tail : (do
        let encoded ← Prog.ofExcept (c.encode v)
        let block ← openBlock a encoded.length true true
        write block encoded
        pure a : Prog Str).run E s = (.ok a, s') := by
      rw [henc, run_bind, run_ofExcept_ok, andThen_ok, run_bind, e1, andThen_ok, run_bind, e2]; rfl
    cases existsOk with
    | true => exact tail
    | false =>
      have hn : s.names a = none := by
        rcases hfree with h | h
        · simp at h
        · exact content_none.1 h
      simp only [if_true]
      rw [run_bind, run_existsBlock s hok, andThen_ok, hn]
      exact tail
  · rw [remember, run_bind, run_fetchBlockBytes hok hc, andThen_ok]
    cases c.decode b <;> rfl

/-- C34: with `exists_ok=False` an existing block is left alone -/
theorem C34_refuses (E : Env) (c : Codec V) (s : Store) (v : V) (a : Str) (hok : E.okName a = true)
    (hex : s.content a ≠ none) : (memorize c v a false).run E s = (.err .fileExists, s) := by
  rw [memorize]
  simp only [if_true]
  rw [run_bind, run_existsBlock s hok, andThen_ok]
  have : (s.names a).isSome = true := by
    cases hn : s.names a with
    | none => exact absurd (content_none.2 hn) hex
    | some i => rfl
  rw [this]; rfl

/-- C34: an encoder that fails, or an empty encoding, changes nothing -/
theorem C34_bad_value (E : Env) (c : Codec V) (s : Store) (v : V) (a : Str) :
    (∀ e, c.encode v = .error e → (memorize c v a true).run E s = (.err e, s)) ∧
    (c.encode v = .ok [] → (memorize c v a true).run E s = (.err .valueError, s)) := by
  constructor
  · intro e he
    simp only [memorize, he, Bool.true_eq_false, if_false]
    rfl
  · intro he
    simp only [memorize, he, Bool.true_eq_false, if_false]
    rw [run_bind, run_ofExcept_ok, andThen_ok, run_bind]
    rw [List.length_nil, run_openBlock_zero]; rfl

-- block `a` holds three bytes; storing 5 (five bytes) replaces them, `b` is untouched
example : ∃ s', (memorize demoCodec 5 addrA true).run demoEnv demoStore = (.ok addrA, s') ∧
    s'.content addrA = some [5, 5, 5, 5, 5] ∧ s'.content addrB = some [1] ∧
    (remember demoCodec addrA).run demoEnv s' = (.ok 5, s') := by
  obtain ⟨s', h1, h2, h3, h4⟩ := C34_memorize_remember demoEnv demoCodec demoStore demoStore_wf 5 addrA
    [5, 5, 5, 5, 5] true rfl rfl (by simp) (Or.inl rfl)
  exact ⟨s', h1, h2, (h3 addrB (by decide)).trans rfl, h4⟩

example : (memorize demoCodec 5 addrA false).run demoEnv demoStore = (.err .fileExists, demoStore) :=
  C34_refuses _ _ _ _ _ rfl (by simp [demoStore, Store.content])

example : (memorize demoCodec 1 addrA true).run demoEnv demoStore = (.err .valueError, demoStore) :=
  (C34_bad_value _ _ _ _ _).2 rfl

/-! ## C35 -/

/-- C35: `open_block` with `create=True`: a fresh zeroed block where none was; the existing block, unchanged, without
`overwrite`; a fresh zeroed block of the requested size in place of the old one with `overwrite`. Other addresses keep
their contents. -/
theorem C35_open_block (E : Env) (s : Store) (w : s.WF) (a : Str) (size : Nat) (overwrite : Bool)
    (hok : E.okName a = true) (hz : 0 < size) :
    ∃ i s', (openBlock a size true overwrite).run E s = (.ok i, s') ∧ s'.names a = some i ∧
      (∀ x, x ≠ a → s'.content x = s.content x) ∧
      s'.content a = (if overwrite = true ∨ s.content a = none then some (List.replicate size 0) else s.content a) := by
  cases overwrite with
  | true =>
    obtain ⟨i, s', e, n, g, f⟩ := run_openBlock_fresh w (Nat.ne_of_gt hz) hok (E := E)
    exact ⟨i, s', e, n, fun x hx => by rw [f.content, if_neg hx], by rw [f.content]; simp⟩
  | false =>
    cases hn : s.names a with
    | none =>
      have f := eff_created w a size
      refine ⟨_, _, run_openBlock_new (Nat.ne_of_gt hz) hok hn, by simp, fun x hx => by rw [f.content, if_neg hx], ?_⟩
      rw [f.content, content_none.2 hn]; simp
    | some i =>
      refine ⟨_, _, run_openBlock_attach (Nat.ne_of_gt hz) hok hn, hn, fun x _ => rfl, ?_⟩
      rw [content_some hn]; simp

/-- C35: `create=False` attaches and never creates; a size of 0 is refused when creating -/
theorem C35_no_create (E : Env) (s : Store) (a : Str) (size : Nat) (overwrite : Bool) (hok : E.okName a = true) :
    (openBlock a size false overwrite).run E s =
      (match s.names a with | some i => .ok i | none => .err .fileNotFound, s) ∧
    (openBlock a 0 true overwrite).run E s = (.err .valueError, s) := by
  refine ⟨?_, run_openBlock_zero s⟩
  cases hn : s.names a with
  | none => exact run_openBlock_nocreate_none hok hn
  | some i => exact run_openBlock_nocreate hok hn

example : ∃ i s', (openBlock addrA 8 true false).run demoEnv demoStore = (.ok i, s') ∧ s'.names addrA = some i ∧
    (∀ x, x ≠ addrA → s'.content x = demoStore.content x) ∧ s'.content addrA = some [7, 7, 7] :=
  C35_open_block demoEnv demoStore demoStore_wf addrA 8 false rfl (by omega)

example : ∃ i s', (openBlock addrA 2 true true).run demoEnv demoStore = (.ok i, s') ∧ s'.names addrA = some i ∧
    (∀ x, x ≠ addrA → s'.content x = demoStore.content x) ∧ s'.content addrA = some [0, 0] :=
  C35_open_block demoEnv demoStore demoStore_wf addrA 2 true rfl (by omega)

/-! ## C36 -/

/-- C36 in full: deleting an existing block removes exactly that block; deleting a missing one raises, unless
`missing_ok` -/
def C36_full : Prop :=
  ∀ (E : Env) (s : Store) (a : Str) (missingOk : Bool), s.WF → E.okName a = true →
    (s.content a ≠ none → ∃ s', (deleteBlock a missingOk).run E s = (.ok (), s') ∧
      ∀ x, s'.content x = if x = a then none else s.content x) ∧
    (s.content a = none → (deleteBlock a missingOk).run E s =
      (if missingOk then .ok () else .err .fileNotFound, s))

/-- C36, the part that holds: an existing block is removed, and nothing else -/
theorem C36_delete_block_partial (E : Env) (s : Store) (a : Str) (missingOk : Bool) (hok : E.okName a = true)
    (hex : s.content a ≠ none) : ∃ s', (deleteBlock a missingOk).run E s = (.ok (), s') ∧
      ∀ x, s'.content x = if x = a then none else s.content x := by
  cases hn : s.names a with
  | none => exact absurd (content_none.2 hn) hex
  | some i => exact ⟨_, run_deleteBlock hok hn, content_unlinked s a⟩

/-- C36: `missing_ok` has no effect: a missing block raises `FileNotFoundError` whatever its value -/
theorem C36_missing_ok_ignored (E : Env) (s : Store) (a : Str) (missingOk : Bool) (hok : E.okName a = true)
    (hm : s.content a = none) : (deleteBlock a missingOk).run E s = (.err .fileNotFound, s) :=
  run_deleteBlock_none hok (content_none.1 hm)

/-- C36 is false of the code -/
theorem C36_full_false : ¬ C36_full := by
  intro h
  have h1 := (h demoEnv Store.empty addrA true wf_empty rfl).2 rfl
  rw [C36_missing_ok_ignored demoEnv Store.empty addrA true rfl rfl] at h1
  simp at h1

example : ∃ s', (deleteBlock addrA false).run demoEnv demoStore = (.ok (), s') ∧
    ∀ x, s'.content x = if x = addrA then none else demoStore.content x :=
  C36_delete_block_partial demoEnv demoStore addrA false rfl (by simp [demoStore, Store.content])

/-! ## C37 -/

/-- C37: after `Sticky.note(v, a)` on a free address, a new `Sticky(a)` anywhere reads `v` -/
theorem C37_sticky_read (E : Env) (c : Codec V) (isNone : V → Bool) (s : Store) (w : s.WF) (v : V) (a : Str)
    (b : Bytes) (hok : E.okName a = true) (henc : c.encode v = .ok b) (hdec : c.decode b = .ok v) (hb : b ≠ [])
    (hv : isNone v = false) (hfree : s.content a = none) (reread : Bool) :
    ∃ n s', (stickyNote c isNone v a).run E s = (.ok n, s') ∧
      (∀ x, x ≠ a → s'.content x = s.content x) ∧
      (∃ n', (stickyRead c isNone (stickyInit a) reread).run E s' = (.ok (some v, n'), s')) ∧
      (∃ n', (stickyRead c isNone n reread).run E s' = (.ok (some v, n'), s')) := by
  have hz : b.length ≠ 0 := by simpa using hb
  have hn := content_none.1 hfree
  have f := (eff_created w a b.length)
  have hn1 : (s.created a b.length).names a = some s.next := by simp
  obtain ⟨s', e2, n2, f2⟩ := run_write_at (E := E) (b := b) f.wf hn1 (by simp [Store.created])
  have f3 := f.trans f2
  have hc : s'.content a = some b := by rw [f3.content]; simp
  obtain ⟨i, hi, hsi⟩ := names_of_content hc
  have rd : ∀ m : Sticky V, m.address = a → (m.cached = none ∨ reread = true) →
      ∃ n', (stickyRead c isNone m reread).run E s' = (.ok (some v, n'), s') := by
    intro m hm hcase
    refine ⟨{ m with cached := some v }, ?_⟩
    have : (do
      match ← (attach m.address).attempt with
      | .error .fileNotFound => pure (none, m)
      | .error e => .raise e
      | .ok h => do
        let b ← read h
        let v ← Prog.ofExcept (c.decode b)
        let r := if isNone v then none else some v
        pure (r, { m with cached := r }) : Prog (Option V × Sticky V)).run E s' =
        (.ok (some v, { m with cached := some v }), s') := by
      rw [hm, run_bind, run_attempt, run_attach hok hi, asValue_ok, andThen_ok]
      simp only []
      rw [run_bind, run_read, andThen_ok, hsi, run_bind, hdec, run_ofExcept_ok, andThen_ok]
      simp [hv]
    unfold stickyRead
    cases hcd : m.cached with
    | none => exact this
    | some u =>
      cases reread with
      | true => exact this
      | false => rw [hcd] at hcase; simp at hcase
  refine ⟨{ address := a, cached := some v }, s', ?_, fun x hx => by rw [f3.content, if_neg hx], ?_, ?_⟩
  · unfold stickyNote stickyStick
    simp only [hv]
    rw [henc, run_bind, run_ofExcept_ok, andThen_ok, run_bind, run_openBlock_new hz hok hn, andThen_ok, run_bind, e2]
    rfl
  · exact rd _ rfl (Or.inl rfl)
  · cases hr : reread with
    | true => rw [hr] at rd; exact rd _ rfl (Or.inr rfl)
    | false => exact ⟨_, rfl⟩

/-- C37: restick with an encoding of the same length replaces the stored value; with a different length it raises
`ValueError` and the stored value stays -/
theorem C37_restick (E : Env) (c : Codec V) (isNone : V → Bool) (s : Store) (w : s.WF) (m : Sticky V) (v : V)
    (old b : Bytes) (hok : E.okName m.address = true) (hold : s.content m.address = some old)
    (henc : c.encode v = .ok b) (hb : b ≠ []) :
    if b.length = old.length then
      ∃ n s', (stickyStick c isNone m v).run E s = (.ok n, s') ∧
        ∀ x, s'.content x = if x = m.address then some b else s.content x
    else (stickyStick c isNone m v).run E s = (.err .valueError, s) := by
  have hz : b.length ≠ 0 := by simpa using hb
  obtain ⟨i, hi, hsi⟩ := names_of_content hold
  split
  · rename_i hl
    obtain ⟨s', e, n, f⟩ := run_write_at (E := E) (b := b) w hi (by rw [hsi]; exact hl)
    refine ⟨{ m with cached := if isNone v then none else some v }, s', ?_, fun x => by rw [f.content]⟩
    unfold stickyStick
    rw [henc, run_bind, run_ofExcept_ok, andThen_ok, run_bind, run_openBlock_attach hz hok hi, andThen_ok, run_bind, e]
    rfl
  · rename_i hl
    unfold stickyStick
    rw [henc, run_bind, run_ofExcept_ok, andThen_ok, run_bind, run_openBlock_attach hz hok hi, andThen_ok, run_bind,
      run_write_bad (by rw [hsi]; exact hl)]
    rfl

/-- C37: `read` of a free address gives `None` -/
theorem C37_nothing_there (E : Env) (c : Codec V) (isNone : V → Bool) (s : Store) (a : Str) (reread : Bool)
    (hok : E.okName a = true) (hfree : s.content a = none) :
    (stickyRead c isNone (stickyInit a) reread).run E s = (.ok (none, stickyInit a), s) := by
  unfold stickyRead stickyInit
  simp only []
  rw [run_bind, run_attempt, run_attach_none hok (content_none.1 hfree)]
  rfl

example : ∃ n s', (stickyNote demoCodec (fun _ => false) 4 "n".toList).run demoEnv demoStore = (.ok n, s') ∧
    (∀ x, x ≠ "n".toList → s'.content x = demoStore.content x) ∧
    (∃ n', (stickyRead demoCodec (fun _ => false) (stickyInit "n".toList) true).run demoEnv s' =
      (.ok (some 4, n'), s')) ∧
    (∃ n', (stickyRead demoCodec (fun _ => false) n true).run demoEnv s' = (.ok (some 4, n'), s')) :=
  C37_sticky_read demoEnv demoCodec _ demoStore demoStore_wf 4 _ [4, 4, 4, 4] (by decide) rfl rfl (by simp) rfl
    (by decide) true

-- five bytes over the three of block `a`: refused
example : (stickyStick demoCodec (fun _ => false) (stickyInit addrA) 5).run demoEnv demoStore =
    (.err .valueError, demoStore) :=
  C37_restick demoEnv demoCodec _ demoStore demoStore_wf (stickyInit addrA) 5 [7, 7, 7] [5, 5, 5, 5, 5] rfl rfl rfl
    (by simp)

end Verif.Props
