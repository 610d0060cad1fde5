import Verif.Lemmas.TrackerHist
import Verif.Lemmas.Pad
/-! # The names in the programs of a notepad, and what a program leaves in the tracker's set -/
namespace Verif.Lemmas
open Verif Verif.Model Verif.Spec
variable {α β : Type} {E : Env} {P : Str → Prop}

theorem namesIn_bind {p : Prog α} {f : α → Prog β} (h : NamesIn P p) (hf : ∀ a, NamesIn P (f a)) :
    NamesIn P (p >>= f) := by
  show NamesIn P (p.bind f)
  induction p with
  | ret a => exact hf a
  | raise e => trivial
  | stuck => trivial
  | op o k ih => exact ⟨h.1, fun r => ih r (h.2 r)⟩

theorem namesIn_attempt {p : Prog α} (h : NamesIn P p) : NamesIn P p.attempt := by
  unfold Prog.attempt
  induction p with
  | ret a => trivial
  | raise e => trivial
  | stuck => trivial
  | op o k ih => exact ⟨h.1, fun r => ih r (h.2 r)⟩

theorem namesIn_prim {o : Op} (h : ∀ cmd n, o.note = some (cmd, '/' :: n) → P n) : NamesIn P (Prog.prim o) :=
  ⟨h, fun r => by cases r <;> trivial⟩

theorem namesIn_ofExcept (r : Except PyErr α) : NamesIn P (Prog.ofExcept r) := by cases r <;> trivial
theorem namesIn_create {n : Str} {k : Nat} (h : P n) : NamesIn P (create n k) :=
  namesIn_prim fun _ _ e => by simp [Op.note] at e; rw [← e.2]; exact h
theorem namesIn_attach {n : Str} (h : P n) : NamesIn P (attach n) :=
  namesIn_prim fun _ _ e => by simp [Op.note] at e; rw [← e.2]; exact h
theorem namesIn_unlink {n : Str} (h : P n) : NamesIn P (unlink n) :=
  namesIn_prim fun _ _ e => by simp [Op.note] at e; rw [← e.2]; exact h
theorem namesIn_read (i : Nat) : NamesIn P (read i) := namesIn_prim fun _ _ e => by simp [Op.note] at e
theorem namesIn_write (i : Nat) (b : Bytes) : NamesIn P (write i b) := namesIn_prim fun _ _ e => by simp [Op.note] at e
theorem namesIn_intBytes (w n : Nat) : NamesIn P (intBytes w n) := by unfold intBytes; split <;> trivial

theorem namesIn_openBlock {a : Str} {k : Nat} {cr ow : Bool} (h : P a) : NamesIn P (openBlock a k cr ow) := by
  unfold openBlock
  refine namesIn_bind (namesIn_attempt (by split; exact namesIn_create h; exact namesIn_attach h)) fun r => ?_
  rcases r with e | v
  · cases e <;> try trivial
    dsimp only
    split
    · exact namesIn_attach h
    · exact namesIn_bind (namesIn_attach h) fun _ => namesIn_bind (namesIn_unlink h) fun _ => namesIn_create h
  · trivial

theorem namesIn_existsBlock {a : Str} (h : P a) : NamesIn P (existsBlock a) := by
  unfold existsBlock
  refine namesIn_bind (namesIn_attempt (namesIn_attach h)) fun r => ?_
  rcases r with e | v
  · cases e <;> trivial
  · trivial

theorem namesIn_deleteBlock {a : Str} {mo : Bool} (h : P a) : NamesIn P (deleteBlock a mo) := by
  unfold deleteBlock
  refine namesIn_bind (namesIn_attempt (namesIn_bind (namesIn_attach h) fun _ => namesIn_unlink h)) fun r => ?_
  rcases r with e | v
  · cases e <;> try trivial
    dsimp only
    split <;> trivial
  · trivial

theorem namesIn_fetch {a : Str} (h : P a) : NamesIn P (fetchBlockBytes a) :=
  namesIn_bind (namesIn_attach h) fun i => namesIn_read i

theorem namesIn_remember {V : Type} {c : Codec V} {a : Str} (h : P a) : NamesIn P (remember c a) :=
  namesIn_bind (namesIn_fetch h) fun _ => namesIn_ofExcept _

theorem namesIn_memorize {V : Type} {c : Codec V} {v : V} {a : Str} {eo : Bool} (h : P a) :
    NamesIn P (memorize c v a eo) := by
  have h2 : NamesIn P (do
      let encoded ← Prog.ofExcept (c.encode v)
      let block ← openBlock a encoded.length true true
      write block encoded
      pure a : Prog Str) :=
    namesIn_bind (namesIn_ofExcept _) fun b => namesIn_bind (namesIn_openBlock h) fun i =>
      namesIn_bind (namesIn_write _ _) fun _ => trivial
  unfold memorize
  split
  · refine namesIn_bind (namesIn_existsBlock h) fun r => ?_
    cases r with
    | true => trivial
    | false => exact h2
  · exact h2

/-! the index and its lock; `P` holds of everything beginning with the index's name -/

theorem namesIn_renumber {name : Str} (h : ∀ n, P (markerAddr name n)) (f k : Nat) : NamesIn P (renumber name f k) := by
  induction f generalizing k with
  | zero => trivial
  | succ f ih =>
    refine namesIn_bind (namesIn_attempt (namesIn_create (h k))) fun r => ?_
    rcases r with e | v
    · cases e <;> first | trivial | exact ih _
    · trivial

theorem namesIn_scanLocks {name : Str} (h : ∀ n, P (lockAddr name n)) (fl d : Nat) : NamesIn P (scanLocks name fl d) := by
  induction d with
  | zero => trivial
  | succ d ih =>
    refine namesIn_bind (namesIn_existsBlock (h _)) fun r => ?_
    cases r with
    | true => trivial
    | false => exact ih

theorem namesIn_spin {name : Str} (h : ∀ n, P (lockAddr name n)) (fl n f : Nat) : NamesIn P (spin name fl n f) := by
  induction f with
  | zero => trivial
  | succ f ih =>
    refine namesIn_bind (namesIn_scanLocks h _ _) fun r => ?_
    cases r with
    | true => trivial
    | false => exact ih

theorem namesIn_withLock {name : Str} {mode : LockMode} {body : Prog α} (h : ∀ t, AsciiText t → P (name ++ t))
    (hb : NamesIn P body) : NamesIn P (withLock mode name body) := by
  have hd : ∀ n, AsciiText (natStr n) := fun n c hc => by
    have := natStrAux_digits _ _ c hc
    omega
  have hm : ∀ n, P (markerAddr name n) := fun n => h _ fun c hc => by
    simp only [List.mem_cons] at hc
    rcases hc with rfl | hc
    · decide
    · exact hd n c hc
  have hl : ∀ n, P (lockAddr name n) := fun n => h _ fun c hc => by
    simp only [List.mem_cons, List.mem_append] at hc
    rcases hc with rfl | hc | hc
    · decide
    · exact hd n c hc
    · revert c; decide
  have hc : P (countAddr name) := h _ (by unfold AsciiText; decide)
  cases mode with
  | fake => exact hb
  | sliding f =>
    have h1 : NamesIn P (lockEnter f name) := by
      refine namesIn_bind (namesIn_openBlock hc) fun i => namesIn_bind (namesIn_read i) fun b =>
        namesIn_bind (namesIn_renumber hm _ _) fun n => namesIn_bind (namesIn_attempt (namesIn_create (hl n))) fun r => ?_
      rcases r with e | v
      · cases e <;> first | trivial | exact namesIn_bind (namesIn_unlink (hm n)) fun _ => trivial
      · exact namesIn_bind (namesIn_spin hl _ _ _) fun _ => trivial
    refine namesIn_bind h1 fun x => namesIn_bind (namesIn_attempt hb) fun r => namesIn_bind ?_ fun _ => namesIn_ofExcept _
    refine namesIn_bind (namesIn_intBytes _ _) fun b => namesIn_bind (namesIn_write _ _) fun _ => ?_
    split
    · exact namesIn_bind (namesIn_unlink (hl _)) fun _ => namesIn_unlink (hm _)
    · exact namesIn_unlink (hm _)

theorem asciiText_append {a b : Str} (ha : AsciiText a) (hb : AsciiText b) : AsciiText (a ++ b) := fun c hc => by
  rcases List.mem_append.1 hc with h | h
  · exact ha c h
  · exact hb c h

theorem ascii_natStr (n : Nat) : AsciiText (natStr n) := fun c hc => by
  have := natStrAux_digits _ _ c hc
  omega

variable {ix : Index} (hx : AsciiText ix.name) (hE : HexSha E)
include hx hE

theorem ascii_hashAddr (b : Bytes) : AsciiText (hashAddr E ix.name b) :=
  asciiText_append (asciiText_append hx (by unfold AsciiText; decide)) (hE b)

omit hE in
theorem ascii_keyAddr (n : Nat) : AsciiText (keyAddr ix.name n) :=
  asciiText_append (asciiText_append hx (by unfold AsciiText; decide)) (ascii_natStr n)

theorem ascii_check (b : Bytes) : NamesIn AsciiText (check E ix b) := by
  refine namesIn_bind (namesIn_existsBlock (ascii_hashAddr hx hE b)) fun r => ?_
  cases r with
  | true => exact namesIn_bind (namesIn_attach (ascii_hashAddr hx hE b)) fun i => namesIn_bind (namesIn_read i) fun _ => trivial
  | false => trivial

omit hE in
theorem ascii_indexUpdate : NamesIn AsciiText (indexUpdate E ix) := by
  have h : ∀ d i, NamesIn AsciiText (enumerateKeys E ix i d) := by
    intro d
    induction d with
    | zero => intro i; trivial
    | succ d ih =>
      intro i
      refine namesIn_bind ?_ fun k => namesIn_bind (ih _) fun _ => trivial
      refine namesIn_bind (namesIn_attempt (namesIn_attach (ascii_keyAddr hx i))) fun r => ?_
      rcases r with e | v
      · cases e <;> trivial
      · refine namesIn_bind (namesIn_read v) fun b => namesIn_bind ?_ fun _ => trivial
        unfold decodeUtf8; split <;> trivial
  exact namesIn_bind (namesIn_bind (namesIn_read _) fun _ => trivial) fun n => h n 0

theorem ascii_indexAdd (mode : LockMode) (key : Key) (eo : Bool) : NamesIn AsciiText (indexAdd E mode ix key eo) := by
  refine namesIn_withLock (fun t ht => asciiText_append hx ht) ?_
  refine namesIn_bind (ascii_check hx hE _) fun r => ?_
  cases r with
  | some i => dsimp only; split <;> trivial
  | none =>
    exact namesIn_bind (namesIn_bind (namesIn_read _) fun _ => trivial) fun n => namesIn_bind (namesIn_intBytes _ _) fun _ =>
      namesIn_bind (namesIn_write _ _) fun _ => namesIn_bind (namesIn_openBlock (ascii_keyAddr hx n)) fun _ =>
      namesIn_bind (namesIn_write _ _) fun _ => namesIn_bind (namesIn_intBytes _ _) fun _ =>
      namesIn_bind (namesIn_openBlock (ascii_hashAddr hx hE _)) fun _ => namesIn_bind (namesIn_write _ _) fun _ => trivial

theorem ascii_indexDel (mode : LockMode) (key : Key) : NamesIn AsciiText (indexDel E mode ix key) := by
  refine namesIn_withLock (fun t ht => asciiText_append hx ht) ?_
  refine namesIn_bind (ascii_check hx hE _) fun r => ?_
  have hlast : ∀ n found, NamesIn AsciiText (do
      deleteBlock (hashAddr E ix.name (key.hashed E))
      let nb ← intBytes 8 (n - 1)
      write ix.memory nb
      pure (found, n) : Prog (Nat × Nat)) := fun n found =>
    namesIn_bind (namesIn_deleteBlock (ascii_hashAddr hx hE _)) fun _ => namesIn_bind (namesIn_intBytes _ _) fun _ =>
      namesIn_bind (namesIn_write _ _) fun _ => trivial
  cases r with
  | none => trivial
  | some i =>
    refine namesIn_bind (namesIn_bind (namesIn_read _) fun _ => trivial) fun n => ?_
    dsimp only
    split
    · exact namesIn_bind (namesIn_attach (ascii_keyAddr hx _)) fun _ => namesIn_bind (namesIn_read _) fun lk =>
        namesIn_bind (namesIn_openBlock (ascii_keyAddr hx _)) fun _ => namesIn_bind (namesIn_write _ _) fun _ =>
        namesIn_bind (namesIn_attach (ascii_hashAddr hx hE lk)) fun _ => namesIn_bind (namesIn_intBytes _ _) fun _ =>
        namesIn_bind (namesIn_write _ _) fun _ => namesIn_bind (namesIn_unlink (ascii_keyAddr hx _)) fun _ => hlast n i
    · exact namesIn_bind (namesIn_deleteBlock (ascii_keyAddr hx _)) fun _ => hlast n i

omit hx
variable {V : Type} {c : Codec V} {isNone : V → Bool}

theorem ascii_padIndexAdd {p : Pad} (hp : ∀ ix, p.index = .tag ix → AsciiText ix.name) (key : Key) (hm eo : Bool) :
    NamesIn AsciiText (padIndexAdd E p key hm eo) := by
  unfold padIndexAdd
  rcases e : p.index with ix | _
  · dsimp only
    split
    · trivial
    · exact namesIn_bind (ascii_indexAdd (hp ix e) hE _ _ _) fun _ => trivial
  · trivial

theorem ascii_padSet {p : Pad} (hp : ∀ ix, p.index = .tag ix → AsciiText ix.name) {key : Key}
    (hk : AsciiText (padAddr p.pre key.text)) (v : V) (eo hm : Bool) : NamesIn AsciiText (padSet E c p key v eo hm) := by
  unfold padSet
  split
  · trivial
  · refine namesIn_bind (namesIn_attempt (namesIn_bind (ascii_padIndexAdd hE hp key hm eo) fun _ =>
      namesIn_bind (namesIn_memorize hk) fun _ => trivial)) fun r => ?_
    rcases r with e | v
    · cases e <;> trivial
    · trivial

omit hE in
theorem ascii_padGet {p : Pad} {key : Key} (hk : AsciiText (padAddr p.pre key.text)) :
    NamesIn AsciiText (padGet c isNone p key) := by
  refine namesIn_bind (namesIn_remember hk) fun r => ?_
  split <;> trivial

theorem ascii_padDel {p : Pad} (hp : ∀ ix, p.index = .tag ix → AsciiText ix.name) {key : Key}
    (hk : AsciiText (padAddr p.pre key.text)) : NamesIn AsciiText (padDel E p key) := by
  unfold padDel
  split
  · trivial
  · refine namesIn_bind (namesIn_attempt (namesIn_bind (namesIn_deleteBlock hk) fun _ => ?_)) fun r => ?_
    · unfold padIndexDel
      rcases e : p.index with ix | _
      · exact namesIn_bind (ascii_indexDel (hp ix e) hE _ _) fun _ => trivial
      · trivial
    · rcases r with e | v
      · cases e <;> trivial
      · trivial

omit hE in
theorem ascii_padKeys {p : Pad} (hp : ∀ ix, p.index = .tag ix → AsciiText ix.name) :
    NamesIn AsciiText (padKeys E p) := by
  unfold padKeys
  rcases e : p.index with ix | _
  · exact namesIn_bind (ascii_indexUpdate (hp ix e)) fun _ => trivial
  · trivial

end Verif.Lemmas
