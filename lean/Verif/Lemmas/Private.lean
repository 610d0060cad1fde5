import Verif.Lemmas.RGDel
import Verif.Lemmas.Pad
/-!
# Programs that keep to certain blocks, and what this means to the others

`Uses D Q p H`: whatever the operations give, `p` opens, makes and unlinks only blocks with names in `D`, reads and writes
only through the handles `H` and those it got by opening and making; `Q` holds of its outcome and the handles it has at the end.
-/
namespace Verif.Lemmas
open Verif Verif.Model
variable {α β : Type} {E : Env}

/-- the handles after an operation that may give one -/
def plus (H : Nat → Prop) (r : Except PyErr Nat) : Nat → Prop := fun j => H j ∨ r = .ok j

def Uses (D : Str → Prop) (Q : Except PyErr α → (Nat → Prop) → Prop) : Prog α → (Nat → Prop) → Prop
  | .ret a, H => Q (.ok a) H
  | .raise e, H => Q (.error e) H
  | .stuck, _ => True
  | .op (.create n _) k, H => D n ∧ ∀ r : Except PyErr Nat, Uses D Q (k r) (plus H r)
  | .op (.attach n) k, H => D n ∧ ∀ r : Except PyErr Nat, Uses D Q (k r) (plus H r)
  | .op (.unlink n) k, H => D n ∧ ∀ r, Uses D Q (k r) H
  | .op (.read h) k, H => H h ∧ ∀ r, Uses D Q (k r) H
  | .op (.write h _) k, H => H h ∧ ∀ r, Uses D Q (k r) H
  | .op (.writeFront h _) k, H => H h ∧ ∀ r, Uses D Q (k r) H

variable {D : Str → Prop} {H : Nat → Prop}

theorem plus_sub (r : Except PyErr Nat) : ∀ j, H j → plus H r j := fun _ h => Or.inl h

theorem uses_bind {Q1 : Except PyErr α → (Nat → Prop) → Prop} {Q2 : Except PyErr β → (Nat → Prop) → Prop} {p : Prog α}
    {f : α → Prog β} (h : Uses D Q1 p H)
    (hok : ∀ a H', (∀ j, H j → H' j) → Q1 (.ok a) H' → Uses D Q2 (f a) H')
    (herr : ∀ e H', Q1 (.error e) H' → Q2 (.error e) H') : Uses D Q2 (p >>= f) H := by
  show Uses D Q2 (p.bind f) H
  induction p generalizing H with
  | ret a => exact hok a H (fun _ h => h) h
  | raise e => exact herr e H h
  | stuck => trivial
  | op o k ih =>
    cases o with
    | create n z => exact ⟨h.1, fun r => ih r (h.2 r) fun a H' hs => hok a H' fun j hj => hs j (plus_sub r j hj)⟩
    | attach n => exact ⟨h.1, fun r => ih r (h.2 r) fun a H' hs => hok a H' fun j hj => hs j (plus_sub r j hj)⟩
    | unlink n => exact ⟨h.1, fun r => ih r (h.2 r) hok⟩
    | read n => exact ⟨h.1, fun r => ih r (h.2 r) hok⟩
    | write n b => exact ⟨h.1, fun r => ih r (h.2 r) hok⟩
    | writeFront n b => exact ⟨h.1, fun r => ih r (h.2 r) hok⟩

theorem uses_attempt {Q1 : Except PyErr α → (Nat → Prop) → Prop} {Q2 : Except PyErr (Except PyErr α) → (Nat → Prop) → Prop}
    {p : Prog α} (h : Uses D Q1 p H) (hq : ∀ r H', Q1 r H' → Q2 (.ok r) H') : Uses D Q2 p.attempt H := by
  show Uses D Q2 (Prog.catch_ (p.bind fun a => .ret (.ok a)) fun e => .ret (.error e)) H
  induction p generalizing H with
  | ret a => exact hq _ _ h
  | raise e => exact hq _ _ h
  | stuck => trivial
  | op o k ih => cases o <;> exact ⟨h.1, fun r => ih r (h.2 r)⟩

theorem uses_mono {D' : Str → Prop} {Q1 Q2 : Except PyErr α → (Nat → Prop) → Prop} {p : Prog α} (h : Uses D Q1 p H)
    (hD : ∀ x, D x → D' x) (hq : ∀ r H', Q1 r H' → Q2 r H') : Uses D' Q2 p H := by
  induction p generalizing H with
  | ret a => exact hq _ _ h
  | raise e => exact hq _ _ h
  | stuck => trivial
  | op o k ih => cases o with
    | create n z => exact ⟨hD _ h.1, fun r => ih r (h.2 r)⟩
    | attach n => exact ⟨hD _ h.1, fun r => ih r (h.2 r)⟩
    | unlink n => exact ⟨hD _ h.1, fun r => ih r (h.2 r)⟩
    | read n => exact ⟨h.1, fun r => ih r (h.2 r)⟩
    | write n b => exact ⟨h.1, fun r => ih r (h.2 r)⟩
    | writeFront n b => exact ⟨h.1, fun r => ih r (h.2 r)⟩

/-- no matter how it ends -/
def anyEnd : Except PyErr α → (Nat → Prop) → Prop := fun _ _ => True

/-- it ends with a handle it has -/
def gotHandle : Except PyErr Nat → (Nat → Prop) → Prop := fun r H => ∀ j, r = .ok j → H j

theorem uses_any {Q : Except PyErr α → (Nat → Prop) → Prop} {p : Prog α} (h : Uses D Q p H) : Uses D anyEnd p H :=
  uses_mono h (fun _ h => h) fun _ _ _ => trivial

theorem uses_then {p : Prog α} {f : α → Prog β} (h : Uses D anyEnd p H)
    (hf : ∀ a H', (∀ j, H j → H' j) → Uses D anyEnd (f a) H') : Uses D anyEnd (p >>= f) H :=
  uses_bind h (fun a H' hs _ => hf a H' hs) fun _ _ _ => trivial

theorem uses_handle {p : Prog Nat} {f : Nat → Prog β} (h : Uses D gotHandle p H)
    (hf : ∀ a H', (∀ j, H j → H' j) → H' a → Uses D anyEnd (f a) H') : Uses D anyEnd (p >>= f) H :=
  uses_bind h (fun a H' hs hq => hf a H' hs (hq a rfl)) fun _ _ _ => trivial

theorem uses_try {p : Prog α} {f : Except PyErr α → Prog β} (h : Uses D anyEnd p H)
    (hf : ∀ a H', (∀ j, H j → H' j) → Uses D anyEnd (f a) H') : Uses D anyEnd (p.attempt >>= f) H :=
  uses_then (uses_attempt h fun _ _ _ => trivial) hf

/-- leaves -/
theorem uses_ofExcept {r : Except PyErr α} : Uses D anyEnd (Prog.ofExcept r) H := by cases r <;> trivial

theorem uses_attach {a : Str} (ha : D a) : Uses D gotHandle (attach a) H :=
  ⟨ha, fun r => by cases r with
    | ok j => intro j' h'; exact Or.inr h'
    | error e => intro j' h'; cases h'⟩

theorem uses_create {a : Str} {z : Nat} (ha : D a) : Uses D gotHandle (create a z) H :=
  ⟨ha, fun r => by cases r with
    | ok j => intro j' h'; exact Or.inr h'
    | error e => intro j' h'; cases h'⟩

theorem uses_unlink {a : Str} (ha : D a) : Uses D anyEnd (unlink a) H :=
  ⟨ha, fun r => by cases r <;> trivial⟩

theorem uses_read {h : Nat} (hh : H h) : Uses D anyEnd (read h) H := ⟨hh, fun r => by cases r <;> trivial⟩

theorem uses_write {h : Nat} {b : Bytes} (hh : H h) : Uses D anyEnd (write h b) H := ⟨hh, fun r => by cases r <;> trivial⟩

theorem uses_intBytes {w n : Nat} : Uses D anyEnd (intBytes w n) H := by unfold intBytes; split <;> trivial

theorem uses_openBlock {a : Str} {z : Nat} {cr ow : Bool} (ha : D a) : Uses D gotHandle (openBlock a z cr ow) H := by
  unfold openBlock
  refine uses_bind (Q1 := fun r H' => ∀ j, r = .ok (.ok j) → H' j) (uses_attempt (Q1 := gotHandle) ?_ ?_) ?_ ?_
  · cases cr
    · exact uses_attach ha
    · exact uses_create ha
  · intro r H' hq j hj
    injection hj with hj
    exact hq j hj
  · intro r H' hs hq
    rcases r with e | j
    · cases e <;> first
        | (intro j hj; cases hj; done)
        | skip
      simp only
      split
      · exact uses_attach ha
      · refine uses_bind (uses_attach ha) (fun _ _ _ _ => uses_bind (uses_unlink ha) (fun _ _ _ _ => uses_create ha) ?_) ?_
        · intro e H' _ j hj; cases hj
        · intro e H' _ j hj; cases hj
    · intro j' hj'
      cases hj'
      exact hq j rfl
  · intro e H' _ j hj; cases hj

theorem uses_existsBlock {a : Str} (ha : D a) : Uses D anyEnd (existsBlock a) H := by
  unfold existsBlock
  refine uses_try (uses_any (uses_attach ha)) fun r H' _ => ?_
  rcases r with e | j
  · cases e <;> trivial
  · trivial

theorem uses_deleteBlock {a : Str} {mk : Bool} (ha : D a) : Uses D anyEnd (deleteBlock a mk) H := by
  unfold deleteBlock
  refine uses_try (uses_then (uses_any (uses_attach ha)) fun _ _ _ => uses_unlink ha) fun r H' _ => ?_
  rcases r with e | j
  · cases e <;> first | trivial | skip
    simp only
    split <;> trivial
  · trivial

/-! ## the lock and the index -/

/-- the names of an index -/
def slotNames (name : Str) (x : Str) : Prop := ∃ sl : Slot, x = sl.addr name

variable {name : Str} (hD : ∀ sl : Slot, D (sl.addr name))
include hD

theorem uses_renumber (f n : Nat) : Uses D anyEnd (renumber name f n) H := by
  induction f generalizing n H with
  | zero => trivial
  | succ f ih =>
    rw [renumber]
    refine uses_try (uses_any (uses_create (addr_marker name n ▸ hD _))) fun r H' _ => ?_
    rcases r with e | j
    · cases e <;> first | trivial | exact ih _
    · trivial

theorem uses_scanLocks (floor d : Nat) : Uses D anyEnd (scanLocks name floor d) H := by
  induction d generalizing H with
  | zero => trivial
  | succ d ih =>
    rw [scanLocks]
    refine uses_then (uses_existsBlock (addr_lock name _ ▸ hD _)) fun b H' _ => ?_
    cases b
    · exact ih
    · trivial

theorem uses_spin (floor n f : Nat) : Uses D anyEnd (spin name floor n f) H := by
  induction f generalizing H with
  | zero => trivial
  | succ f ih =>
    rw [spin]
    refine uses_then (uses_scanLocks hD floor _) fun b H' _ => ?_
    cases b
    · exact ih
    · trivial

theorem uses_lockEnter (fuel : Nat) : Uses D (fun r H' => ∀ h, r = .ok h → H' h.count) (lockEnter fuel name) H := by
  unfold lockEnter
  refine uses_bind (uses_openBlock (addr_count name ▸ hD _)) (fun c H1 _ hc => ?_) (fun _ _ _ h hh => by cases hh)
  have hc := hc c rfl
  refine uses_bind (uses_read hc) (fun b H2 s2 _ => ?_) (fun _ _ _ h hh => by cases hh)
  refine uses_bind (uses_renumber hD _ _) (fun n H3 s3 _ => ?_) (fun _ _ _ h hh => by cases hh)
  refine uses_bind (uses_attempt (uses_any (uses_create (addr_lock name n ▸ hD _))) (Q2 := anyEnd) fun _ _ _ => trivial)
    (fun r H4 s4 _ => ?_) (fun _ _ _ h hh => by cases hh)
  have hc4 : H4 c := s4 _ (s3 _ (s2 _ hc))
  rcases r with e | j
  · cases e <;> first
      | (intro h hh; cases hh; exact hc4)
      | exact uses_bind (uses_unlink (addr_marker name n ▸ hD _)) (fun _ _ _ _ h hh => by cases hh) fun _ _ _ h hh => by cases hh
  · refine uses_bind (uses_spin hD _ _ _) (fun _ H5 s5 _ => ?_) (fun _ _ _ h hh => by cases hh)
    intro h hh
    cases hh
    exact s5 _ hc4

theorem uses_lockRelease (h : Held) (hh : H h.count) : Uses D anyEnd (lockRelease name h) H := by
  unfold lockRelease
  refine uses_then uses_intBytes fun b H1 s1 => uses_then (uses_write (s1 _ hh)) fun _ H2 s2 => ?_
  split
  · exact uses_then (uses_unlink (addr_lock name _ ▸ hD _)) fun _ H3 _ => uses_unlink (addr_marker name _ ▸ hD _)
  · exact uses_unlink (addr_marker name _ ▸ hD _)

theorem uses_withLock (mode : LockMode) {body : Prog α} (hb : ∀ H', (∀ j, H j → H' j) → Uses D anyEnd body H') :
    Uses D anyEnd (withLock mode name body) H := by
  cases mode with
  | fake => exact hb H fun _ h => h
  | sliding fuel =>
    refine uses_bind (uses_lockEnter hD fuel) (fun h H1 s1 hh => ?_) (fun _ _ _ => trivial)
    refine uses_try (hb H1 s1) fun r H2 s2 => ?_
    exact uses_then (uses_lockRelease hD h (s2 _ (hh h rfl))) fun _ _ _ => uses_ofExcept

omit hD in
theorem uses_readLength {ix : Index} (hm : H ix.memory) : Uses D anyEnd (readLength ix) H :=
  uses_then (uses_read hm) fun _ _ _ => trivial

variable {ix : Index} (hn : ix.name = name)
include hn

theorem uses_check (raw : Bytes) : Uses D anyEnd (check E ix raw) H := by
  subst hn
  have ha : D (hashAddr E ix.name raw) := by rw [addr_hash]; exact hD _
  unfold check
  refine uses_then (uses_existsBlock ha) fun b H1 _ => ?_
  cases b
  · trivial
  · exact uses_handle (uses_attach ha) fun h H2 _ hh => uses_then (uses_read hh) fun _ _ _ => trivial

theorem uses_loadKey? (i : Nat) : Uses D anyEnd (loadKey? E ix i) H := by
  subst hn
  have ha : D (keyAddr ix.name i) := by rw [addr_key]; exact hD _
  unfold loadKey?
  refine uses_bind (uses_attempt (uses_attach ha) (Q2 := fun r H' => ∀ j, r = .ok (.ok j) → H' j) ?_) ?_ fun _ _ _ => trivial
  · intro r H' hq j hj
    injection hj with hj
    exact hq j hj
  · intro r H' _ hq
    rcases r with e | j
    · cases e <;> trivial
    · refine uses_then (uses_read (hq j rfl)) fun b H2 _ => ?_
      refine uses_then ?_ fun _ _ _ => trivial
      unfold decodeUtf8
      split <;> trivial

theorem uses_enumerateKeys (i d : Nat) : Uses D anyEnd (enumerateKeys E ix i d) H := by
  induction d generalizing i H with
  | zero => trivial
  | succ d ih =>
    rw [enumerateKeys]
    exact uses_then (uses_loadKey? hD hn i) fun _ _ _ => uses_then (ih _) fun _ _ _ => trivial

theorem uses_indexUpdate (hm : H ix.memory) : Uses D anyEnd (indexUpdate E ix) H :=
  uses_then (uses_readLength hm) fun _ _ _ => uses_enumerateKeys hD hn _ _

theorem uses_indexAdd_ (hm : H ix.memory) (key : Key) (eo : Bool) : Uses D anyEnd (indexAdd_ E ix key eo) H := by
  have hh : D (hashAddr E ix.name (key.hashed E)) := by rw [hn, addr_hash]; exact hD _
  have hk : ∀ n, D (keyAddr ix.name n) := fun n => by rw [hn, addr_key]; exact hD _
  unfold indexAdd_
  refine uses_then (uses_check hD hn _) fun r H1 s1 => ?_
  cases r with
  | some i => simp only; split <;> trivial
  | none =>
    refine uses_then (uses_readLength (s1 _ hm)) fun n H2 s2 => uses_then uses_intBytes fun nb H3 s3 => ?_
    refine uses_then (uses_write (s3 _ (s2 _ (s1 _ hm)))) fun _ H4 s4 => ?_
    refine uses_handle (uses_openBlock (hk n)) fun kh H5 s5 hkh => uses_then (uses_write hkh) fun _ H6 s6 => ?_
    refine uses_then uses_intBytes fun pb H7 s7 => uses_handle (uses_openBlock hh) fun nh H8 s8 hnh => ?_
    exact uses_then (uses_write hnh) fun _ _ _ => trivial

theorem uses_indexDel_ (hm : H ix.memory) (key : Key) : Uses D anyEnd (indexDel_ E ix key) H := by
  have hh : ∀ b, D (hashAddr E ix.name b) := fun b => by rw [hn, addr_hash]; exact hD _
  have hk : ∀ n, D (keyAddr ix.name n) := fun n => by rw [hn, addr_key]; exact hD _
  unfold indexDel_
  refine uses_then (uses_check hD hn _) fun r H1 s1 => ?_
  cases r with
  | none => trivial
  | some found =>
    refine uses_then (uses_readLength (s1 _ hm)) fun n H2 s2 => ?_
    have tail : ∀ H3 : Nat → Prop, (∀ j, H2 j → H3 j) → Uses D anyEnd (do
        deleteBlock (hashAddr E ix.name (key.hashed E))
        let nb ← intBytes 8 (n - 1)
        write ix.memory nb
        pure (found, n)) H3 := by
      intro H3 s3
      refine uses_then (uses_deleteBlock (hh _)) fun _ H4 s4 => uses_then uses_intBytes fun nb H5 s5 => ?_
      exact uses_then (uses_write (s5 _ (s4 _ (s3 _ (s2 _ (s1 _ hm)))))) fun _ _ _ => trivial
    simp only
    split
    · refine uses_handle (uses_attach (hk _)) fun lh H3 s3 hlh => uses_then (uses_read hlh) fun lastkey H4 s4 => ?_
      refine uses_handle (uses_openBlock (hk _)) fun mh H5 s5 hmh => uses_then (uses_write hmh) fun _ H6 s6 => ?_
      refine uses_handle (uses_attach (hh _)) fun nh H7 s7 hnh => uses_then uses_intBytes fun fb H8 s8 => ?_
      refine uses_then (uses_write (s8 _ hnh)) fun _ H9 s9 => uses_then (uses_unlink (hk _)) fun _ H10 s10 => ?_
      exact tail H10 fun j hj => s10 _ (s9 _ (s8 _ (s7 _ (s6 _ (s5 _ (s4 _ (s3 _ hj)))))))
    · exact uses_then (uses_deleteBlock (hk _)) fun _ H3 s3 => tail H3 s3

theorem uses_indexAdd (hm : H ix.memory) (mode : LockMode) (key : Key) (eo : Bool) :
    Uses D anyEnd (indexAdd E mode ix key eo) H := by
  unfold indexAdd
  rw [hn]
  exact uses_withLock hD mode fun H' hs => uses_indexAdd_ hD hn (hs _ hm) key eo

theorem uses_indexDel (hm : H ix.memory) (mode : LockMode) (key : Key) :
    Uses D anyEnd (indexDel E mode ix key) H := by
  unfold indexDel
  rw [hn]
  exact uses_withLock hD mode fun H' hs => uses_indexDel_ hD hn (hs _ hm) key

end Verif.Lemmas
