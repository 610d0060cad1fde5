import Verif.Lemmas.ShmWF
import Verif.Model.Index
/-! # The addresses an index uses, and that they are all different -/
namespace Verif.Lemmas
open Verif Verif.Model

/-- the blocks of an index -/
inductive Slot where
  | mem
  | count
  | marker (n : Nat)
  | lock (n : Nat)
  | hash (h : Str)
  | key (i : Nat)
  | val (i : Nat)
  deriving DecidableEq

/-- what follows the index name in the address of a slot -/
def Slot.suffix : Slot → Str
  | .mem => []
  | .count => "_count".toList
  | .marker n => '_' :: natStr n
  | .lock n => '_' :: (natStr n ++ "_lock".toList)
  | .hash h => "_name_".toList ++ h
  | .key i => "_key_".toList ++ natStr i
  | .val i => "_val_".toList ++ natStr i

def Slot.addr (name : Str) (sl : Slot) : Str := name ++ sl.suffix

theorem addr_mem (name : Str) : name = Slot.mem.addr name := by simp [Slot.addr, Slot.suffix]
theorem addr_count (name : Str) : countAddr name = Slot.count.addr name := rfl
theorem addr_marker (name : Str) (n : Nat) : markerAddr name n = (Slot.marker n).addr name := rfl
theorem addr_lock (name : Str) (n : Nat) : lockAddr name n = (Slot.lock n).addr name := rfl
theorem addr_hash (E : Env) (name : Str) (b : Bytes) : hashAddr E name b = (Slot.hash (E.sha b)).addr name := by
  simp [hashAddr, Slot.addr, Slot.suffix]
theorem addr_key (name : Str) (n : Nat) : keyAddr name n = (Slot.key n).addr name := by
  simp [keyAddr, Slot.addr, Slot.suffix]
theorem addr_val (name : Str) (n : Nat) : valAddr name n = (Slot.val n).addr name := by
  simp [valAddr, Slot.addr, Slot.suffix]

/-- the first character of a numeral is a digit -/
theorem natStr_head (n : Nat) : ∃ c t, natStr n = c :: t ∧ 48 ≤ c.toNat ∧ c.toNat ≤ 57 := by
  cases h : natStr n with
  | nil => exact absurd h (natStr_ne_nil n)
  | cons c t => exact ⟨c, t, rfl, natStr_digits n c (by rw [h]; simp)⟩

theorem natStr_ne_letter (n : Nat) (c : Char) (hc : 57 < c.toNat) (t : Str) : natStr n ≠ c :: t := by
  intro h
  obtain ⟨d, t', h', h1, h2⟩ := natStr_head n
  rw [h'] at h
  injection h with h _
  subst h; omega

theorem natStr_app_ne_letter (n : Nat) (r : Str) (c : Char) (hc : 57 < c.toNat) (t : Str) :
    natStr n ++ r ≠ c :: t := by
  intro h
  obtain ⟨d, t', h', h1, h2⟩ := natStr_head n
  rw [h'] at h
  injection h with h _
  subst h; omega

theorem digits_split {a b r r' : Str} (ha : ∀ c ∈ a, c ≠ '_') (hb : ∀ c ∈ b, c ≠ '_')
    (h : a ++ '_' :: r = b ++ '_' :: r') : a = b ∧ r = r' := by
  induction a generalizing b with
  | nil =>
    cases b with
    | nil => simp at h; exact ⟨rfl, h⟩
    | cons c t => simp at h; exact absurd h.1.symm (hb c (by simp))
  | cons c t ih =>
    cases b with
    | nil => simp at h; exact absurd h.1 (ha c (by simp))
    | cons c' t' =>
      simp at h
      have := ih (fun x hx => ha x (by simp [hx])) (fun x hx => hb x (by simp [hx])) h.2
      exact ⟨by rw [h.1, this.1], this.2⟩

theorem natStr_no_underscore (n : Nat) : ∀ c ∈ natStr n, c ≠ '_' := by
  intro c hc h
  have := natStr_digits n c hc
  subst h
  have h2 : ('_' : Char).toNat = 95 := rfl
  omega

theorem natStr_ne_lock (m n : Nat) (r : Str) : natStr m ≠ natStr n ++ '_' :: r := by
  intro h
  exact natStr_no_underscore m '_' (by rw [h]; simp) rfl

theorem suffix_injective {a b : Slot} (h : a.suffix = b.suffix) : a = b := by
  have hc : ∀ c ∈ ['c', 'n', 'k', 'v'], 57 < c.toNat := by decide
  cases a <;> cases b <;> simp only [Slot.suffix] at h <;> first
    | rfl
    | (exfalso; simp at h; done)
    | (simp at h; subst h; rfl)
    | (simp at h; rw [natStr_injective h])
    | (injection h with _ h; rw [natStr_injective h])
    | (injection h with _ h; exact absurd h (natStr_ne_letter _ _ (by decide) _))
    | (injection h with _ h; exact absurd h.symm (natStr_ne_letter _ _ (by decide) _))
    | (injection h with _ h; exact absurd h (natStr_app_ne_letter _ _ _ (by decide) _))
    | (injection h with _ h; exact absurd h.symm (natStr_app_ne_letter _ _ _ (by decide) _))
    | (injection h with _ h; exact absurd h (natStr_ne_lock _ _ _))
    | (injection h with _ h; exact absurd h.symm (natStr_ne_lock _ _ _))
    | (injection h with _ h
       have := digits_split (natStr_no_underscore _) (natStr_no_underscore _) h
       rw [natStr_injective this.1])

theorem addr_injective {name : Str} {a b : Slot} (h : a.addr name = b.addr name) : a = b :=
  suffix_injective (List.append_cancel_left h)

@[simp] theorem addr_inj {name : Str} {a b : Slot} : a.addr name = b.addr name ↔ a = b :=
  ⟨addr_injective, fun h => h ▸ rfl⟩

/-- address of one of the lock's blocks -/
def Slot.isLock : Slot → Bool
  | .count => true
  | .marker _ => true
  | .lock _ => true
  | _ => false

/-- the OS accepts every name the index may form -/
structure NamesOK (E : Env) (name : Str) : Prop where
  mem : E.okName name = true
  count : E.okName (countAddr name) = true
  marker : ∀ n < 256 ^ 8, E.okName (markerAddr name n) = true
  lock : ∀ n < 256 ^ 8, E.okName (lockAddr name n) = true
  hash : ∀ b, E.okName (hashAddr E name b) = true
  key : ∀ n < 256 ^ 8, E.okName (keyAddr name n) = true
  val : ∀ n < 256 ^ 8, E.okName (valAddr name n) = true

/-- `s'` agrees with `s` outside the addresses in `P` -/
def SameOff (P : Str → Prop) (s s' : Store) : Prop :=
  ∀ x, ¬ P x → s'.names x = s.names x ∧ s'.content x = s.content x

theorem SameOff.refl (P : Str → Prop) (s : Store) : SameOff P s s := fun _ _ => ⟨rfl, rfl⟩

theorem SameOff.trans {P : Str → Prop} {s s' s'' : Store} (h1 : SameOff P s s') (h2 : SameOff P s' s'') :
    SameOff P s s'' :=
  fun x hx => ⟨by rw [(h2 x hx).1, (h1 x hx).1], by rw [(h2 x hx).2, (h1 x hx).2]⟩

theorem SameOff.mono {P Q : Str → Prop} {s s' : Store} (h : SameOff P s s') (hPQ : ∀ x, P x → Q x) :
    SameOff Q s s' := fun x hx => h x fun hp => hx (hPQ x hp)

theorem Eff.sameOff {P : Str → Prop} {s s' : Store} {a : Str} {v : Option Bytes} (h : Eff s s' a v) (ha : P a) :
    SameOff P s s' := fun x hx => by
  have : x ≠ a := fun e => hx (e ▸ ha)
  exact ⟨h.names x this, by rw [h.content, if_neg this]⟩

end Verif.Lemmas
