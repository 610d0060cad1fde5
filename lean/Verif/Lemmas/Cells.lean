import Verif.Spec.Shared
import Verif.Lemmas.PadOwn
/-!
# Blocks that are written once

Each segment is thought of as born for a name and for the bytes its maker means to write. `S` are the names where anything
goes; `W x b` says that `b` is meant for `x` by somebody; `Ok b d` is what may be found in a segment meant for `b`.
`Obeys` follows a program among others that all respect this: it knows its handles' names and meanings (`K`), may write only
to what it made, and finds in a block something `Ok`.
-/
namespace Verif.Lemmas
open Verif Verif.Model Verif.Spec
variable {α β : Type} {E : Env} {S : Str → Prop} {Ok : Bytes → Bytes → Prop}

abbrev Meant := Str → Bytes → Prop
/-- what a program knows of a handle: name and meaning -/
abbrev Knows := Nat → Str → Bytes → Prop

def Meant.le (W W' : Meant) : Prop := ∀ x b, W x b → W' x b

def Knows.plus (K : Knows) (r : Except PyErr Nat) (n : Str) (b : Bytes) : Knows :=
  fun h x b' => K h x b' ∨ (r = .ok h ∧ x = n ∧ b' = b)

/-- may this be made -/
def MayMake (S : Str → Prop) (Ok : Bytes → Bytes → Prop) (W : Meant) (n : Str) (z : Nat) (b : Bytes) : Prop :=
  S n ∨ (W n b ∧ Ok b (List.replicate z 0))

/-- may `d` be written to the front of the block, up to any byte -/
def MayPut (S : Str → Prop) (Ok : Bytes → Bytes → Prop) (K : Knows) (h : Nat) (d : Bytes) : Prop :=
  ∃ x b, K h x b ∧ (S x ∨ ∀ c i, Ok b c → Ok b (d.take i ++ c.drop (d.take i).length))

/-- may `d` be written to the block -/
def MayWrite (S : Str → Prop) (Ok : Bytes → Bytes → Prop) (K : Knows) (h : Nat) (d : Bytes) : Prop :=
  ∃ x b, K h x b ∧ (S x ∨ Ok b d)

def Obeys (E : Env) (S : Str → Prop) (Ok : Bytes → Bytes → Prop) (Q : Meant → Except PyErr α → Knows → Prop) :
    Prog α → Meant → Knows → Prop
  | .ret a, W, K => Q W (.ok a) K
  | .raise e, W, K => Q W (.error e) K
  | .stuck, _, _ => True
  | .op (.create n z) k, W, K => ∃ b, MayMake S Ok W n z b ∧
      ∀ r : Except PyErr Nat, Obeys E S Ok Q (k r) W (K.plus r n b)
  | .op (.attach n) k, W, K => ∀ W' b, W.le W' → ∀ r : Except PyErr Nat, (∀ j, r = .ok j → S n ∨ W' n b) →
      (∀ e, r = .error e → e = .fileNotFound ∨ E.okName n = false) → Obeys E S Ok Q (k r) W' (K.plus r n b)
  | .op (.unlink _) k, W, K => ∀ r, Obeys E S Ok Q (k r) W K
  | .op (.read h) k, W, K => ∀ d, (∀ x b, K h x b → S x ∨ Ok b d) → Obeys E S Ok Q (k (.ok d)) W K
  | .op (.write h d) k, W, K => MayWrite S Ok K h d ∧ Obeys E S Ok Q (k (.ok ())) W K ∧ Obeys E S Ok Q (k (.error .valueError)) W K
  | .op (.writeFront h d) k, W, K => MayPut S Ok K h d ∧ Obeys E S Ok Q (k (.ok ())) W K

theorem Meant.le_refl (W : Meant) : W.le W := fun _ _ h => h
theorem Meant.le_trans {A B C : Meant} (h1 : A.le B) (h2 : B.le C) : A.le C := fun x b h => h2 x b (h1 x b h)

theorem obeys_grow {Q : Meant → Except PyErr α → Knows → Prop} (hQ : ∀ W W' r K, Meant.le W W' → Q W r K → Q W' r K) {p : Prog α}
    {W W' : Meant} {K : Knows} (hW : W.le W') (h : Obeys E S Ok Q p W K) : Obeys E S Ok Q p W' K := by
  induction p generalizing W W' K with
  | ret a => exact hQ _ _ _ _ hW h
  | raise e => exact hQ _ _ _ _ hW h
  | stuck => trivial
  | op o k ih =>
    cases o with
    | create n z =>
      obtain ⟨b, hm, hk⟩ := h
      exact ⟨b, hm.imp_right fun h => ⟨hW _ _ h.1, h.2⟩, fun r => ih r hW (hk r)⟩
    | attach n => exact fun W'' b hW' r h1 h2 => h W'' b (Meant.le_trans hW hW') r h1 h2
    | unlink n => exact fun r => ih r hW (h r)
    | read n => exact fun d hd => ih _ hW (h d hd)
    | write n b => exact ⟨h.1, ih _ hW h.2.1, ih _ hW h.2.2⟩
    | writeFront n b => exact ⟨h.1, ih _ hW h.2⟩

theorem obeys_bind {Q1 : Meant → Except PyErr α → Knows → Prop} {Q2 : Meant → Except PyErr β → Knows → Prop} {p : Prog α}
    {f : α → Prog β} {W : Meant} {K : Knows} (h : Obeys E S Ok Q1 p W K)
    (hok : ∀ a W' K', W.le W' → (∀ i x b, K i x b → K' i x b) → Q1 W' (.ok a) K' → Obeys E S Ok Q2 (f a) W' K')
    (herr : ∀ e W' K', W.le W' → Q1 W' (.error e) K' → Q2 W' (.error e) K') : Obeys E S Ok Q2 (p >>= f) W K := by
  show Obeys E S Ok Q2 (p.bind f) W K
  induction p generalizing W K with
  | ret a => exact hok a W K (Meant.le_refl W) (fun _ _ _ h => h) h
  | raise e => exact herr e W K (Meant.le_refl W) h
  | stuck => trivial
  | op o k ih =>
    cases o with
    | create n z =>
      obtain ⟨b, hm, hk⟩ := h
      exact ⟨b, hm, fun r => ih r (hk r) (fun a W' K' hW hK => hok a W' K' hW fun i x b h => hK i x b (Or.inl h)) herr⟩
    | attach n =>
      exact fun W' b hW r h1 h2 => ih r (h W' b hW r h1 h2)
        (fun a W'' K' hW' hK => hok a W'' K' (Meant.le_trans hW hW') fun i x b h => hK i x b (Or.inl h))
        fun e W'' K' hW' => herr e W'' K' (Meant.le_trans hW hW')
    | unlink n => exact fun r => ih r (h r) hok herr
    | read n => exact fun d hd => ih _ (h d hd) hok herr
    | write n b => exact ⟨h.1, ih _ h.2.1 hok herr, ih _ h.2.2 hok herr⟩
    | writeFront n b => exact ⟨h.1, ih _ h.2 hok herr⟩

theorem obeys_attempt {Q1 : Meant → Except PyErr α → Knows → Prop} {Q2 : Meant → Except PyErr (Except PyErr α) → Knows → Prop}
    {p : Prog α} {W : Meant} {K : Knows} (h : Obeys E S Ok Q1 p W K) (hq : ∀ r W' K', Q1 W' r K' → Q2 W' (.ok r) K') :
    Obeys E S Ok Q2 p.attempt W K := by
  show Obeys E S Ok Q2 (Prog.catch_ (p.bind fun a => .ret (.ok a)) fun e => .ret (.error e)) W K
  induction p generalizing W K with
  | ret a => exact hq _ _ _ h
  | raise e => exact hq _ _ _ h
  | stuck => trivial
  | op o k ih =>
    cases o with
    | create n z => exact ⟨h.choose, h.choose_spec.1, fun r => ih r (h.choose_spec.2 r)⟩
    | attach n => exact fun W' b hW r h1 h2 => ih r (h W' b hW r h1 h2)
    | unlink n => exact fun r => ih r (h r)
    | read n => exact fun d hd => ih _ (h d hd)
    | write n b => exact ⟨h.1, ih _ h.2.1, ih _ h.2.2⟩
    | writeFront n b => exact ⟨h.1, ih _ h.2⟩

theorem obeys_mono {Q1 Q2 : Meant → Except PyErr α → Knows → Prop} {p : Prog α} {W : Meant} {K : Knows}
    (h : Obeys E S Ok Q1 p W K) (hq : ∀ r W' K', Q1 W' r K' → Q2 W' r K') : Obeys E S Ok Q2 p W K := by
  induction p generalizing W K with
  | ret a => exact hq _ _ _ h
  | raise e => exact hq _ _ _ h
  | stuck => trivial
  | op o k ih =>
    cases o with
    | create n z => exact ⟨h.choose, h.choose_spec.1, fun r => ih r (h.choose_spec.2 r)⟩
    | attach n => exact fun W' b hW r h1 h2 => ih r (h W' b hW r h1 h2)
    | unlink n => exact fun r => ih r (h r)
    | read n => exact fun d hd => ih _ (h d hd)
    | write n b => exact ⟨h.1, ih _ h.2.1, ih _ h.2.2⟩
    | writeFront n b => exact ⟨h.1, ih _ h.2⟩

/-- programs that keep to blocks where anything goes -/
theorem obeys_of_uses {Q : Except PyErr α → (Nat → Prop) → Prop} {D : Str → Prop} (hD : ∀ x, D x → S x) {p : Prog α} {H : Nat → Prop}
    (h : Uses D Q p H) {W : Meant} {K : Knows} (hH : ∀ j, H j → ∃ x b, S x ∧ K j x b) :
    Obeys E S Ok (fun _ _ _ => True) p W K := by
  induction p generalizing H W K with
  | ret a => trivial
  | raise e => trivial
  | stuck => trivial
  | op o k ih =>
    cases o with
    | create n z =>
      refine ⟨[], Or.inl (hD _ h.1), fun r => ih r (h.2 r) ?_⟩
      rintro j (hj | hj)
      · obtain ⟨x, b, h1, h2⟩ := hH j hj
        exact ⟨x, b, h1, Or.inl h2⟩
      · exact ⟨n, [], hD _ h.1, Or.inr ⟨hj, rfl, rfl⟩⟩
    | attach n =>
      refine fun W' b _ r _ _ => ih r (h.2 r) ?_
      rintro j (hj | hj)
      · obtain ⟨x, b, h1, h2⟩ := hH j hj
        exact ⟨x, b, h1, Or.inl h2⟩
      · exact ⟨n, b, hD _ h.1, Or.inr ⟨hj, rfl, rfl⟩⟩
    | unlink n => exact fun r => ih r (h.2 r) hH
    | read n => exact fun d _ => ih _ (h.2 _) hH
    | write n b =>
      obtain ⟨x, b', h1, h2⟩ := hH _ h.1
      exact ⟨⟨x, b', h2, Or.inl h1⟩, ih _ (h.2 _) hH, ih _ (h.2 _) hH⟩
    | writeFront n b =>
      obtain ⟨x, b', h1, h2⟩ := hH _ h.1
      exact ⟨⟨x, b', h2, Or.inl h1⟩, ih _ (h.2 _) hH⟩

/-! ## copies byte by byte -/

theorem mixed_put {b c d : Bytes} (hd : Mixed b d) (hc : Mixed b c) (i : Nat) : Mixed b (d.take i ++ c.drop (d.take i).length) := by
  obtain ⟨d1, d2⟩ := hd
  obtain ⟨c1, c2⟩ := hc
  refine ⟨by simp; omega, fun j hj => ?_⟩
  simp only [List.getD_eq_getElem?_getD, List.getElem?_append, List.length_take, List.getElem?_take, List.getElem?_drop] at *
  by_cases h : j < min i d.length
  · rw [if_pos h, if_pos (by omega)]
    exact d2 j (by omega)
  · rw [if_neg h]
    have e : min i d.length + (j - min i d.length) = j := by omega
    rw [e]
    simp at hj
    exact c2 j (by omega)

theorem obeys_peeks {Q : Meant → Except PyErr α → Knows → Prop} {h : Nat} {k : Bytes → Prog α} {W : Meant} {K : Knows} (n : Nat) (z : Nat)
    (got : Bytes) (hz : got.length + n = z) (hzb : ∀ x b, K h x b → S x ∨ b.length = z)
    (hgot : ∀ x b, K h x b → S x ∨ ∀ i, i < got.length → got.getD i 0 = 0 ∨ got.getD i 0 = b.getD i 0)
    (hk : ∀ d, (∀ x b, K h x b → S x ∨ Mixed b d) → Obeys E S Mixed Q (k d) W K) :
    Obeys E S Mixed Q (peeks h k n got) W K := by
  induction n generalizing got with
  | zero =>
    refine hk got fun x b hK => ?_
    rcases hzb x b hK with h1 | h1
    · exact Or.inl h1
    · rcases hgot x b hK with h2 | h2
      · exact Or.inl h2
      · exact Or.inr ⟨by omega, h2⟩
  | succ n ih =>
    refine fun d hd => ih _ (by simp; omega) fun x b hK => ?_
    rcases hgot x b hK with h2 | h2
    · exact Or.inl h2
    · rcases hd x b hK with h3 | ⟨h3, h4⟩
      · exact Or.inl h3
      · refine Or.inr fun i hi => ?_
        simp only [List.getD_eq_getElem?_getD, List.getElem?_append, List.length_append, List.length_cons, List.length_nil] at *
        by_cases hlt : i < got.length
        · rw [if_pos hlt]; exact h2 i hlt
        · rw [if_neg hlt]
          have e : i = got.length := by omega
          subst e
          simp only [Nat.sub_self, List.getElem?_cons_zero, Option.getD_some]
          by_cases hl : got.length < d.length
          · exact h4 _ hl
          · rw [List.getElem?_eq_none (by omega)]; exact Or.inl rfl

theorem obeys_pokes {Q : Meant → Except PyErr α → Knows → Prop} {h : Nat} {k : Prog α} {W : Meant} {K : Knows} (put rest : Bytes)
    (hp : MayPut S Ok K h (put ++ rest)) (hk : Obeys E S Ok Q k W K) : Obeys E S Ok Q (pokes h k put rest) W K := by
  induction rest generalizing put with
  | nil => exact hk
  | cons y rest ih =>
    refine ⟨?_, ih _ (by simpa using hp)⟩
    obtain ⟨x, b, h1, h2⟩ := hp
    refine ⟨x, b, h1, h2.imp_right fun h2 c i hc => ?_⟩
    have := h2 c (min i (put.length + 1)) hc
    have e : (put ++ y :: rest).take (min i (put.length + 1)) = (put ++ [y]).take i := by
      rw [show put ++ y :: rest = (put ++ [y]) ++ rest by simp, List.take_append_of_le_length (by simp; omega)]
      rw [List.take_eq_take_iff]
      simp
    rwa [e] at this

theorem obeys_fine {Q : Meant → Except PyErr α → Knows → Prop} {p : Prog α} {W : Meant} {K : Knows}
    (h : Obeys E S Mixed Q p W K) : Obeys E S Mixed Q p.fine W K := by
  induction p generalizing W K with
  | ret a => exact h
  | raise e => exact h
  | stuck => trivial
  | op o k ih =>
    cases o with
    | create n z => exact ⟨h.choose, h.choose_spec.1, fun r => ih r (h.choose_spec.2 r)⟩
    | attach n => exact fun W' b hW r h1 h2 => ih r (h W' b hW r h1 h2)
    | unlink n => exact fun r => ih r (h r)
    | read n =>
      rw [Prog.fine]
      show ∀ d, (∀ x b, K n x b → S x ∨ Mixed b d) →
        Obeys E S Mixed Q (peeks n (fun c => (k (.ok c)).fine) d.length []) W K
      intro d hd
      exact obeys_peeks d.length d.length [] (by simp) (fun x b hK => (hd x b hK).imp_right fun h => h.1.symm)
        (fun x b hK => Or.inr fun i hi => absurd hi (by simp)) fun c hc => ih _ (h c hc)
    | write n d =>
      rw [Prog.fine]
      show ∀ c : Bytes, (∀ x b, K n x b → S x ∨ Mixed b c) → Obeys E S Mixed Q (if d.length = c.length then pokes n (k (.ok ())).fine [] d else (k (.error .valueError)).fine) W K
      intro c hc
      split
      · refine obeys_pokes [] d ?_ (ih _ h.2.1)
        obtain ⟨x, b, h1, h2⟩ := h.1
        exact ⟨x, b, h1, h2.imp_right fun h2 c i hc => mixed_put h2 hc i⟩
      · exact ih _ h.2.2
    | writeFront n d => exact obeys_pokes [] d h.1 (ih _ h.2)

/-! ## the invariant -/

structure Cells (S : Str → Prop) (Ok : Bytes → Bytes → Prop) (W : Meant) (born : Nat → Str × Bytes) (s : Store) : Prop where
  named : ∀ x i, s.names x = some i → i < s.next ∧ (born i).1 = x
  ok : ∀ i, i < s.next → S (born i).1 ∨ (W (born i).1 (born i).2 ∧ Ok (born i).2 (s.segs i))

/-- the knowledge is true -/
def Knows.True (S : Str → Prop) (K : Knows) (born : Nat → Str × Bytes) (s : Store) : Prop :=
  ∀ h x b, K h x b → h < s.next ∧ (born h).1 = x ∧ (S x ∨ (born h).2 = b)

/-- what may become of it -/
structure Later (W : Meant) (born : Nat → Str × Bytes) (s : Store) (W' : Meant) (born' : Nat → Str × Bytes) (s' : Store) : Prop where
  meant : W.le W'
  next : s.next ≤ s'.next
  born : ∀ i, i < s.next → born' i = born i

variable {W W' : Meant} {born born' : Nat → Str × Bytes} {s s' : Store} {K : Knows}

theorem Knows.True.later (h : K.True S born s) (hl : Later W born s W' born' s') : K.True S born' s' := by
  intro i x b hK
  obtain ⟨h1, h2, h3⟩ := h i x b hK
  rw [hl.born i h1]
  exact ⟨Nat.lt_of_lt_of_le h1 hl.next, h2, h3⟩

theorem Later.refl (W : Meant) (born : Nat → Str × Bytes) (s : Store) : Later W born s W born s :=
  ⟨Meant.le_refl W, Nat.le_refl _, fun _ _ => rfl⟩

theorem Later.trans {W'' : Meant} {born'' : Nat → Str × Bytes} {s'' : Store} (h1 : Later W born s W' born' s')
    (h2 : Later W' born' s' W'' born'' s'') : Later W born s W'' born'' s'' :=
  ⟨Meant.le_trans h1.meant h2.meant, Nat.le_trans h1.next h2.next, fun i hi => by
    rw [h2.born i (Nat.lt_of_lt_of_le hi h1.next), h1.born i hi]⟩

theorem Cells.grow (h : Cells S Ok W born s) (hW : W.le W') : Cells S Ok W' born s :=
  ⟨h.named, fun i hi => (h.ok i hi).imp_right fun h => ⟨hW _ _ h.1, h.2⟩⟩

/-- one operation of a program that obeys -/
theorem obeys_step {Q : Meant → Except PyErr α → Knows → Prop} {o : Op} {k : Except PyErr o.Res → Prog α}
    (h : Obeys E S Ok Q (.op o k) W K) (hc : Cells S Ok W born s) (hK : K.True S born s) :
    ∃ born' K', Later W born s W born' (o.step E s).2 ∧ Cells S Ok W born' (o.step E s).2 ∧
      K'.True S born' (o.step E s).2 ∧ Obeys E S Ok Q (k (o.step E s).1) W K' := by
  have same : ∀ {r : Except PyErr o.Res} {K' : Knows}, o.step E s = (r, s) → K'.True S born s → Obeys E S Ok Q (k r) W K' →
      ∃ born' K', Later W born s W born' (o.step E s).2 ∧ Cells S Ok W born' (o.step E s).2 ∧
        K'.True S born' (o.step E s).2 ∧ Obeys E S Ok Q (k (o.step E s).1) W K' := by
    intro r K' e h1 h2
    rw [e]
    exact ⟨born, K', Later.refl _ _ _, hc, h1, h2⟩
  have put : ∀ (i : Nat) (d : Bytes) (r : Except PyErr o.Res), (∃ x b, K i x b ∧ (S x ∨ Ok b d)) →
      o.step E s = (r, { s with segs := fun j => if j = i then d else s.segs j }) → Obeys E S Ok Q (k r) W K →
      ∃ born' K', Later W born s W born' (o.step E s).2 ∧ Cells S Ok W born' (o.step E s).2 ∧
        K'.True S born' (o.step E s).2 ∧ Obeys E S Ok Q (k (o.step E s).1) W K' := by
    rintro i d r ⟨x, b, h1, h2⟩ e h3
    rw [e]
    refine ⟨born, K, ⟨Meant.le_refl W, Nat.le_refl _, fun _ _ => rfl⟩, ⟨hc.named, fun j hj => ?_⟩, hK, h3⟩
    obtain ⟨k1, k2, k3⟩ := hK i x b h1
    simp only
    split
    · rename_i hji
      subst hji
      rcases hc.ok j hj with h | ⟨h4, _⟩
      · exact Or.inl h
      · rcases h2 with h2 | h2
        · exact Or.inl (k2 ▸ h2)
        · rcases k3 with k3 | k3
          · exact Or.inl (k2 ▸ k3)
          · exact Or.inr ⟨h4, k3 ▸ h2⟩
    · exact hc.ok j hj
  cases o with
  | create n z =>
    obtain ⟨b, hm, hk⟩ := h
    have fail : ∀ e, (K.plus (.error e) n b).True S born s := by
      rintro e i x b' (h | ⟨h, _⟩)
      · exact hK i x b' h
      · cases h
    by_cases h0 : z = 0
    · exact same (r := .error .valueError) (by simp only [Op.step, if_pos h0]) (fail .valueError) (hk _)
    by_cases h1 : E.okName n = false
    · exact same (r := .error .osError) (by simp only [Op.step, if_neg h0, if_pos h1]) (fail .osError) (hk _)
    cases h2 : s.names n with
    | some i => exact same (r := .error .fileExists) (by simp only [Op.step, if_neg h0, if_neg h1, h2]) (fail .fileExists) (hk _)
    | none =>
      have e : (Op.create n z).step E s = (.ok s.next, { names := fun x => if x = n then some s.next else s.names x
                                                         segs := fun i => if i = s.next then List.replicate z 0 else s.segs i
                                                         next := s.next + 1 }) := by
        simp only [Op.step, if_neg h0, if_neg h1, h2]
      rw [e]
      have hb : ∀ i, i < s.next → (if i = s.next then (n, b) else born i) = born i := fun i hi => if_neg (by omega)
      refine ⟨fun i => if i = s.next then (n, b) else born i, K.plus (.ok s.next) n b,
        ⟨Meant.le_refl W, Nat.le_succ _, hb⟩, ⟨?_, ?_⟩, ?_, hk _⟩
      · intro x i hx
        simp only at hx ⊢
        split at hx
        · injection hx with hx
          subst hx
          rename_i hxn
          exact ⟨by omega, by simp [hxn]⟩
        · obtain ⟨h3, h4⟩ := hc.named x i hx
          exact ⟨by omega, by rw [hb i h3]; exact h4⟩
      · intro i hi
        simp only at hi ⊢
        by_cases hin : i = s.next
        · subst hin
          simp only [if_pos]
          exact hm
        · rw [hb i (by omega), if_neg hin]
          exact hc.ok i (by omega)
      · rintro i x b' (h | ⟨h, rfl, rfl⟩)
        · obtain ⟨h3, h4⟩ := hK i x b' h
          simp only
          rw [hb i h3]
          exact ⟨by omega, h4⟩
        · injection h with h
          subst h
          simp
  | attach n =>
    by_cases h1 : E.okName n = false
    · refine same (r := .error .osError) (by simp only [Op.step, if_pos h1]) ?_
        (h W [] (Meant.le_refl W) _ (fun j hj => by cases hj) fun e _ => Or.inr h1)
      rintro i x b' (h | ⟨h, _⟩)
      · exact hK i x b' h
      · cases h
    cases h2 : s.names n with
    | some i =>
      obtain ⟨h3, h4⟩ := hc.named n i h2
      refine same (r := .ok i) (by simp only [Op.step, if_neg h1, h2]) ?_
        (h W (born i).2 (Meant.le_refl W) _ (fun j hj => ?_) fun e he => by cases he)
      · rintro j x b' (h | ⟨h, rfl, rfl⟩)
        · exact hK j x b' h
        · injection h with h
          subst h
          exact ⟨h3, h4, Or.inr rfl⟩
      · rcases hc.ok i h3 with h | h
        · exact Or.inl (h4 ▸ h)
        · exact Or.inr (h4 ▸ h.1)
    | none =>
      refine same (r := .error .fileNotFound) (by simp only [Op.step, if_neg h1, h2]) ?_
        (h W [] (Meant.le_refl W) _ (fun j hj => by cases hj) fun e he => by injection he with he; exact Or.inl he.symm)
      rintro i x b' (h | ⟨h, _⟩)
      · exact hK i x b' h
      · cases h
  | unlink n =>
    cases h2 : s.names n with
    | some i =>
      have e : (Op.unlink n).step E s = (.ok (), { s with names := fun x => if x = n then none else s.names x }) := by
        simp only [Op.step, h2]
      rw [e]
      refine ⟨born, K, ⟨Meant.le_refl W, Nat.le_refl _, fun _ _ => rfl⟩, ⟨fun x i hx => ?_, hc.ok⟩, hK, h _⟩
      simp only at hx
      split at hx
      · cases hx
      · exact hc.named x i hx
    | none => exact same (r := .error .fileNotFound) (by simp only [Op.step, h2]) hK (h _)
  | read i =>
    refine same (r := .ok (s.segs i)) rfl hK (h _ fun x b hk => ?_)
    obtain ⟨k1, k2, k3⟩ := hK i x b hk
    rcases hc.ok i k1 with h | h
    · exact Or.inl (k2 ▸ h)
    · exact k3.imp_right fun k3 => by rw [← k3]; exact h.2
  | write i d =>
    by_cases hl : d.length = (s.segs i).length
    · exact put i d (.ok ()) h.1 (by simp only [Op.step, if_pos hl]) h.2.1
    · exact same (r := .error .valueError) (by simp only [Op.step, if_neg hl]) hK h.2.2
  | writeFront i d =>
    obtain ⟨⟨x, b, h1, h2⟩, h3⟩ := h
    refine put i (d ++ (s.segs i).drop d.length) (.ok ()) ⟨x, b, h1, ?_⟩ rfl h3
    rcases h2 with h2 | h2
    · exact Or.inl h2
    · obtain ⟨k1, k2, k3⟩ := hK i x b h1
      rcases hc.ok i k1 with h | h
      · exact Or.inl (k2 ▸ h)
      · rcases k3 with k3 | k3
        · exact Or.inl k3
        · have := h2 (s.segs i) d.length (k3 ▸ h.2)
          rw [List.take_length] at this
          exact Or.inr this

end Verif.Lemmas
