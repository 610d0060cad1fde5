import Verif.Spec.StickyShared
import Verif.Lemmas.Shm
/-!
# Programs that respect a block

`a` is the address of the block, `P` what may be found in it, `H` the handles of it that are known, `Z` the sizes that are known.
-/
namespace Verif.Lemmas
open Verif Verif.Model Verif.Spec
variable {α β V : Type} {E : Env} {a : Str} {P : Bytes → Prop}

/-- a program that uses the block at `a` only, and puts into it only what may be there -/
def Heeds (a : Str) (P : Bytes → Prop) (Q : Except PyErr α → Prop) : Prog α → (Nat → Prop) → Prop
  | .ret x, _ => Q (.ok x)
  | .raise e, _ => Q (.error e)
  | .stuck, _ => True
  | .op (.create n z) k, H => n = a ∧ P (List.replicate z 0) ∧ ∀ r : Except PyErr Nat, Heeds a P Q (k r) fun h => H h ∨ r = .ok h
  | .op (.attach n) k, H => n = a ∧ ∀ r : Except PyErr Nat, (∀ e, r = .error e → e = .fileNotFound) →
      Heeds a P Q (k r) fun h => H h ∨ r = .ok h
  | .op (.unlink n) k, H => n = a ∧ ∀ r, Heeds a P Q (k r) H
  | .op (.read h) k, H => H h ∧ ∀ d, P d → Heeds a P Q (k (.ok d)) H
  | .op (.write h b) k, H => H h ∧ P b ∧ Heeds a P Q (k (.ok ())) H ∧ Heeds a P Q (k (.error .valueError)) H
  | .op (.writeFront _ _) _, _ => False

/-- the same for programs of bytes -/
def Minds (a : Str) (P : Bytes → Prop) (Q : Except PyErr α → Prop) : BProg α → (Nat → Prop) → (Nat → Nat → Prop) → Prop
  | .ret x, _, _ => Q (.ok x)
  | .raise e, _, _ => Q (.error e)
  | .stuck, _, _ => True
  | .op (.op (.create n z)) k, H, Z => n = a ∧ P (List.replicate z 0) ∧
      ∀ r : Except PyErr Nat, Minds a P Q (k r) (fun h => H h ∨ r = .ok h) Z
  | .op (.op (.attach n)) k, H, Z => n = a ∧ ∀ r : Except PyErr Nat, (∀ e, r = .error e → e = .fileNotFound) →
      Minds a P Q (k r) (fun h => H h ∨ r = .ok h) Z
  | .op (.op (.unlink n)) k, H, Z => n = a ∧ ∀ r, Minds a P Q (k r) H Z
  | .op (.op (.read h)) k, H, Z => H h ∧ ∀ d, P d → Minds a P Q (k (.ok d)) H fun h' z => Z h' z ∨ (h' = h ∧ z = d.length)
  | .op (.op (.write h b)) k, H, Z => H h ∧ P b ∧ Minds a P Q (k (.ok ())) H Z ∧ Minds a P Q (k (.error .valueError)) H Z
  | .op (.op (.writeFront _ _)) _, _, _ => False
  | .op (.peek h i) k, H, Z => H h ∧ ∃ z, Z h z ∧ ∀ d, P d → d.length = z → Minds a P Q (k (.ok (d.getD i 0))) H Z
  | .op (.poke h i x) k, H, Z => H h ∧ ∃ z, Z h z ∧ (∀ d, P d → d.length = z → P (d.set i x)) ∧ Minds a P Q (k (.ok ())) H Z

theorem minds_whole {Q : Except PyErr α → Prop} {p : Prog α} {H : Nat → Prop} {Z : Nat → Nat → Prop} (h : Heeds a P Q p H) :
    Minds a P Q p.whole H Z := by
  induction p generalizing H Z with
  | ret x => exact h
  | raise e => exact h
  | stuck => trivial
  | op o k ih =>
    cases o with
    | create n z => exact ⟨h.1, h.2.1, fun r => ih r (h.2.2 r)⟩
    | attach n => exact ⟨h.1, fun r hr => ih r (h.2 r hr)⟩
    | unlink n => exact ⟨h.1, fun r => ih r (h.2 r)⟩
    | read n => exact ⟨h.1, fun d hd => ih _ (h.2 d hd)⟩
    | write n b => exact ⟨h.1, h.2.1, ih _ h.2.2.1, ih _ h.2.2.2⟩
    | writeFront n b => exact h.elim

theorem blend_set {Src : Bytes → Prop} {d b : Bytes} (hd : Blend Src d) (hb : Blend Src b) (hl : b.length = d.length) {i : Nat} {x : Nat}
    (hx : b[i]? = some x) : Blend Src (d.set i x) := by
  intro j hj
  have hjd : j < d.length := by simpa using hj
  by_cases e : j = i
  · subst e
    have h1 : (d.set j x).getD j 0 = b.getD j 0 := by simp [List.getD_eq_getElem?_getD, hx, hjd]
    rw [h1]
    rcases hb j (by omega) with h | ⟨b', h2, h3, h4⟩
    · exact .inl h
    · exact .inr ⟨b', h2, by simpa [hl] using h3, h4⟩
  · have h1 : (d.set i x).getD j 0 = d.getD j 0 := by simp [List.getD_eq_getElem?_getD, Ne.symm e]
    rw [h1]
    rcases hd j hjd with h | ⟨b', h2, h3, h4⟩
    · exact .inl h
    · exact .inr ⟨b', h2, by simpa using h3, h4⟩

theorem minds_peeks {Src : Bytes → Prop} {Q : Except PyErr α → Prop} {h : Nat} {k : Bytes → BProg α} {H : Nat → Prop}
    {Z : Nat → Nat → Prop} {z : Nat} (hh : H h) (hz : Z h z) (n : Nat) (got : Bytes) (hn : got.length + n = z)
    (hgot : ∀ i, i < got.length → got.getD i 0 = 0 ∨ ∃ b, Src b ∧ b.length = z ∧ got.getD i 0 = b.getD i 0)
    (hk : ∀ d, Blend Src d → Minds a (Blend Src) Q (k d) H Z) : Minds a (Blend Src) Q (bpeeks h k n got) H Z := by
  induction n generalizing got with
  | zero =>
    refine hk got fun i hi => ?_
    have : got.length = z := by omega
    rw [this]
    exact hgot i hi
  | succ n ih =>
    refine ⟨hh, z, hz, fun d hd hl => ih _ (by simp; omega) fun i hi => ?_⟩
    have hi' : i < got.length + 1 := by simpa using hi
    by_cases e : i < got.length
    · have h1 : (got ++ [d.getD got.length 0]).getD i 0 = got.getD i 0 := by
        simp [List.getD_eq_getElem?_getD, List.getElem?_append, e]
      rw [h1]
      exact hgot i e
    · have e : i = got.length := by omega
      subst e
      have h1 : (got ++ [d.getD got.length 0]).getD got.length 0 = d.getD got.length 0 := by
        simp [List.getD_eq_getElem?_getD]
      rw [h1]
      rcases hd got.length (by omega) with h | ⟨b, h2, h3, h4⟩
      · exact .inl h
      · exact .inr ⟨b, h2, by omega, h4⟩

theorem minds_pokes {Src : Bytes → Prop} {Q : Except PyErr α → Prop} {h : Nat} {k : BProg α} {H : Nat → Prop}
    {Z : Nat → Nat → Prop} {b : Bytes} (hh : H h) (hz : Z h b.length) (hb : Blend Src b) (i : Nat) (rest : Bytes) (hr : b.drop i = rest)
    (hk : Minds a (Blend Src) Q k H Z) : Minds a (Blend Src) Q (bpokes h k i rest) H Z := by
  induction rest generalizing i with
  | nil => exact hk
  | cons x rest ih =>
    have hx : b[i]? = some x := by
      have := congrArg (·[0]?) hr
      simpa using this
    refine ⟨hh, b.length, hz, fun d hd hl => blend_set hd hb hl.symm hx, ih (i + 1) ?_⟩
    rw [← List.tail_drop, hr]
    rfl

theorem minds_bytewise {Src : Bytes → Prop} {Q : Except PyErr α → Prop} {p : Prog α} {H : Nat → Prop} {Z : Nat → Nat → Prop}
    (h : Heeds a (Blend Src) Q p H) : Minds a (Blend Src) Q p.bytewise H Z := by
  induction p generalizing H Z with
  | ret x => exact h
  | raise e => exact h
  | stuck => trivial
  | op o k ih =>
    cases o with
    | create n z => exact ⟨h.1, h.2.1, fun r => ih r (h.2.2 r)⟩
    | attach n => exact ⟨h.1, fun r hr => ih r (h.2 r hr)⟩
    | unlink n => exact ⟨h.1, fun r => ih r (h.2 r)⟩
    | read n =>
      simp only [Prog.bytewise]
      refine ⟨h.1, fun d hd => ?_⟩
      exact minds_peeks h.1 (.inr ⟨rfl, rfl⟩) d.length [] (by simp) (by simp) fun c hc => ih _ (h.2 c hc)
    | write n b =>
      simp only [Prog.bytewise]
      refine ⟨h.1, fun d hd => ?_⟩
      show Minds a (Blend Src) Q (if b.length = d.length then _ else _) _ _
      split
      · rename_i e
        exact minds_pokes h.1 (.inr ⟨rfl, e⟩) h.2.1 0 b rfl (ih _ h.2.2.1)
      · exact ih _ h.2.2.2
    | writeFront n b => exact h.elim

/-! ## memory -/

/-- the segments at `a`, once and now: the one there at the beginning, and those made since -/
def OfBlock (s0 : Store) (a : Str) (i : Nat) : Prop := s0.names a = some i ∨ s0.next ≤ i

structure Sane (s0 : Store) (a : Str) (P : Bytes → Prop) (s : Store) : Prop where
  next : s0.next ≤ s.next
  named : ∀ i, s.names a = some i → OfBlock s0 a i ∧ i < s.next
  ok : ∀ i, OfBlock s0 a i → i < s.next → P (s.segs i)

/-- what is known is true -/
def Known (s0 : Store) (a : Str) (s : Store) (H : Nat → Prop) (Z : Nat → Nat → Prop) : Prop :=
  (∀ h, H h → OfBlock s0 a h ∧ h < s.next) ∧ ∀ h z, Z h z → h < s.next ∧ (s.segs h).length = z

/-- what stays: segments and their sizes -/
def Stays (s s' : Store) : Prop := s.next ≤ s'.next ∧ ∀ h, h < s.next → (s'.segs h).length = (s.segs h).length

theorem Known.stays {s0 s s' : Store} {H : Nat → Prop} {Z : Nat → Nat → Prop} (h : Known s0 a s H Z) (hs : Stays s s') :
    Known s0 a s' H Z :=
  ⟨fun i hi => ⟨(h.1 i hi).1, Nat.lt_of_lt_of_le (h.1 i hi).2 hs.1⟩, fun i z hi => ⟨Nat.lt_of_lt_of_le (h.2 i z hi).1 hs.1, by
    rw [hs.2 i (h.2 i z hi).1]; exact (h.2 i z hi).2⟩⟩

theorem minds_step {s0 s : Store} {Q : Except PyErr α → Prop} {o : BOp} {k : Except PyErr o.Res → BProg α} {H : Nat → Prop}
    {Z : Nat → Nat → Prop} (hok : E.okName a = true) (h : Minds a P Q (.op o k) H Z) (hs : Sane s0 a P s) (hk : Known s0 a s H Z) :
    ∃ H' Z', Sane s0 a P (o.step E s).2 ∧ Known s0 a (o.step E s).2 H' Z' ∧ Minds a P Q (k (o.step E s).1) H' Z' ∧
      Stays s (o.step E s).2 := by
  have refl : Stays s s := ⟨Nat.le_refl _, fun _ _ => rfl⟩
  cases o with
  | op o =>
    cases o with
    | create n z =>
      obtain ⟨rfl, h1, h2⟩ := h
      have fail : ∀ e, Known s0 n s (fun h => H h ∨ (Except.error e : Except PyErr Nat) = .ok h) Z := fun e =>
        ⟨fun i hi => hi.elim (hk.1 i) (fun hi => nomatch hi), hk.2⟩
      by_cases hz : z = 0
      · have e : (BOp.op (.create n z)).step E s = (.error .valueError, s) := by simp [BOp.step, Op.step, hz] <;> rfl
        rw [e]
        exact ⟨_, _, hs, fail _, h2 _, refl⟩
      cases hn : s.names n with
      | some i =>
        have e : (BOp.op (.create n z)).step E s = (.error .fileExists, s) := by simp [BOp.step, Op.step, hz, hok, hn] <;> rfl
        rw [e]
        exact ⟨_, _, hs, fail _, h2 _, refl⟩
      | none =>
        have e : (BOp.op (.create n z)).step E s = (.ok s.next,
            { names := fun x => if x = n then some s.next else s.names x
              segs := fun i => if i = s.next then List.replicate z 0 else s.segs i
              next := s.next + 1 }) := by simp [BOp.step, Op.step, hz, hok, hn] <;> rfl
        rw [e]
        refine ⟨_, _, ⟨Nat.le_succ_of_le hs.next, fun i hi => ?_, fun i hi hl => ?_⟩, ⟨fun i hi => ?_, fun i z' hi => ?_⟩, h2 _,
          Nat.le_succ _, fun i hi => ?_⟩
        · simp only [if_true, Option.some.injEq] at hi
          subst hi
          exact ⟨.inr hs.next, Nat.lt_succ_self _⟩
        · simp only
          split
          · exact h1
          · exact hs.ok i hi (by simp only at hl; omega)
        · rcases hi with hi | hi
          · exact ⟨(hk.1 i hi).1, Nat.lt_succ_of_lt (hk.1 i hi).2⟩
          · injection hi with hi
            subst hi
            exact ⟨.inr hs.next, Nat.lt_succ_self _⟩
        · obtain ⟨k1, k2⟩ := hk.2 i z' hi
          refine ⟨Nat.lt_succ_of_lt k1, ?_⟩
          simp only [if_neg (Nat.ne_of_lt k1)]
          exact k2
        · simp only [if_neg (Nat.ne_of_lt hi)]
    | attach n =>
      obtain ⟨rfl, h2⟩ := h
      cases hn : s.names n with
      | none =>
        have e : (BOp.op (.attach n)).step E s = (.error .fileNotFound, s) := by simp [BOp.step, Op.step, hok, hn] <;> rfl
        rw [e]
        exact ⟨_, _, hs, ⟨fun i hi => hi.elim (hk.1 i) (fun hi => nomatch hi), hk.2⟩, h2 _ (by rintro e ⟨⟩; rfl), refl⟩
      | some i =>
        have e : (BOp.op (.attach n)).step E s = (.ok i, s) := by simp [BOp.step, Op.step, hok, hn] <;> rfl
        rw [e]
        refine ⟨_, _, hs, ⟨fun j hj => ?_, hk.2⟩, h2 _ (by rintro e ⟨⟩), refl⟩
        rcases hj with hj | hj
        · exact hk.1 j hj
        · injection hj with hj
          subst hj
          exact hs.named _ hn
    | unlink n =>
      obtain ⟨rfl, h2⟩ := h
      cases hn : s.names n with
      | none =>
        have e : (BOp.op (.unlink n)).step E s = (.error .fileNotFound, s) := by simp [BOp.step, Op.step, hn] <;> rfl
        rw [e]
        exact ⟨_, _, hs, hk, h2 _, refl⟩
      | some i =>
        have e : (BOp.op (.unlink n)).step E s = (.ok (), { s with names := fun x => if x = n then none else s.names x }) := by
          simp [BOp.step, Op.step, hn] <;> rfl
        rw [e]
        exact ⟨_, _, ⟨hs.next, fun j hj => by simp at hj, hs.ok⟩, hk, h2 _, refl⟩
    | read i =>
      obtain ⟨h1, h2⟩ := h
      have hi := hk.1 i h1
      refine ⟨_, _, hs, ⟨hk.1, ?_⟩, h2 (s.segs i) (hs.ok i hi.1 hi.2), refl⟩
      rintro j z (hj | ⟨rfl, rfl⟩)
      · exact hk.2 j z hj
      · exact ⟨hi.2, rfl⟩
    | write i b =>
      obtain ⟨h1, h2, h3, h4⟩ := h
      by_cases hl : b.length = (s.segs i).length
      · have e : (BOp.op (.write i b)).step E s = (.ok (), { s with segs := fun j => if j = i then b else s.segs j }) := by
          simp [BOp.step, Op.step, hl] <;> rfl
        rw [e]
        have st : Stays s { s with segs := fun j => if j = i then b else s.segs j } := ⟨Nat.le_refl _, fun j _ => by
          simp only
          split
          · rename_i e; subst e; exact hl
          · rfl⟩
        refine ⟨_, _, ⟨hs.next, hs.named, fun j hj hl => ?_⟩, hk.stays st, h3, st⟩
        simp only
        split
        · exact h2
        · exact hs.ok j hj hl
      · have e : (BOp.op (.write i b)).step E s = (.error .valueError, s) := by simp [BOp.step, Op.step, hl] <;> rfl
        rw [e]
        exact ⟨_, _, hs, hk, h4, refl⟩
    | writeFront i b => exact h.elim
  | peek i j =>
    obtain ⟨h1, z, h2, h3⟩ := h
    have hi := hk.1 i h1
    exact ⟨_, _, hs, hk, h3 (s.segs i) (hs.ok i hi.1 hi.2) (hk.2 i z h2).2, refl⟩
  | poke i j x =>
    obtain ⟨h1, z, h2, h3, h4⟩ := h
    have hi := hk.1 i h1
    have st : Stays s { s with segs := fun l => if l = i then (s.segs i).set j x else s.segs l } := ⟨Nat.le_refl _, fun l _ => by
      simp only
      split
      · rename_i e; subst e; simp
      · rfl⟩
    refine ⟨_, _, ⟨hs.next, hs.named, fun l hl hn => ?_⟩, hk.stays st, h4, st⟩
    show P (if l = i then _ else _)
    split
    · exact h3 _ (hs.ok i hi.1 hi.2) (hk.2 i z h2).2
    · exact hs.ok l hl hn

/-! ## calls on a `Sticky` -/

variable {c : Codec V} {isNone : V → Bool} {own : List (StickyCall V)}

/-- what an object has kept -/
def KeptOK (c : Codec V) (isNone : V → Bool) (P : Bytes → Prop) (own : List (StickyCall V)) (n : Sticky V) : Prop :=
  ∀ v, n.cached = some v → isNone v = false ∧ ((∃ d, P d ∧ c.decode d = .ok v) ∨ .stick v ∈ own)

/-- how a call may end -/
def EndOK (c : Codec V) (isNone : V → Bool) (a : Str) (P : Bytes → Prop) (own : List (StickyCall V)) (o : StickyCall V) :
    Except PyErr (StickyOut V × Sticky V) → Prop
  | .error e => ∀ rr, o = .read rr → NoteRead c isNone P own (.error e)
  | .ok (x, n) => n.address = a ∧ KeptOK c isNone P own n ∧ ∀ rr, o = .read rr → NoteRead c isNone P own (.ok x)

/-- `read` when nothing is kept, or it is to be read again -/
def readBlock (c : Codec V) (isNone : V → Bool) (n : Sticky V) : Prog (Option V × Sticky V) := do
  match ← (attach n.address).attempt with
  | .error .fileNotFound => pure (none, n)
  | .error e => Prog.raise e
  | .ok h => do
    let b ← read h
    let v ← Prog.ofExcept (c.decode b)
    let r := if isNone v then none else some v
    pure (r, { n with cached := r })

theorem heeds_readNew {n : Sticky V} (hn : n.address = a) (hc : KeptOK c isNone P own n) (rr : Bool) (H : Nat → Prop) :
    Heeds a P (EndOK c isNone a P own (.read rr)) ((readBlock c isNone n).bind fun r => .ret (.val r.1, r.2)) H := by
  refine ⟨hn, fun r hr => ?_⟩
  cases r with
  | error e =>
    obtain rfl := hr e rfl
    exact ⟨hn, hc, fun _ _ => .inl rfl⟩
  | ok h =>
    refine ⟨.inr rfl, fun d hd => ?_⟩
    cases e : c.decode d with
    | error x =>
      have : Heeds a P (EndOK c isNone a P own (.read rr)) (((Prog.ofExcept (c.decode d)).bind fun v =>
          (Prog.ret (if isNone v then none else some v, { n with cached := if isNone v then none else some v }) :
            Prog (Option V × Sticky V))).bind fun r => .ret (.val r.1, r.2)) (fun h' => H h' ∨ (Except.ok h : Except PyErr Nat) = .ok h') := by
        rw [e]
        exact fun _ _ => .inr (.inl ⟨d, hd, by rw [e]; rfl⟩)
      exact this
    | ok v =>
      have : Heeds a P (EndOK c isNone a P own (.read rr)) (((Prog.ofExcept (c.decode d)).bind fun v =>
          (Prog.ret (if isNone v then none else some v, { n with cached := if isNone v then none else some v }) :
            Prog (Option V × Sticky V))).bind fun r => .ret (.val r.1, r.2)) (fun h' => H h' ∨ (Except.ok h : Except PyErr Nat) = .ok h') := by
        rw [e]
        refine ⟨hn, fun w hw => ?_, fun _ _ => .inr (.inl ⟨d, hd, by rw [e]; rfl⟩)⟩
        simp only at hw
        split at hw
        · cases hw
        · rename_i e1
          obtain rfl := Option.some.inj hw
          exact ⟨by simpa using e1, .inl ⟨d, hd, e⟩⟩
      exact this

theorem heeds_call {n : Sticky V} (hn : n.address = a) (hc : KeptOK c isNone P own n) (o : StickyCall V)
    (ho : ∀ v, o = .stick v → .stick v ∈ own ∧ ∀ b, c.encode v = .ok b → P b ∧ P (List.replicate b.length 0)) (H : Nat → Prop) :
    Heeds a P (EndOK c isNone a P own o) (o.run c isNone n) H := by
  cases o with
  | close =>
    refine ⟨hn, fun r hr => ?_⟩
    cases r with
    | error e => exact fun _ h => nomatch h
    | ok h =>
      refine ⟨hn, fun r => ?_⟩
      cases r with
      | error e => exact fun _ h => nomatch h
      | ok _ => exact ⟨hn, hc, fun _ h => nomatch h⟩
  | read rr =>
    cases e : n.cached with
    | none =>
      have : stickyRead c isNone n rr = readBlock c isNone n := by simp only [stickyRead, e]; rfl
      simp only [StickyCall.run, this]
      exact heeds_readNew hn hc rr H
    | some v =>
      cases rr with
      | true =>
        have : stickyRead c isNone n true = readBlock c isNone n := by simp only [stickyRead, e]; rfl
        simp only [StickyCall.run, this]
        exact heeds_readNew hn hc true H
      | false =>
        have : stickyRead c isNone n false = Prog.ret (some v, n) := by simp only [stickyRead, e]; rfl
        simp only [StickyCall.run, this]
        refine ⟨hn, hc, fun _ _ => ?_⟩
        obtain ⟨h1, ⟨d, h2, h3⟩ | h2⟩ := hc v e
        · exact .inr (.inl ⟨d, h2, by rw [h3]; simp [noteVal, h1]⟩)
        · exact .inr (.inr ⟨v, h2, h1, rfl⟩)
  | stick v =>
    obtain ⟨h1, h2⟩ := ho v rfl
    cases e : c.encode v with
    | error x =>
      have : stickyStick c isNone n v = Prog.raise x := by simp only [stickyStick, e]; rfl
      simp only [StickyCall.run, this]
      exact fun _ h => nomatch h
    | ok b =>
      obtain ⟨h3, h4⟩ := h2 b e
      have : stickyStick c isNone n v = ((openBlock n.address b.length).bind fun h => (write h b).bind fun _ =>
          .ret { n with cached := if isNone v then none else some v }) := by simp only [stickyStick, e]; rfl
      simp only [StickyCall.run, this]
      have kept : KeptOK c isNone P own { n with cached := if isNone v then none else some v } := by
        intro w hw
        simp only at hw
        split at hw
        · cases hw
        · rename_i e1
          obtain rfl := Option.some.inj hw
          exact ⟨by simpa using e1, .inr h1⟩
      refine ⟨hn, h4, fun r => ?_⟩
      cases r with
      | ok h =>
        exact ⟨.inr rfl, h3, ⟨hn, kept, fun _ h => nomatch h⟩, fun _ h => nomatch h⟩
      | error x =>
        cases x
        case fileExists =>
          refine ⟨hn, fun r hr => ?_⟩
          cases r with
          | ok h => exact ⟨.inr rfl, h3, ⟨hn, kept, fun _ h => nomatch h⟩, fun _ h => nomatch h⟩
          | error x => exact fun _ h => nomatch h
        all_goals exact fun _ h => nomatch h

/-! ## processes -/

structure NoteInv (c : Codec V) (isNone : V → Bool) (a : Str) (P : Bytes → Prop) (own : List (StickyCall V)) (s0 s : Store) (p : StickyProc V) :
    Prop where
  addr : p.obj.address = a
  kept : KeptOK c isNone P own p.obj
  hist : ∀ rr out, (StickyCall.read rr, out) ∈ p.hist → NoteRead c isNone P own out
  now : ∀ o q, p.now = some (o, q) → ∃ H Z, Known s0 a s H Z ∧ Minds a P (EndOK c isNone a P own o) q H Z

theorem NoteInv.stays {s0 s s' : Store} {p : StickyProc V} (h : NoteInv c isNone a P own s0 s p) (hs : Stays s s') :
    NoteInv c isNone a P own s0 s' p :=
  ⟨h.addr, h.kept, h.hist, fun o q e => by
    obtain ⟨H, Z, h1, h2⟩ := h.now o q e
    exact ⟨H, Z, h1.stays hs, h2⟩⟩

/-- how a call is begun: byte by byte only if what may be there is a blend -/
def FineOK (P : Bytes → Prop) (fine : Bool) : Prop := fine = true → ∃ Src, P = Blend Src

theorem note_step {s0 s : Store} {p : StickyProc V} {fine : Bool} (hok : E.okName a = true) (hf : FineOK P fine)
    (hs : Sane s0 a P s) (h : NoteInv c isNone a P own s0 s p)
    (hb : ∀ v, .stick v ∈ StickyProc.begun (noteStep E c isNone fine p s).1 →
      .stick v ∈ own ∧ ∀ b, c.encode v = .ok b → P b ∧ P (List.replicate b.length 0)) :
    Sane s0 a P (noteStep E c isNone fine p s).2 ∧ NoteInv c isNone a P own s0 (noteStep E c isNone fine p s).2 (noteStep E c isNone fine p s).1 ∧
      Stays s (noteStep E c isNone fine p s).2 := by
  have refl : Stays s s := ⟨Nat.le_refl _, fun _ _ => rfl⟩
  obtain ⟨plan, obj, hist, now⟩ := p
  cases now with
  | none =>
    cases hp : plan hist with
    | none =>
      have e : noteStep E c isNone fine ⟨plan, obj, hist, none⟩ s = (⟨plan, obj, hist, none⟩, s) := by simp [noteStep, hp]
      rw [e]
      exact ⟨hs, h, refl⟩
    | some o =>
      have e : noteStep E c isNone fine ⟨plan, obj, hist, none⟩ s = (⟨plan, obj, hist,
          some (o, if fine then (o.run c isNone obj).bytewise else (o.run c isNone obj).whole)⟩, s) := by simp [noteStep, hp]
      rw [e] at hb ⊢
      refine ⟨hs, ⟨h.addr, h.kept, h.hist, fun o' q hq => ?_⟩, refl⟩
      simp only [Option.some.injEq, Prod.mk.injEq] at hq
      obtain ⟨rfl, rfl⟩ := hq
      refine ⟨fun _ => False, fun _ _ => False, ⟨fun _ h => h.elim, fun _ _ h => h.elim⟩, ?_⟩
      have := heeds_call (P := P) h.addr h.kept o (fun v hv => hb v (by simp [StickyProc.begun, hv])) fun _ => False
      split
      · rename_i hfine
        obtain ⟨Src, rfl⟩ := hf hfine
        exact minds_bytewise this
      · exact minds_whole this
  | some now =>
    obtain ⟨o, q⟩ := now
    obtain ⟨H, Z, h1, h2⟩ := h.now o q rfl
    cases q with
    | ret x =>
      obtain ⟨x, n⟩ := x
      obtain ⟨h3, h4, h5⟩ := h2
      refine ⟨hs, ⟨h3, h4, fun rr out hm => ?_, fun _ _ h => nomatch h⟩, refl⟩
      rcases List.mem_append.1 hm with hm | hm
      · exact h.hist rr out hm
      · rw [List.mem_singleton, Prod.mk.injEq] at hm
        obtain ⟨e1, rfl⟩ := hm
        exact h5 rr e1.symm
    | raise x =>
      refine ⟨hs, ⟨h.addr, h.kept, fun rr out hm => ?_, fun _ _ h => nomatch h⟩, refl⟩
      rcases List.mem_append.1 hm with hm | hm
      · exact h.hist rr out hm
      · rw [List.mem_singleton, Prod.mk.injEq] at hm
        obtain ⟨e1, rfl⟩ := hm
        exact h2 rr e1.symm
    | stuck => exact ⟨hs, h, refl⟩
    | op b k =>
      obtain ⟨H', Z', k1, k2, k3, k4⟩ := minds_step hok h2 hs h1
      refine ⟨k1, ⟨h.addr, h.kept, h.hist, fun o' q hq => ?_⟩, k4⟩
      simp only [noteStep, Option.some.injEq, Prod.mk.injEq] at hq
      obtain ⟨rfl, rfl⟩ := hq
      exact ⟨H', Z', k2, k3⟩

/-- a step forgets no call -/
theorem begun_step {p : StickyProc V} {s : Store} {fine : Bool} : StickyProc.begun p ⊆ StickyProc.begun (noteStep E c isNone fine p s).1 := by
  obtain ⟨plan, obj, hist, now⟩ := p
  intro o ho
  cases now with
  | none =>
    simp only [noteStep]
    cases plan hist with
    | none => exact ho
    | some o' => simp only [StickyProc.begun, Option.map_none, Option.toList_none, List.append_nil] at ho; simp [StickyProc.begun, ho]
  | some now =>
    obtain ⟨o', q⟩ := now
    cases q with
    | ret x => simpa [StickyProc.begun, noteStep] using ho
    | raise e => simpa [StickyProc.begun, noteStep] using ho
    | stuck => exact ho
    | op b k => simpa [StickyProc.begun, noteStep] using ho

theorem begun_run {fine : Bool} (sched : List Nat) (ps : List (StickyProc V)) (s : Store) {i : Nat} {p : StickyProc V} (hp : ps[i]? = some p) :
    ∃ p', (noteRun E c isNone fine sched ps s).1[i]? = some p' ∧ StickyProc.begun p ⊆ StickyProc.begun p' := by
  induction sched generalizing ps s p with
  | nil => exact ⟨p, hp, List.Subset.refl _⟩
  | cons j sched ih =>
    simp only [noteRun]
    cases hj : ps[j]? with
    | none => exact ih ps s hp
    | some q =>
      by_cases e : j = i
      · subst e
        obtain rfl : q = p := by rw [hp] at hj; exact (Option.some.inj hj).symm
        have hl : j < ps.length := (List.getElem?_eq_some_iff.1 hp).1
        obtain ⟨p', h1, h2⟩ := ih (ps.set j (noteStep E c isNone fine q s).1) (noteStep E c isNone fine q s).2
          (p := (noteStep E c isNone fine q s).1) (by simp [hl])
        exact ⟨p', h1, List.Subset.trans begun_step h2⟩
      · exact ih _ _ (by simp [e, hp])

theorem note_run {s0 : Store} {fine : Bool} (hok : E.okName a = true) (hf : FineOK P fine) (sched : List Nat) (ps : List (StickyProc V))
    (s : Store) (own : Nat → List (StickyCall V)) (hs : Sane s0 a P s) (h : ∀ i p, ps[i]? = some p → NoteInv c isNone a P (own i) s0 s p)
    (hb : ∀ i p, (noteRun E c isNone fine sched ps s).1[i]? = some p → ∀ v, .stick v ∈ StickyProc.begun p →
      .stick v ∈ own i ∧ ∀ b, c.encode v = .ok b → P b ∧ P (List.replicate b.length 0)) :
    Sane s0 a P (noteRun E c isNone fine sched ps s).2 ∧ ∀ i p, (noteRun E c isNone fine sched ps s).1[i]? = some p →
      NoteInv c isNone a P (own i) s0 (noteRun E c isNone fine sched ps s).2 p := by
  induction sched generalizing ps s with
  | nil => exact ⟨hs, h⟩
  | cons j sched ih =>
    simp only [noteRun] at hb ⊢
    cases hj : ps[j]? with
    | none =>
      simp only [hj] at hb
      exact ih ps s hs h hb
    | some q =>
      simp only [hj] at hb
      have hl : j < ps.length := (List.getElem?_eq_some_iff.1 hj).1
      obtain ⟨p', h1, h2⟩ := begun_run (E := E) (c := c) (isNone := isNone) (fine := fine) sched
        (ps.set j (noteStep E c isNone fine q s).1) (noteStep E c isNone fine q s).2 (i := j)
        (p := (noteStep E c isNone fine q s).1) (by simp [hl])
      obtain ⟨k1, k2, k3⟩ := note_step hok hf hs (h j q hj) fun v hv => hb j p' h1 v (h2 hv)
      refine ih _ _ k1 (fun i p hp => ?_) hb
      by_cases e : j = i
      · subst e
        rw [List.getElem?_set_self hl] at hp
        obtain rfl := Option.some.inj hp
        exact k2
      · rw [List.getElem?_set_ne e] at hp
        exact (h i p hp).stays k3

end Verif.Lemmas
