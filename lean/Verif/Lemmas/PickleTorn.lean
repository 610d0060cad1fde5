import Verif.Lemmas.PickleBytes
/-!
# What `loads` does with a pickle of which only a part was written, the rest being zeros
-/
namespace Verif.Lemmas.Pickle
open Verif Verif.Model Verif.Spec

/-- zeros only -/
def Zeros (b : Bytes) : Prop := ∀ x ∈ b, x = 0

theorem Zeros.take {b : Bytes} (h : Zeros b) (n : Nat) : Zeros (b.take n) := fun x hx => h x (List.mem_of_mem_take hx)
theorem Zeros.drop {b : Bytes} (h : Zeros b) (n : Nat) : Zeros (b.drop n) := fun x hx => h x (List.mem_of_mem_drop hx)

/-- at most the next `l` bytes are anything but zeros -/
def Live (l : Nat) (u : Rd) : Prop :=
  match u.cur with
  | none => Zeros (u.file.drop l)
  | some c => Zeros (c.drop l) ∧ Zeros u.file

theorem live_read {l n : Nat} {u u' : Rd} {b : Bytes} (h : Live l u) (hr : u.read n = .ok (b, u')) : Live (l - n) u' := by
  obtain ⟨cur, file⟩ := u
  cases cur with
  | none =>
    simp only [Rd.read, Except.ok.injEq, Prod.mk.injEq] at hr
    obtain ⟨-, rfl⟩ := hr
    simp only [Live] at h ⊢
    rw [List.drop_drop]
    by_cases hl : l ≤ n
    · rw [show l = l + 0 by rfl] at h
      have : n + (l - n) = l + (n - l) := by omega
      rw [this, ← List.drop_drop]
      exact h.drop _
    · rw [show n + (l - n) = l by omega]
      exact h
  | some c =>
    simp only [Live] at h
    simp only [Rd.read] at hr
    split at hr
    · simp only [Except.ok.injEq, Prod.mk.injEq] at hr
      obtain ⟨-, rfl⟩ := hr
      exact (h.2.drop n).drop _
    · split at hr
      · cases hr
      · simp only [Except.ok.injEq, Prod.mk.injEq] at hr
        obtain ⟨-, rfl⟩ := hr
        refine ⟨?_, h.2⟩
        show Zeros ((c.drop n).drop (l - n))
        rw [List.drop_drop]
        by_cases hl : l ≤ n
        · rw [show n + (l - n) = l + (n - l) by omega, ← List.drop_drop]
          exact h.1.drop _
        · rw [show n + (l - n) = l by omega]
          exact h.1

theorem live_mono {l l' : Nat} {u : Rd} (hl : l ≤ l') (h : Live l u) : Live l' u := by
  obtain ⟨cur, file⟩ := u
  cases cur with
  | none =>
    simp only [Live] at h ⊢
    rw [show l' = l + (l' - l) by omega, ← List.drop_drop]
    exact h.drop _
  | some c =>
    simp only [Live] at h ⊢
    refine ⟨?_, h.2⟩
    rw [show l' = l + (l' - l) by omega, ← List.drop_drop]
    exact h.1.drop _

theorem dead_read {n : Nat} {u u' : Rd} {b : Bytes} (h : Live 0 u) (hr : u.read n = .ok (b, u')) : Live 0 u' ∧ Zeros b := by
  refine ⟨by simpa using live_read h hr, ?_⟩
  obtain ⟨cur, file⟩ := u
  cases cur with
  | none =>
    simp only [Rd.read, Except.ok.injEq, Prod.mk.injEq] at hr
    obtain ⟨rfl, -⟩ := hr
    exact Zeros.take h n
  | some c =>
    simp only [Live] at h
    simp only [Rd.read] at hr
    split at hr
    · simp only [Except.ok.injEq, Prod.mk.injEq] at hr
      obtain ⟨rfl, -⟩ := hr
      exact h.2.take n
    · split at hr
      · cases hr
      · simp only [Except.ok.injEq, Prod.mk.injEq] at hr
        obtain ⟨rfl, -⟩ := hr
        exact Zeros.take h.1 n

/-- no opcode is a zero -/
theorem dead_readOp {u : Rd} (h : Live 0 u) : ∃ e, readOp u = .error e := by
  simp only [readOp]
  cases hr : u.read 1 with
  | error e => exact ⟨e, rfl⟩
  | ok p =>
    obtain ⟨b, u'⟩ := p
    obtain ⟨h1, h2⟩ := dead_read h hr
    cases b with
    | nil => exact ⟨_, rfl⟩
    | cons c b =>
      have : c = 0 := h2 c (by simp)
      subst this
      exact ⟨badPickle, rfl⟩

theorem dead_run {u : Rd} (h : Live 0 u) (f : Nat) (M : PM) : ∃ e, runP f u M = .error e := by
  cases f with
  | zero => exact ⟨_, rfl⟩
  | succ f =>
    obtain ⟨e, he⟩ := dead_readOp h
    exact ⟨e, by simp only [runP, he]; rfl⟩

theorem dead_frame {u u' : Rd} (h : Live 0 u) {n : Nat} (hf : u.loadFrame n = .ok u') : Live 0 u' := by
  obtain ⟨cur, file⟩ := u
  have hz : Zeros file := by
    cases cur with
    | none => exact h
    | some c => exact h.2
  simp only [Rd.loadFrame] at hf
  split at hf
  · cases hf
  · split at hf
    · cases hf
    · cases hf
      exact ⟨hz.take _, hz.drop _⟩

theorem runP_plain {op : POp} (h1 : op ≠ .stop) (h2 : ∀ n, op ≠ .frame n) {u u' : Rd} (h : readOp u = .ok (op, u')) (f : Nat) (M : PM) :
    runP (f + 1) u M = (stepP op M >>= runP f u') := by
  simp only [runP, h]
  cases op with
  | stop => exact absurd rfl h1
  | frame n => exact absurd rfl (h2 n)
  | _ => rfl

theorem runP_frameOp {n : Nat} {u u' : Rd} (h : readOp u = .ok (.frame n, u')) (f : Nat) (M : PM) :
    runP (f + 1) u M = (u'.loadFrame n >>= fun u => runP f u M) := by
  simp only [runP, h]
  rfl

theorem op_cases (o : POp) : o = .stop ∨ (∃ n, o = .frame n) ∨ (o ≠ .stop ∧ ∀ n, o ≠ .frame n) := by
  cases o <;> simp

/-- an opcode other than the end after which only zeros are left -/
theorem dead_after {u u' : Rd} {o : POp} (hr : readOp u = .ok (o, u')) (ho : o ≠ .stop) (hd : Live 0 u') (f : Nat) (M : PM) :
    ∃ e, runP f u M = .error e := by
  cases f with
  | zero => exact ⟨_, rfl⟩
  | succ f =>
    rcases op_cases o with rfl | ⟨n, rfl⟩ | ⟨h1, h2⟩
    · exact absurd rfl ho
    · rw [runP_frameOp hr]
      cases hl : u'.loadFrame n with
      | error e => exact ⟨e, rfl⟩
      | ok u2 => exact dead_run (dead_frame hd hl) f M
    · rw [runP_plain h1 h2 hr]
      cases stepP o M with
      | error e => exact ⟨e, rfl⟩
      | ok M' => exact dead_run hd f M'

/-- more fuel changes nothing once it has ended -/
theorem runP_mono {f : Nat} {u : Rd} {M : PM} {x : PHeap × PRef} (h : runP f u M = .ok x) (g : Nat) : runP (f + g) u M = .ok x := by
  induction f generalizing u M with
  | zero => cases h
  | succ f ih =>
    rw [show f + 1 + g = f + g + 1 by omega]
    cases hr : readOp u with
    | error e => simp only [runP, hr] at h; cases h
    | ok p =>
      obtain ⟨o, u'⟩ := p
      rcases op_cases o with rfl | ⟨n, rfl⟩ | ⟨h1, h2⟩
      · simp only [runP, hr] at h ⊢
        exact h
      · rw [runP_frameOp hr] at h ⊢
        obtain ⟨u2, h2, h3⟩ := ok_bind h
        rw [h2]
        exact ih h3
      · rw [runP_plain h1 h2 hr] at h ⊢
        obtain ⟨M', h3, h4⟩ := ok_bind h
        rw [h3]
        exact ih h4

/-! ## torn opcodes -/

/-- the first `j` bytes of `y` and then zeros, in a frame or in the file -/
def torn (fr : Bool) (y : Bytes) (i m : Nat) : Rd :=
  if fr then ⟨some (y ++ List.replicate i 0), List.replicate m 0⟩ else ⟨none, y ++ List.replicate m 0⟩

theorem zeros_replicate (n : Nat) : Zeros (List.replicate n 0) := fun _ hx => (List.mem_replicate.1 hx).2

theorem torn_live (fr : Bool) (y : Bytes) (i m : Nat) : Live y.length (torn fr y i m) := by
  cases fr
  · simp only [torn, Live, Bool.false_eq_true, if_false, List.drop_left]
    exact zeros_replicate m
  · simp only [torn, Live, if_true, List.drop_left]
    exact ⟨zeros_replicate i, zeros_replicate m⟩

theorem torn_rdr (fr : Bool) (y : Bytes) (i m : Nat) :
    ∃ o file, (∀ z, torn fr (z ++ y) i m = rdr o file (z ++ y)) ∧ torn fr y i m = rdr o file y := by
  cases fr
  · exact ⟨none, List.replicate m 0, fun z => by simp [torn, rdr], by simp [torn, rdr]⟩
  · exact ⟨some (List.replicate i 0), List.replicate m 0, fun z => by simp [torn, rdr], by simp [torn, rdr]⟩

theorem live_num {l n x : Nat} {u u' : Rd} (h : Live l u) (hr : u.num n = .ok (x, u')) : Live (l - n) u' := by
  simp only [Rd.num] at hr
  obtain ⟨⟨b, u1⟩, h1, hr⟩ := ok_bind hr
  simp only at hr
  split at hr
  · cases hr
  · cases hr
    exact live_read h h1

/-- a length and contents, cut short -/
theorem torn_sized (fr : Bool) {e : Bytes} {k : Nat} (he : e.length < 256 ^ k) {j : Nat} (hj : j < k + e.length) (i m : Nat)
    {b : Bytes} {u : Rd} (hr : (torn fr ((leBytes k e.length ++ e).take j) i m).sized k = .ok (b, u)) : Live 0 u := by
  simp only [Rd.sized] at hr
  obtain ⟨⟨n, u1⟩, h1, hr⟩ := ok_bind hr
  simp only at hr
  split at hr
  · cases hr
  by_cases hjk : j ≤ k
  · have hlive := live_mono (l' := k) (by rw [List.length_take]; omega) (torn_live fr ((leBytes k e.length ++ e).take j) i m)
    have h2 := live_num hlive h1
    rw [Nat.sub_self] at h2
    exact (dead_read h2 hr).1
  · have hs : (leBytes k e.length ++ e).take j = leBytes k e.length ++ e.take (j - k) := by
      rw [List.take_append, leBytes_length, List.take_of_length_le (by rw [leBytes_length]; omega)]
    rw [hs] at h1
    obtain ⟨o, file, q1, q2⟩ := torn_rdr fr (e.take (j - k)) i m
    rw [q1, num_rdr o file _ he, ← q2] at h1
    cases h1
    have h3 := live_read (torn_live fr (e.take (j - k)) i m) hr
    rw [List.length_take] at h3
    exact live_mono (by omega) h3

theorem torn_long (fr : Bool) {e : Bytes} {k : Nat} (he : e.length < 256 ^ k) {j : Nat} (hj : j < k + e.length) (i m : Nat)
    {o : POp} {u : Rd} (hr : (torn fr ((leBytes k e.length ++ e).take j) i m).long k = .ok (o, u)) : Live 0 u ∧ o ≠ .stop := by
  simp only [Rd.long] at hr
  obtain ⟨⟨n, u1⟩, h1, hr⟩ := ok_bind hr
  simp only at hr
  split at hr
  · cases hr
  obtain ⟨⟨b, u2⟩, h2, hr⟩ := ok_bind hr
  cases hr
  refine ⟨?_, nofun⟩
  by_cases hjk : j ≤ k
  · have hlive := live_mono (l' := k) (by rw [List.length_take]; omega) (torn_live fr ((leBytes k e.length ++ e).take j) i m)
    have h3 := live_num hlive h1
    rw [Nat.sub_self] at h3
    exact (dead_read h3 h2).1
  · have hs : (leBytes k e.length ++ e).take j = leBytes k e.length ++ e.take (j - k) := by
      rw [List.take_append, leBytes_length, List.take_of_length_le (by rw [leBytes_length]; omega)]
    rw [hs] at h1
    obtain ⟨o, file, q1, q2⟩ := torn_rdr fr (e.take (j - k)) i m
    rw [q1, num_rdr o file _ he, ← q2] at h1
    cases h1
    have h3 := live_read (torn_live fr (e.take (j - k)) i m) h2
    rw [List.length_take] at h3
    exact live_mono (by omega) h3

theorem torn_text (fr : Bool) {e : Bytes} {k : Nat} (he : e.length < 256 ^ k) {j : Nat} (hj : j < k + e.length) (i m : Nat)
    {o : POp} {u : Rd} (hr : (torn fr ((leBytes k e.length ++ e).take j) i m).text k = .ok (o, u)) : Live 0 u ∧ o ≠ .stop := by
  simp only [Rd.text] at hr
  obtain ⟨⟨b, u1⟩, h1, hr⟩ := ok_bind hr
  obtain ⟨t, h2, hr⟩ := ok_bind hr
  cases hr
  exact ⟨torn_sized fr he hj i m h1, nofun⟩

theorem torn_blob (fr : Bool) {e : Bytes} {k : Nat} (he : e.length < 256 ^ k) {j : Nat} (hj : j < k + e.length) (i m : Nat)
    {o : POp} {u : Rd} (hr : (torn fr ((leBytes k e.length ++ e).take j) i m).blob k = .ok (o, u)) : Live 0 u ∧ o ≠ .stop := by
  simp only [Rd.blob] at hr
  obtain ⟨⟨b, u1⟩, h1, hr⟩ := ok_bind hr
  cases hr
  exact ⟨torn_sized fr he hj i m h1, nofun⟩

/-- an argument of `n` bytes, cut short -/
theorem torn_num (fr : Bool) {y : Bytes} {n j : Nat} (hj : j ≤ n) (i m : Nat) {x : Nat} {u : Rd}
    (hr : (torn fr (y.take j) i m).num n = .ok (x, u)) : Live 0 u := by
  have := live_num (live_mono (l' := n) (by rw [List.length_take]; omega) (torn_live fr (y.take j) i m)) hr
  rwa [Nat.sub_self] at this

theorem torn_read (fr : Bool) {y : Bytes} {n j : Nat} (hj : j ≤ n) (i m : Nat) {b : Bytes} {u : Rd}
    (hr : (torn fr (y.take j) i m).read n = .ok (b, u)) : Live 0 u := by
  have := live_read (live_mono (l' := n) (by rw [List.length_take]; omega) (torn_live fr (y.take j) i m)) hr
  rwa [Nat.sub_self] at this

/-- the opcode byte is there, the argument is cut short -/
theorem torn_op (fr : Bool) (c : Nat) (y : Bytes) (j i m : Nat) (hc : plainOp c = none)
    (harg : ∀ o u, argOp c (torn fr (y.take j) i m) = .ok (o, u) → Live 0 u ∧ o ≠ .stop) (f : Nat) (M : PM) :
    ∃ e, runP f (torn fr ((c :: y).take (j + 1)) i m) M = .error e := by
  have hr : readOp (torn fr ((c :: y).take (j + 1)) i m) = argOp c (torn fr (y.take j) i m) := by
    obtain ⟨o, file, q1, q2⟩ := torn_rdr fr (y.take j) i m
    rw [List.take_succ_cons, show c :: y.take j = [c] ++ y.take j from rfl, q1, q2]
    exact readOp_arg o file c _ hc
  cases ha : argOp c (torn fr (y.take j) i m) with
  | error e =>
    cases f with
    | zero => exact ⟨_, rfl⟩
    | succ f => exact ⟨e, by simp only [runP, hr, ha]; rfl⟩
  | ok p =>
    obtain ⟨o, u⟩ := p
    obtain ⟨h1, h2⟩ := harg o u ha
    exact dead_after (hr.trans ha) h2 h1 f M

theorem torn_nil (fr : Bool) (i m f : Nat) (M : PM) : ∃ e, runP f (torn fr [] i m) M = .error e :=
  dead_run (torn_live fr [] i m) f M

theorem run_torn_op {op : POp} (hop : OpOK op ∨ op = .stop) {y : Bytes} (hy : opBytes op = .ok y) (fr : Bool) {j : Nat} (hj : j < y.length)
    (i m f : Nat) (M : PM) : ∃ e, runP f (torn fr (y.take j) i m) M = .error e := by
  cases j with
  | zero => exact torn_nil fr i m f M
  | succ j =>
    have one : ∀ {c : Nat}, y = [c] → ∃ e, runP f (torn fr (y.take (j + 1)) i m) M = .error e := by
      rintro c rfl
      exact absurd hj (by simp)
    cases op with
    | proto n => rcases hop with h | h; exacts [absurd h id, nomatch h]
    | frame n => rcases hop with h | h; exacts [absurd h id, nomatch h]
    | int x =>
      simp only [opBytes, intOpBytes] at hy
      split at hy
      · cases hy
        simp only [List.length_cons, leBytes_length] at hj
        refine torn_op fr 0x4b _ j i m rfl (fun o u ha => ?_) f M
        obtain ⟨⟨n, u1⟩, h1, ha⟩ := ok_bind ha
        cases ha
        exact ⟨torn_num fr (by omega) i m h1, nofun⟩
      · split at hy
        · cases hy
          simp only [List.length_cons, leBytes_length] at hj
          refine torn_op fr 0x4d _ j i m rfl (fun o u ha => ?_) f M
          obtain ⟨⟨n, u1⟩, h1, ha⟩ := ok_bind ha
          cases ha
          exact ⟨torn_num fr (by omega) i m h1, nofun⟩
        · split at hy
          · cases hy
            simp only [List.length_cons, leSigned_length] at hj
            refine torn_op fr 0x4a _ j i m rfl (fun o u ha => ?_) f M
            obtain ⟨⟨n, u1⟩, h1, ha⟩ := ok_bind ha
            simp only at ha
            split at ha
            · cases ha
            · cases ha
              exact ⟨torn_read fr (by omega) i m h1, nofun⟩
          · split at hy
            · rename_i hl
              cases hy
              simp only [List.length_append, List.length_cons, leBytes_length] at hj
              exact torn_op fr 0x8a (leBytes 1 (encodeLong x).length ++ encodeLong x) j i m rfl
                (fun o u ha => torn_long fr (by omega) (by omega) i m ha) f M
            · split at hy
              · cases hy
                simp only [List.length_append, List.length_cons, leBytes_length] at hj
                exact torn_op fr 0x8b (leBytes 4 (encodeLong x).length ++ encodeLong x) j i m rfl
                  (fun o u ha => torn_long fr (by rw [show (256 : Nat) ^ 4 = 4294967296 from rfl]; omega) (by omega) i m ha) f M
              · cases hy
    | float x =>
      cases hy
      simp only [List.length_cons, List.length_reverse, leBytes_length] at hj
      refine torn_op fr 0x47 _ j i m rfl (fun o u ha => ?_) f M
      obtain ⟨⟨n, u1⟩, h1, ha⟩ := ok_bind ha
      simp only at ha
      split at ha
      · cases ha
      · cases ha
        exact ⟨torn_read fr (by omega) i m h1, nofun⟩
    | str s =>
      simp only [opBytes, sizedBytes] at hy
      split at hy
      · cases hy
        simp only [List.length_append, List.length_cons, leBytes_length] at hj
        exact torn_op fr 0x8c (leBytes 1 (s.flatMap utf8Char).length ++ s.flatMap utf8Char) j i m rfl
          (fun o u ha => torn_text fr (by omega) (by omega) i m ha) f M
      · split at hy
        · split at hy
          · cases hy
            simp only [List.length_append, List.length_cons, leBytes_length] at hj
            exact torn_op fr 0x8d (leBytes 8 (s.flatMap utf8Char).length ++ s.flatMap utf8Char) j i m rfl
              (fun o u ha => torn_text fr (by rw [show (256 : Nat) ^ 8 = 2 ^ 64 from rfl]; omega) (by omega) i m ha) f M
          · cases hy
        · cases hy
          simp only [List.length_append, List.length_cons, leBytes_length] at hj
          exact torn_op fr 0x58 (leBytes 4 (s.flatMap utf8Char).length ++ s.flatMap utf8Char) j i m rfl
            (fun o u ha => torn_text fr (by rw [show (256 : Nat) ^ 4 = 4294967296 from rfl]; omega) (by omega) i m ha) f M
    | bytes b =>
      simp only [opBytes, sizedBytes] at hy
      split at hy
      · cases hy
        simp only [List.length_append, List.length_cons, leBytes_length] at hj
        exact torn_op fr 0x43 (leBytes 1 b.length ++ b) j i m rfl
          (fun o u ha => torn_blob fr (by omega) (by omega) i m ha) f M
      · split at hy
        · split at hy
          · cases hy
            simp only [List.length_append, List.length_cons, leBytes_length] at hj
            exact torn_op fr 0x8e (leBytes 8 b.length ++ b) j i m rfl
              (fun o u ha => torn_blob fr (by rw [show (256 : Nat) ^ 8 = 2 ^ 64 from rfl]; omega) (by omega) i m ha) f M
          · cases hy
        · cases hy
          simp only [List.length_append, List.length_cons, leBytes_length] at hj
          exact torn_op fr 0x42 (leBytes 4 b.length ++ b) j i m rfl
            (fun o u ha => torn_blob fr (by rw [show (256 : Nat) ^ 4 = 4294967296 from rfl]; omega) (by omega) i m ha) f M
    | get n =>
      simp only [opBytes] at hy
      split at hy
      · cases hy
        simp only [List.length_cons, leBytes_length] at hj
        refine torn_op fr 0x68 _ j i m rfl (fun o u ha => ?_) f M
        obtain ⟨⟨n, u1⟩, h1, ha⟩ := ok_bind ha
        cases ha
        exact ⟨torn_num fr (by omega) i m h1, nofun⟩
      · split at hy
        · cases hy
          simp only [List.length_cons, leBytes_length] at hj
          refine torn_op fr 0x6a _ j i m rfl (fun o u ha => ?_) f M
          obtain ⟨⟨n, u1⟩, h1, ha⟩ := ok_bind ha
          cases ha
          exact ⟨torn_num fr (by omega) i m h1, nofun⟩
        · cases hy
    | _ => cases hy; exact one rfl

/-- some opcodes, then the end, cut short -/
theorem run_torn_ops {os : List POp} {y : Bytes} (h : Coded os y) (hm : y.length ≤ maxSize) {z : Bytes} (hz : z = [] ∨ z = [0x2e]) (fr : Bool)
    {j : Nat} (hj : j < (y ++ z).length) (i m f : Nat) (M : PM) :
    ∃ e, runP f (torn fr ((y ++ z).take j) i m) M = .error e := by
  induction os generalizing y j f M with
  | nil =>
    cases h
    rcases hz with rfl | rfl
    · exact absurd hj (by simp)
    · exact run_torn_op (.inr rfl) (op := .stop) rfl fr hj i m f M
  | cons p os ih =>
    obtain ⟨a, b, h1, h2, h3, rfl⟩ := h
    rw [List.length_append] at hm
    rw [List.append_assoc] at hj ⊢
    by_cases hja : j < a.length
    · rw [List.take_append_of_le_length (by omega)]
      exact run_torn_op (.inl h1) h2 fr hja i m f M
    · rw [List.take_append, List.take_of_length_le (by omega)]
      obtain ⟨o, file, q1, q2⟩ := torn_rdr fr ((b ++ z).take (j - a.length)) i m
      rw [q1]
      cases f with
      | zero => exact ⟨_, rfl⟩
      | succ f =>
        rw [runP_op h1 (readOp_rdr h1 h2 (by omega) o file _), ← q2]
        cases stepP p M with
        | error e => exact ⟨e, rfl⟩
        | ok M' => exact ih h3 (by omega) (by rw [List.length_append] at hj; omega) f M'

theorem torn_raw (y : Bytes) (m : Nat) : (⟨none, y ++ List.replicate m 0⟩ : Rd) = torn false y 0 m := rfl

/-- a frame cut short, which may be the last -/
theorem run_torn_frame {os : List POp} {y a : Bytes} (h : Coded os y) {z : Bytes} (hz : z = [] ∨ z = [0x2e])
    (hm : (y ++ z).length ≤ maxSize) (ha : frameOut (y ++ z) = .ok a) {j : Nat} (hj : j < a.length) (m f : Nat) (M : PM) :
    ∃ e, runP f ⟨none, a.take j ++ List.replicate m 0⟩ M = .error e := by
  unfold frameOut at ha
  split at ha
  · cases ha
    rw [torn_raw]
    exact run_torn_ops h (by rw [List.length_append] at hm; omega) hz false hj 0 m f M
  · simp only [opBytes] at ha
    split at ha
    · rename_i hlt
      cases ha
      have hj : j < (0x95 :: leBytes 8 (y ++ z).length ++ (y ++ z)).length := hj
      show ∃ e, runP f ⟨none, (0x95 :: leBytes 8 (y ++ z).length ++ (y ++ z)).take j ++ List.replicate m 0⟩ M = .error e
      have hl9 : (0x95 :: leBytes 8 (y ++ z).length).length = 9 := by simp [leBytes_length]
      by_cases h9 : j < 9
      · rw [List.take_append_of_le_length (by omega), torn_raw]
        cases j with
        | zero => exact torn_nil false 0 m f M
        | succ j =>
          refine torn_op false 0x95 _ j 0 m rfl (fun o u ha => ?_) f M
          obtain ⟨⟨n, u1⟩, h1, ha⟩ := ok_bind ha
          cases ha
          exact ⟨torn_num false (by omega) 0 m h1, nofun⟩
      · rw [List.take_append, List.take_of_length_le (by omega), hl9, List.append_assoc]
        cases f with
        | zero => exact ⟨_, rfl⟩
        | succ f =>
          rw [runP_frame hlt hm]
          have hj' : j - 9 < (y ++ z).length := by rw [List.length_append, hl9] at hj; omega
          have e1 : ((y ++ z).take (j - 9) ++ List.replicate m 0).take (y ++ z).length =
              (y ++ z).take (j - 9) ++ List.replicate (min ((y ++ z).length - (j - 9)) m) 0 := by
            rw [List.take_append, List.take_of_length_le (by rw [List.length_take]; omega), List.take_replicate, List.length_take,
              Nat.min_eq_left (Nat.le_of_lt hj')]
          have e2 : ((y ++ z).take (j - 9) ++ List.replicate m 0).drop (y ++ z).length =
              List.replicate (m - ((y ++ z).length - (j - 9))) 0 := by
            rw [List.drop_append, List.drop_of_length_le (by rw [List.length_take]; omega), List.drop_replicate, List.length_take,
              Nat.min_eq_left (Nat.le_of_lt hj'), List.nil_append]
          rw [e1, e2]
          exact run_torn_ops h (by rw [List.length_append] at hm; omega) hz true hj' _ _ f M
    · cases ha

/-- a whole frame is done and the rest cannot succeed -/
theorem run_frame_then {os : List POp} {cur a : Bytes} (h : Coded os cur) (ha : frameOut cur = .ok a) (hm : cur.length ≤ maxSize) {z : Bytes}
    (hz : ∀ f M, ∃ e, runP f ⟨none, z⟩ M = .error e) (f : Nat) (M : PM) : ∃ e, runP f ⟨none, a ++ z⟩ M = .error e := by
  obtain ⟨n, -, hn⟩ := runP_frameOut h ha hm z M
  cases hx : runP f ⟨none, a ++ z⟩ M with
  | error e => exact ⟨e, rfl⟩
  | ok x =>
    have h1 := runP_mono hx n
    rw [Nat.add_comm, hn] at h1
    obtain ⟨M', -, h2⟩ := ok_bind h1
    obtain ⟨e, he⟩ := hz f M'
    rw [he] at h2
    cases h2

theorem framer_torn : ∀ (e : List PEv) (cur : Bytes) (pend : List POp) (b : Bytes), (∀ o ∈ opsOf e, OpOK o) → Coded pend cur →
    framer (e ++ [.op .stop]) cur = .ok b → b.length ≤ maxSize → ∀ k, k < b.length → ∀ m f M,
    ∃ x, runP f ⟨none, b.take k ++ List.replicate m 0⟩ M = .error x
  | [], cur, pend, b, _, hc, hb, hm, k, hk, m, f, M => by
    simp only [List.nil_append, framer, opBytes] at hb
    obtain ⟨y, hy, hb⟩ := ok_bind hb
    cases hy
    rw [if_neg (by decide)] at hb
    have := frameOut_le hb
    exact run_torn_frame hc (.inr rfl) (by omega) hb hk m f M
  | .check :: e, cur, pend, b, ho, hc, hb, hm, k, hk, m, f, M => by
    simp only [List.cons_append, framer] at hb
    split at hb
    · obtain ⟨a, ha, hb⟩ := ok_bind hb
      obtain ⟨c, hcc, hb⟩ := ok_bind hb
      cases hb
      have hle := frameOut_le ha
      rw [List.length_append] at hm
      by_cases hka : k < a.length
      · rw [List.take_append_of_le_length (by omega)]
        exact run_torn_frame hc (.inl rfl) (by simp; omega) (by simpa using ha) hka m f M
      · rw [List.take_append, List.take_of_length_le (by omega), List.append_assoc]
        refine run_frame_then hc ha (by omega) (fun f M => ?_) f M
        exact framer_torn e [] [] c (fun o h => ho o h) rfl hcc (by omega) _ (by rw [List.length_append] at hk; omega) m f M
    · exact framer_torn e cur pend b (fun o h => ho o h) hc hb hm k hk m f M
  | .op o :: e, cur, pend, b, ho, hc, hb, hm, k, hk, m, f, M => by
    have hoo : OpOK o := ho o (by rw [opsOf_op]; simp)
    have hoe : ∀ p ∈ opsOf e, OpOK p := fun p hp => ho p (by rw [opsOf_op]; simp [hp])
    simp only [List.cons_append, framer] at hb
    obtain ⟨y, hy, hb⟩ := ok_bind hb
    split at hb
    · obtain ⟨a, ha, hb⟩ := ok_bind hb
      obtain ⟨c, hcc, hb⟩ := ok_bind hb
      cases hb
      have hle := frameOut_le ha
      simp only [List.length_append] at hm hk
      rw [List.append_assoc]
      by_cases hka : k < a.length
      · rw [List.take_append_of_le_length (by omega)]
        exact run_torn_frame hc (.inl rfl) (by simp; omega) (by simpa using ha) hka m f M
      · rw [List.take_append, List.take_of_length_le (by omega), List.append_assoc]
        refine run_frame_then hc ha (by omega) (fun f M => ?_) f M
        by_cases hky : k - a.length < y.length
        · rw [List.take_append_of_le_length (by omega), torn_raw]
          exact run_torn_op (.inl hoo) hy false hky 0 m f M
        · rw [List.take_append, List.take_of_length_le (by omega), List.append_assoc]
          cases f with
          | zero => exact ⟨_, rfl⟩
          | succ f =>
            have e1 := readOp_rdr hoo hy (by omega) none (c.take (k - a.length - y.length) ++ List.replicate m 0) []
            simp only [rdr, List.append_nil, List.nil_append] at e1
            rw [runP_op hoo e1]
            cases stepP o M with
            | error e => exact ⟨e, rfl⟩
            | ok M' => exact framer_torn e [] [] c hoe rfl hcc (by omega) _ (by omega) m f M'
    · exact framer_torn e (cur ++ y) (pend ++ [o]) b hoe (coded_snoc hc hoo hy) hb hm k hk m f M

end Verif.Lemmas.Pickle
