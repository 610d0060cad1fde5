import Verif.Spec.Piped
/-! # Messages in a pipe, and the two processes of `wrap_piped` -/
namespace Verif.Lemmas
open Verif Verif.Model Verif.Spec
variable {V : Type} {c : Codec V} {cap : Nat} {fin : CallEnd V}

/-! ## the header -/

theorem beBytes_length (w n : Nat) : (beBytes w n).length = w := by
  induction w generalizing n with
  | zero => rfl
  | succ w ih => simp [beBytes, ih]

theorem beNat_snoc (b : Bytes) (x : Nat) : beNat (b ++ [x]) = beNat b * 256 + x := by simp [beNat]

theorem beNat_beBytes (w n : Nat) (h : n < 256 ^ w) : beNat (beBytes w n) = n := by
  induction w generalizing n with
  | zero => simp at h; subst h; rfl
  | succ w ih =>
    rw [beBytes, beNat_snoc, ih _ (by rw [Nat.div_lt_iff_lt_mul (by omega)]; rwa [Nat.pow_succ] at h)]
    omega

/-- what has been read of a message is never taken for a whole one too early, and never is more waited for -/
theorem awaited_prefix {b x y : Bytes} (hb : b.length < 256 ^ 8) (h : framed b = x ++ y) :
    awaited x ≤ y.length ∧ (awaited x = 0 → y = []) := by
  have hlen := congrArg List.length h
  rw [List.length_append] at hlen
  have hy : y.length = 0 → y = [] := List.length_eq_zero_iff.1
  unfold framed at h hlen
  split at h
  · rename_i hbig
    rw [if_pos hbig] at hlen
    simp only [List.length_append, beBytes_length, List.length_cons, List.length_nil] at hlen
    unfold awaited
    split
    · exact ⟨by omega, fun h0 => by omega⟩
    · rename_i hx4
      have hx : x.take 4 = [255, 255, 255, 255] := by
        rw [← List.take_append_of_le_length (l₂ := y) (by omega), ← h, List.append_assoc]
        rfl
      rw [hx]
      simp only [show beNat [255, 255, 255, 255] = 0xffffffff from rfl, if_true]
      split
      · exact ⟨by omega, fun h0 => by omega⟩
      · have hd : (x.drop 4).take 8 = beBytes 8 b.length := by
          rw [← List.take_append_of_le_length (l₂ := y) (by simp; omega), ← List.drop_append_of_le_length (by omega), ← h,
            List.append_assoc]
          show List.take 8 (beBytes 8 b.length ++ b) = _
          rw [List.take_append_of_le_length (by rw [beBytes_length]; omega), List.take_of_length_le (by rw [beBytes_length]; omega)]
        rw [hd, beNat_beBytes 8 _ hb]
        exact ⟨by omega, fun h0 => hy (by omega)⟩
  · rename_i hbig
    rw [if_neg hbig] at hlen
    simp only [List.length_append, beBytes_length] at hlen
    unfold awaited
    split
    · exact ⟨by omega, fun h0 => by omega⟩
    · have hx : x.take 4 = beBytes 4 b.length := by
        rw [← List.take_append_of_le_length (l₂ := y) (by omega), ← h, List.take_append_of_le_length (by rw [beBytes_length]; omega),
          List.take_of_length_le (by rw [beBytes_length]; omega)]
      rw [hx, beNat_beBytes 4 _ (by omega)]
      dsimp only
      rw [if_neg (by omega), if_neg (by omega)]
      exact ⟨by omega, fun h0 => hy (by omega)⟩

theorem unframed_framed {b : Bytes} : unframed (framed b) = b := by
  unfold framed
  split
  · simp [unframed, beNat, beBytes_length, List.drop_append]
  · rename_i h
    have : (beBytes 4 b.length ++ b).take 4 = beBytes 4 b.length := by
      rw [List.take_append_of_le_length (by rw [beBytes_length]; omega), List.take_of_length_le (by rw [beBytes_length]; omega)]
    rw [unframed, this, beNat_beBytes 4 _ (by omega), if_neg (by omega), List.drop_append]
    simp [beBytes_length]

/-! ## the two processes -/

/-- where they can be, when `b` is sent and the parent waits -/
def PipeInv (c : Codec V) (cap : Nat) (b : Bytes) (s : PipeState V) : Prop :=
  match s.child, s.parent with
  | .computing, .joining => s.buffer = []
  | .writing r, .joining => s.buffer ++ r = framed b ∧ s.buffer.length ≤ cap
  | .ended, .joining => s.buffer = framed b ∧ (framed b).length ≤ cap
  | .ended, .receiving got => got ++ s.buffer = framed b ∧ (framed b).length ≤ cap
  | .ended, .finished r => r = c.decode b ∧ (framed b).length ≤ cap
  | _, _ => False

/-- the steps left -/
def pipeLeft (b : Bytes) (s : PipeState V) : Nat :=
  match s.child, s.parent with
  | .computing, _ => 2 * (framed b).length + 4
  | .writing r, _ => r.length + (framed b).length + 3
  | .ended, .joining => (framed b).length + 2
  | .ended, .receiving _ => s.buffer.length + 1
  | _, _ => 0

theorem pipe_step {v : V} {b : Bytes} (hv : toSend fin = some v) (hb : c.encode v = .ok b) (hl : b.length < 256 ^ 8)
    {s t : PipeState V} (h : PipeStep c cap fin s t) (hi : PipeInv c cap b s) :
    PipeInv c cap b t ∧ pipeLeft b t + 1 ≤ pipeLeft b s := by
  cases h with
  | send v' b' buf p h1 h2 =>
    rw [hv] at h1
    cases h1
    rw [hb] at h2
    cases h2
    cases p <;> simp_all [PipeInv, pipeLeft] <;> omega
  | fail buf p h =>
    obtain ⟨e, he⟩ := h v hv
    rw [hb] at he
    cases he
  | write x y buf p hx hc =>
    cases p <;> simp only [PipeInv] at hi
    have : 0 < x.length := List.length_pos_iff.2 hx
    refine ⟨⟨by rw [List.append_assoc]; exact hi.1, by rw [List.length_append]; exact hc⟩, ?_⟩
    simp [pipeLeft]; omega
  | quit buf p =>
    cases p <;> simp only [PipeInv] at hi
    rw [List.append_nil] at hi
    exact ⟨⟨hi.1, by rw [← hi.1]; exact hi.2⟩, by simp [pipeLeft]⟩
  | join buf => exact ⟨⟨by simpa using hi.1, hi.2⟩, by have := congrArg List.length hi.1; simp only [pipeLeft] at this ⊢; omega⟩
  | read ch x y got hx hw =>
    cases ch <;> simp only [PipeInv] at hi
    have : 0 < x.length := List.length_pos_iff.2 hx
    exact ⟨⟨by rw [List.append_assoc]; exact hi.1, hi.2⟩, by simp [pipeLeft]; omega⟩
  | load ch buf got hw =>
    cases ch <;> simp only [PipeInv] at hi
    have h2 := (awaited_prefix hl hi.1.symm).2 hw
    have h3 : got = framed b := by rw [← hi.1, h2, List.append_nil]
    refine ⟨⟨by rw [h3, unframed_framed], hi.2⟩, by simp [pipeLeft]⟩

theorem pipe_steps {v : V} {b : Bytes} (hv : toSend fin = some v) (hb : c.encode v = .ok b) (hl : b.length < 256 ^ 8)
    {n : Nat} {t : PipeState V} (h : StepsN (PipeStep c cap fin) n (pipeStart true) t) :
    PipeInv c cap b t ∧ n + pipeLeft b t ≤ 2 * (framed b).length + 4 := by
  generalize hs : (pipeStart true : PipeState V) = s at h
  induction h with
  | zero s => subst hs; exact ⟨rfl, by simp [pipeStart, pipeLeft]⟩
  | succ h1 h2 ih =>
    have := pipe_step hv hb hl h2 (ih hs).1
    exact ⟨this.1, by have := (ih hs).2; omega⟩

/-- where nothing can go on -/
theorem pipe_rest {v : V} {b : Bytes} (hv : toSend fin = some v) (hb : c.encode v = .ok b) (hl : b.length < 256 ^ 8)
    {s : PipeState V} (hi : PipeInv c cap b s) (hr : AtRest (PipeStep c cap fin) s) :
    ((framed b).length ≤ cap ∧ s.child = .ended ∧ s.parent = .finished (c.decode b)) ∨
      (cap < (framed b).length ∧ s.parent = .joining ∧ ∃ x y, s = ⟨.writing (x :: y), s.buffer, .joining⟩) := by
  obtain ⟨ch, buf, p⟩ := s
  cases ch with
  | computing =>
    cases p <;> simp only [PipeInv] at hi
    exact absurd (PipeStep.send v b buf _ hv hb) (hr _)
  | writing r =>
    cases p <;> simp only [PipeInv] at hi
    cases r with
    | nil => exact absurd (PipeStep.quit buf _) (hr _)
    | cons x y =>
      right
      refine ⟨?_, rfl, x, y, rfl⟩
      have h1 : ¬ buf.length + 1 ≤ cap := fun hc => hr _ (PipeStep.write [x] y buf _ (by simp) (by simpa using hc))
      rw [← hi.1, List.length_append, List.length_cons]
      omega
  | ended =>
    cases p with
    | joining => exact absurd (PipeStep.join buf) (hr _)
    | receiving got =>
      simp only [PipeInv] at hi
      by_cases hw : awaited got = 0
      · exact absurd (PipeStep.load _ buf got hw) (hr _)
      · exfalso
        have h2 := (awaited_prefix hl hi.1.symm).1
        cases buf with
        | nil => simp at h2; exact hw h2
        | cons x y => exact hr _ (PipeStep.read _ [x] y got (by simp) (by simp; omega))
    | finished r => left; simp only [PipeInv] at hi; exact ⟨hi.2, rfl, by rw [hi.1]⟩
    | away => simp only [PipeInv] at hi

/-! nothing is sent -/

def DryInv (s : PipeState V) : Prop :=
  s.buffer = [] ∧ ((s.child = .computing ∧ s.parent = .joining) ∨ (s.child = .ended ∧ s.parent = .joining) ∨
    (s.child = .ended ∧ s.parent = .receiving []))

def dryLeft (s : PipeState V) : Nat :=
  match s.child, s.parent with
  | .computing, _ => 2
  | _, .joining => 1
  | _, _ => 0

theorem dry_step (hn : ∀ v, toSend fin = some v → ∃ e, c.encode v = .error e) {s t : PipeState V}
    (h : PipeStep c cap fin s t) (hi : DryInv s) : DryInv t ∧ dryLeft t + 1 ≤ dryLeft s := by
  cases h with
  | send v b buf p h1 h2 =>
    obtain ⟨e, he⟩ := hn v h1
    rw [h2] at he
    cases he
  | fail buf p h => simp [DryInv, dryLeft] at hi ⊢; simp [hi]
  | write x y buf p hx hc => simp [DryInv] at hi
  | quit buf p => simp [DryInv] at hi
  | join buf => simp [DryInv, dryLeft] at hi ⊢; exact hi
  | read ch x y got hx hw => simp [DryInv] at hi; exact absurd hi.1.1 hx
  | load ch buf got hw =>
    simp [DryInv] at hi
    rw [hi.2.2] at hw
    simp [awaited] at hw

theorem dry_steps (hn : ∀ v, toSend fin = some v → ∃ e, c.encode v = .error e) {n : Nat} {t : PipeState V}
    (h : StepsN (PipeStep c cap fin) n (pipeStart true) t) : DryInv t ∧ n + dryLeft t ≤ 2 := by
  generalize hs : (pipeStart true : PipeState V) = s at h
  induction h with
  | zero s => subst hs; exact ⟨⟨rfl, Or.inl ⟨rfl, rfl⟩⟩, by simp [pipeStart, dryLeft]⟩
  | succ h1 h2 ih =>
    have := dry_step hn h2 (ih hs).1
    exact ⟨this.1, by have := (ih hs).2; omega⟩

theorem dry_rest (hn : ∀ v, toSend fin = some v → ∃ e, c.encode v = .error e) {s : PipeState V} (hi : DryInv s)
    (hr : AtRest (PipeStep c cap fin) s) : s = ⟨.ended, [], .receiving []⟩ := by
  obtain ⟨ch, buf, p⟩ := s
  obtain ⟨h1, h2⟩ := hi
  simp only at h1 h2
  rcases h2 with ⟨rfl, rfl⟩ | ⟨rfl, rfl⟩ | ⟨rfl, rfl⟩
  · exact absurd (PipeStep.fail buf _ hn) (hr _)
  · exact absurd (PipeStep.join buf) (hr _)
  · rw [h1]

/-! nobody waits -/

def AwayInv (cap : Nat) (b : Bytes) (s : PipeState V) : Prop :=
  (∃ (_ : s.parent = .away), True) ∧
  match s.child with
  | .computing => s.buffer = []
  | .writing r => s.buffer ++ r = framed b ∧ s.buffer.length ≤ cap
  | .ended => (framed b).length ≤ cap

theorem away_step {v : V} {b : Bytes} (hv : toSend fin = some v) (hb : c.encode v = .ok b) {s t : PipeState V}
    (h : PipeStep c cap fin s t) (hi : AwayInv cap b s) : AwayInv cap b t ∧ pipeLeft b t + 1 ≤ pipeLeft b s := by
  obtain ⟨⟨hp, _⟩, hi⟩ := hi
  cases h with
  | send v' b' buf p h1 h2 =>
    rw [hv] at h1
    cases h1
    rw [hb] at h2
    cases h2
    simp only at hp hi
    subst hp hi
    exact ⟨⟨⟨rfl, trivial⟩, by simp⟩, by simp [pipeLeft]; omega⟩
  | fail buf p h =>
    obtain ⟨e, he⟩ := h v hv
    rw [hb] at he
    cases he
  | write x y buf p hx hc =>
    simp only at hp hi
    subst hp
    have : 0 < x.length := List.length_pos_iff.2 hx
    exact ⟨⟨⟨rfl, trivial⟩, by rw [List.append_assoc]; exact hi.1, by rw [List.length_append]; exact hc⟩,
      by simp [pipeLeft]; omega⟩
  | quit buf p =>
    simp only at hp hi
    subst hp
    rw [List.append_nil] at hi
    exact ⟨⟨⟨rfl, trivial⟩, by rw [← hi.1]; exact hi.2⟩, by simp [pipeLeft]⟩
  | join buf => simp at hp
  | read ch x y got hx hw => simp at hp
  | load ch buf got hw => simp at hp

theorem away_steps {v : V} {b : Bytes} (hv : toSend fin = some v) (hb : c.encode v = .ok b) {n : Nat} {t : PipeState V}
    (h : StepsN (PipeStep c cap fin) n (pipeStart false) t) :
    AwayInv cap b t ∧ n + pipeLeft b t ≤ 2 * (framed b).length + 4 := by
  generalize hs : (pipeStart false : PipeState V) = s at h
  induction h with
  | zero s => subst hs; exact ⟨⟨⟨rfl, trivial⟩, rfl⟩, by simp [pipeStart, pipeLeft]⟩
  | succ h1 h2 ih =>
    have := away_step hv hb h2 (ih hs).1
    exact ⟨this.1, by have := (ih hs).2; omega⟩

theorem away_rest {v : V} {b : Bytes} (hv : toSend fin = some v) (hb : c.encode v = .ok b) {s : PipeState V}
    (hi : AwayInv cap b s) (hr : AtRest (PipeStep c cap fin) s) :
    ((framed b).length ≤ cap ∧ s.child = .ended) ∨ (cap < (framed b).length ∧ ∃ x y, s.child = .writing (x :: y)) := by
  obtain ⟨ch, buf, p⟩ := s
  obtain ⟨_, hi⟩ := hi
  cases ch with
  | computing => exact absurd (PipeStep.send v b buf _ hv hb) (hr _)
  | writing r =>
    cases r with
    | nil => exact absurd (PipeStep.quit buf _) (hr _)
    | cons x y =>
      right
      refine ⟨?_, x, y, rfl⟩
      have h1 : ¬ buf.length + 1 ≤ cap := fun hc => hr _ (PipeStep.write [x] y buf _ (by simp) (by simpa using hc))
      simp only at hi
      rw [← hi.1, List.length_append, List.length_cons]
      omega
  | ended => left; exact ⟨hi, rfl⟩

end Verif.Lemmas
