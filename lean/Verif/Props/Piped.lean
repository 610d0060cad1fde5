import Verif.Lemmas.Piped
import Verif.Props.Shm
/-! # C111-C113: `wrap_piped` -/
namespace Verif.Props
open Verif Verif.Model Verif.Lemmas Verif.Spec

/-! ## C111 -/

/-- C111: a function whose result, or whose exception, takes up no more than the pipe's buffer: whatever the order in
which the two processes run, the call ends, with the value unpickled from what was pickled -/
theorem C111_result_partial {V : Type} (c : Codec V) (cap : Nat) (fin : CallEnd V) (v : V) (b : Bytes)
    (hv : fin = .returned v ∨ fin = .raised v) (hb : c.encode v = .ok b) (hl : b.length < 256 ^ 8)
    (hfit : (framed b).length ≤ cap) :
    AlwaysEnds (PipeStep c cap fin) (pipeStart true) (2 * (framed b).length + 4)
      fun s => s.child = .ended ∧ s.parent = .finished (c.decode b) := by
  have hv' : toSend fin = some v := by rcases hv with rfl | rfl <;> rfl
  refine ⟨fun n t h => ?_, fun n t h hr => ?_⟩
  · have := (pipe_steps hv' hb hl h).2; omega
  · rcases pipe_rest hv' hb hl (pipe_steps hv' hb hl h).1 hr with h | h
    · exact h.2
    · omega

/-- C111, the size of a message: four bytes more than the pickle, for pickles below two GiB -/
theorem C111_size (b : Bytes) (h : b.length ≤ 0x7fffffff) : (framed b).length = b.length + 4 := by
  rw [framed, if_neg (by omega), List.length_append, beBytes_length]; omega

/-- C111, larger results: neither process ever gets any further, whatever the order. The child waits for room in the
pipe, the parent for the end of the child -/
theorem C111_deadlock {V : Type} (c : Codec V) (cap : Nat) (fin : CallEnd V) (v : V) (b : Bytes)
    (hv : fin = .returned v ∨ fin = .raised v) (hb : c.encode v = .ok b) (hl : b.length < 256 ^ 8)
    (hbig : cap < (framed b).length) :
    AlwaysEnds (PipeStep c cap fin) (pipeStart true) (2 * (framed b).length + 4)
      fun s => s.parent = .joining ∧ ∃ x y, s.child = .writing (x :: y) := by
  have hv' : toSend fin = some v := by rcases hv with rfl | rfl <;> rfl
  refine ⟨fun n t h => ?_, fun n t h hr => ?_⟩
  · have := (pipe_steps hv' hb hl h).2; omega
  · rcases pipe_rest hv' hb hl (pipe_steps hv' hb hl h).1 hr with h | ⟨_, h1, x, y, h2⟩
    · omega
    · exact ⟨h1, x, y, by rw [h2]⟩

/-- C111: an exception raised and the same exception returned cannot be told apart by the caller -/
theorem C111_same {V : Type} (c : Codec V) (cap : Nat) (e : V) (s t : PipeState V) :
    PipeStep c cap (.raised e) s t ↔ PipeStep c cap (.returned e) s t := by
  constructor <;> intro h <;> cases h with
  | send v b buf p h1 h2 => exact .send v b buf p h1 h2
  | fail buf p h => exact .fail buf p h
  | write x y buf p hx hc => exact .write x y buf p hx hc
  | quit buf p => exact .quit buf p
  | join buf => exact .join buf
  | read ch x y got hx hw => exact .read ch x y got hx hw
  | load ch buf got hw => exact .load ch buf got hw

/-- C111, in full: for every pipe, and every function that ends, the call ends with its result or its exception -/
def C111_full : Prop :=
  ∀ (V : Type) (c : Codec V) (cap : Nat) (fin : CallEnd V) (v : V) (b : Bytes), 0 < cap → (fin = .returned v ∨ fin = .raised v) →
    c.encode v = .ok b → b.length < 256 ^ 8 → ∃ k,
    AlwaysEnds (PipeStep c cap fin) (pipeStart true) k fun s => s.parent = .finished (c.decode b)

/-- from any state of a system whose runs are bounded, one at rest can be reached -/
theorem some_rest {α : Type} {step : α → α → Prop} {s : α} {k : Nat} (h : ∀ n t, StepsN step n s t → n ≤ k) :
    ∃ n t, StepsN step n s t ∧ AtRest step t := by
  by_contra hc
  have : ∀ n, ∃ t, StepsN step n s t := by
    intro n
    induction n with
    | zero => exact ⟨s, .zero s⟩
    | succ n ih =>
      obtain ⟨t, ht⟩ := ih
      by_contra hn
      exact hc ⟨n, t, ht, fun u hu => hn ⟨u, .succ ht hu⟩⟩
  obtain ⟨t, ht⟩ := this (k + 1)
  have := h _ _ ht
  omega

theorem C111_full_false : ¬ C111_full := by
  intro h
  obtain ⟨k, _, h2⟩ := h Nat demoCodec 5 (.returned 3) 3 [3, 3, 3] (by decide) (Or.inl rfl) rfl (by decide)
  obtain ⟨h3, h4⟩ := C111_deadlock demoCodec 5 (.returned 3) 3 [3, 3, 3] (Or.inl rfl) rfl (by decide) (by decide)
  obtain ⟨n, t, ht, hr⟩ := some_rest h3
  have h5 : t.parent = _ := h2 n t ht hr
  rw [(h4 n t ht hr).1] at h5
  nomatch h5

example : AlwaysEnds (PipeStep demoCodec 7 (.raised 3)) (pipeStart true) 18
    fun s => s.child = .ended ∧ s.parent = .finished (.ok 3) :=
  C111_result_partial demoCodec 7 (.raised 3) 3 [3, 3, 3] (Or.inr rfl) rfl (by decide) (by decide)

example : AlwaysEnds (PipeStep demoCodec 6 (.returned 3)) (pipeStart true) 18
    fun s => s.parent = .joining ∧ ∃ x y, s.child = .writing (x :: y) :=
  C111_deadlock demoCodec 6 (.returned 3) 3 [3, 3, 3] (Or.inl rfl) rfl (by decide) (by decide)

/-! ## C112 -/

/-- C112: if the child ends without sending (it was killed or interrupted, or the result cannot be pickled), the call
never returns: the parent waits for a message for good, its own copy of the sending end keeping the pipe open -/
theorem C112_hang {V : Type} (c : Codec V) (cap : Nat) (fin : CallEnd V)
    (h : fin = .escaped ∨ ∃ v e, (fin = .returned v ∨ fin = .raised v) ∧ c.encode v = .error e) :
    AlwaysEnds (PipeStep c cap fin) (pipeStart true) 2 fun s => s = ⟨.ended, [], .receiving []⟩ := by
  have hn : ∀ v, toSend fin = some v → ∃ e, c.encode v = .error e := by
    intro v hv
    rcases h with rfl | ⟨v', e, rfl | rfl, he⟩
    · simp [toSend] at hv
    · cases hv; exact ⟨e, he⟩
    · cases hv; exact ⟨e, he⟩
  refine ⟨fun n t h => ?_, fun n t h hr => dry_rest hn (dry_steps hn h).1 hr⟩
  have := (dry_steps hn h).2; omega

/-- C112, the part that holds: a child that ends by itself with a message that fits is waited for and answered -/
theorem C112_answers_partial {V : Type} (c : Codec V) (cap : Nat) (fin : CallEnd V)
    (h : ∃ v b, toSend fin = some v ∧ c.encode v = .ok b ∧ (framed b).length ≤ cap ∧ b.length < 256 ^ 8) :
    ∃ k, AlwaysEnds (PipeStep c cap fin) (pipeStart true) k fun s => ∃ r, s.parent = .finished r := by
  obtain ⟨v, b, hv, hb, hf, hl⟩ := h
  have hv' : fin = .returned v ∨ fin = .raised v := by
    cases fin with
    | returned x => cases hv; exact Or.inl rfl
    | raised x => cases hv; exact Or.inr rfl
    | escaped => nomatch hv
  obtain ⟨h1, h2⟩ := C111_result_partial c cap fin v b hv' hb hl hf
  exact ⟨_, h1, fun n t h hr => ⟨_, (h2 n t h hr).2⟩⟩

/-- C112 in full (the call ends, with an error if need be, once the child has ended) is false -/
theorem C112_full_false : ¬ ∀ (V : Type) (c : Codec V) (cap : Nat) (fin : CallEnd V) (n : Nat) (t : PipeState V),
    StepsN (PipeStep c cap fin) n (pipeStart true) t → AtRest (PipeStep c cap fin) t → t.child = .ended →
    ∃ r, t.parent = .finished r := by
  intro h
  obtain ⟨h1, h2⟩ := C112_hang demoCodec 100 .escaped (Or.inl rfl)
  obtain ⟨n, t, ht, hr⟩ := some_rest h1
  have e := h2 n t ht hr
  obtain ⟨r, hr'⟩ := h _ _ _ _ n t ht hr (by rw [e])
  rw [e] at hr'
  nomatch hr'

/-- the encoding of 0 raises -/
def noZero : Codec Nat := { demoCodec with encode := fun n => if n = 0 then .error .typeError else demoCodec.encode n }

example : AlwaysEnds (PipeStep noZero 100 (.returned 0)) (pipeStart true) 2 fun s => s = ⟨.ended, [], .receiving []⟩ :=
  C112_hang noZero 100 (.returned 0) (Or.inr ⟨0, .typeError, Or.inl rfl, rfl⟩)

example : ∃ k, AlwaysEnds (PipeStep noZero 100 (.raised 3)) (pipeStart true) k fun s => ∃ r, s.parent = .finished r :=
  C112_answers_partial noZero 100 (.raised 3) ⟨3, [3, 3, 3], rfl, rfl, by decide, by decide⟩

/-! ## C113 -/

/-- C113: with `block=False` the child of a function whose result fits in the pipe ends by itself -/
theorem C113_child_ends_partial {V : Type} (c : Codec V) (cap : Nat) (fin : CallEnd V) (v : V) (b : Bytes)
    (hv : toSend fin = some v) (hb : c.encode v = .ok b) (hfit : (framed b).length ≤ cap) :
    AlwaysEnds (PipeStep c cap fin) (pipeStart false) (2 * (framed b).length + 4) fun s => s.child = .ended := by
  refine ⟨fun n t h => ?_, fun n t h hr => ?_⟩
  · have := (away_steps hv hb h).2; omega
  · rcases away_rest hv hb (away_steps hv hb h).1 hr with h | h
    · exact h.2
    · omega

/-- C113, larger results: the child never ends, so that joining the process returned hangs -/
theorem C113_child_stays {V : Type} (c : Codec V) (cap : Nat) (fin : CallEnd V) (v : V) (b : Bytes)
    (hv : toSend fin = some v) (hb : c.encode v = .ok b) (hbig : cap < (framed b).length) :
    AlwaysEnds (PipeStep c cap fin) (pipeStart false) (2 * (framed b).length + 4) fun s => s.child ≠ .ended := by
  refine ⟨fun n t h => ?_, fun n t h hr => ?_⟩
  · have := (away_steps hv hb h).2; omega
  · rcases away_rest hv hb (away_steps hv hb h).1 hr with h | ⟨_, x, y, h⟩
    · omega
    · rw [h]; nofun

/-- C113 in full (the process returned can be joined) is false -/
theorem C113_full_false : ¬ ∀ (V : Type) (c : Codec V) (cap : Nat) (fin : CallEnd V) (n : Nat) (t : PipeState V),
    StepsN (PipeStep c cap fin) n (pipeStart false) t → AtRest (PipeStep c cap fin) t → t.child = .ended := by
  intro h
  obtain ⟨h1, h2⟩ := C113_child_stays demoCodec 5 (.returned 3) 3 [3, 3, 3] rfl rfl (by decide)
  obtain ⟨n, t, ht, hr⟩ := some_rest h1
  exact h2 n t ht hr (h _ _ _ _ n t ht hr)

example : AlwaysEnds (PipeStep demoCodec 7 (.returned 3)) (pipeStart false) 18 fun s => s.child = .ended :=
  C113_child_ends_partial demoCodec 7 (.returned 3) 3 [3, 3, 3] rfl rfl (by decide)

end Verif.Props
