import Verif.Model.Pool
import Mathlib.Data.List.Induction
/-!
# Helper lemmas for the pool model
-/
set_option linter.unusedSectionVars false
namespace Verif.Lemmas
open Verif Verif.Model
variable {κ α : Type} [DecidableEq κ]

theorem upd_append (d e f : Dict κ α) : Dict.update d (e ++ f) = Dict.update (Dict.update d e) f := by
  simp [Dict.update]

theorem upd_single (d : Dict κ α) (k : κ) (v : α) : Dict.update d [(k, v)] = d.set k v := rfl

theorem upd_disjoint (d e : Dict κ α) (h : (Dict.keys (d ++ e)).Nodup) : Dict.update d e = d ++ e := by
  induction e generalizing d with
  | nil => simp [Dict.update_nil]
  | cons x r ih =>
    obtain ⟨k, v⟩ := x
    have hk : k ∉ Dict.keys d := by
      rw [Dict.keys_append, Dict.keys_cons, List.nodup_append] at h
      intro hm
      exact h.2.2 k hm k (by simp) rfl
    rw [Dict.update_cons, Dict.set_of_not_mem _ _ hk, ih _ (by simpa [Dict.keys] using h)]
    simp

/-- the dict of a list of distinct-key pairs is that list -/
theorem upd_nil_wf {e : Dict κ α} (h : Dict.WF e) : Dict.update [] e = e := by
  simpa using upd_disjoint [] e (by simpa [Dict.WF] using h)

theorem wf_dict (e : Dict κ α) : Dict.WF (Dict.update [] e) := Dict.wf_update Dict.wf_nil e

theorem upd_idem (e : Dict κ α) : Dict.update [] (Dict.update [] e) = Dict.update [] e := upd_nil_wf (wf_dict e)

theorem upd_keys (d e : Dict κ α) : ∀ d' : Dict κ α, Dict.keys d = Dict.keys d' →
    ∀ e' : Dict κ α, Dict.keys e = Dict.keys e' → Dict.keys (Dict.update d e) = Dict.keys (Dict.update d' e') := by
  induction e generalizing d with
  | nil =>
    intro d' h e' h'
    cases e' with
    | nil => simpa [Dict.update_nil] using h
    | cons _ _ => simp [Dict.keys] at h'
  | cons x t ih =>
    obtain ⟨k, v⟩ := x
    intro d' h e' h'
    cases e' with
    | nil => simp [Dict.keys] at h'
    | cons y t' =>
      obtain ⟨k', v'⟩ := y
      simp only [Dict.keys_cons, List.cons.injEq] at h'
      obtain ⟨rfl, h'⟩ := h'
      rw [Dict.update_cons, Dict.update_cons]
      refine ih _ _ ?_ _ h'
      rw [Dict.keys_set, Dict.keys_set, h]

theorem upd_set (out d : Dict κ α) (hout : Dict.WF out) (hd : Dict.WF d) (k : κ) (v : α) :
    Dict.update out (d.set k v) = (Dict.update out d).set k v := by
  by_cases hk : k ∈ Dict.keys d
  · refine Dict.ext_of_keys (Dict.wf_update hout _) ?_ ?_
    · rw [Dict.set_of_mem _ _ ((Dict.mem_keys_update _ _ _).2 (Or.inr hk))]
      exact upd_keys _ _ _ rfl _ (Dict.set_of_mem _ _ hk)
    · intro j
      rw [Dict.get?_update _ _ (Dict.wf_set hd k v), Dict.get?_set, Dict.get?_set, Dict.get?_update _ _ hd]
      by_cases h : k = j <;> simp [h]
  · rw [Dict.set_of_not_mem _ _ hk, upd_append, upd_single]

theorem upd_dict (out e : Dict κ α) (hout : Dict.WF out) : Dict.update out (Dict.update [] e) = Dict.update out e := by
  induction e using List.reverseRecOn with
  | nil => rfl
  | append_singleton e x ih =>
    obtain ⟨k, v⟩ := x
    rw [upd_append, upd_append, upd_single, upd_single, upd_set _ _ hout (wf_dict e), ih]

/-! ## the pool -/
variable {K A V : Type} [DecidableEq K]

/-- what a call leaves behind: its result, or the exception it raised -/
def outcome (f : A → Except PyErr (Ret V)) (a : A) : Ret V :=
  match f a with
  | .ok r => r
  | .error e => .exc e

theorem mapInline_ok (f : A → Except PyErr (Ret V)) (l : List (K × A)) (d : Dict K (Res K V))
    (h : ∀ x ∈ l, ∀ e, f x.2 = .error e → e.isException = true) :
    mapInline f l d = .ok (d.update (l.map fun x => (x.1, .inline (outcome f x.2)))) := by
  induction l generalizing d with
  | nil => rfl
  | cons x t ih =>
    obtain ⟨k, a⟩ := x
    have : maybeResult f a = .ok (outcome f a) := by
      unfold maybeResult outcome
      cases hf : f a with
      | ok r => rfl
      | error e => simp [h (k, a) (by simp) e hf]
    simp only [mapInline, this, List.map_cons]
    rw [ih _ fun x hx => h x (List.mem_cons_of_mem _ hx)]
    rfl

/-- what each entry contributes when it is read without `raise_exc`, unchunked -/
def plainRes : Res K V → Ret V
  | .inline r => r
  | .async (.ok r) => r
  | .async (.error e) => .exc e
  | .chunk _ => .exc .typeError

theorem getLoop_plain (asDict : Ret V → Option (Dict K (Ret V))) (ofDict) (l : List (K × Res K V)) (out : Dict K (Ret V))
    (h : ∀ x ∈ l, (∃ r, x.2 = .inline r ∧ ∀ e, r = .exc e → e.isException = true) ∨
      (∃ r, x.2 = .async r ∧ ∀ e, r = .error e → e.isException = true)) :
    getLoop asDict ofDict false false l out = .ok (out.update (l.map fun x => (x.1, plainRes x.2))) := by
  induction l generalizing out with
  | nil => rfl
  | cons x t ih =>
    obtain ⟨k, r⟩ := x
    have ht := ih (out.set k (plainRes r)) fun x hx => h x (List.mem_cons_of_mem _ hx)
    have : Pool.getStep asDict ofDict false false k r out = .ok (out.set k (plainRes r)) := by
      rcases h (k, r) (by simp) with ⟨r', hr, he⟩ | ⟨r', hr, he⟩
      · simp only at hr; subst hr
        cases r' with
        | val v => rfl
        | exc e => simp [Pool.getStep, Res.get, he e rfl, plainRes]
      · simp only at hr; subst hr
        cases r' with
        | ok v => rfl
        | error e => simp [Pool.getStep, Res.get, he e rfl, plainRes]
    simp only [getLoop, this]
    exact ht

theorem chunkwrap_ok (f : A → Except PyErr (Ret V)) (l : List (K × A)) (d : Dict K (Ret V))
    (h : ∀ x ∈ l, ∃ r, f x.2 = .ok r) :
    chunkwrap f l d = .ok (d.update (l.map fun x => (x.1, outcome f x.2))) := by
  induction l generalizing d with
  | nil => rfl
  | cons x t ih =>
    obtain ⟨k, a⟩ := x
    obtain ⟨r, hr⟩ := h (k, a) (by simp)
    simp only at hr
    simp only [chunkwrap, hr, List.map_cons]
    rw [ih _ fun x hx => h x (List.mem_cons_of_mem _ hx)]
    simp [outcome, hr, Dict.update]

theorem getLoop_chunks (asDict : Ret V → Option (Dict K (Ret V))) (ofDict) (raiseExc : Bool)
    (f : A → Except PyErr (Ret V)) (cs : List (K × List (K × A))) (out : Dict K (Ret V)) (hout : Dict.WF out)
    (h : ∀ c ∈ cs, ∀ x ∈ c.2, ∃ r, f x.2 = .ok r) :
    getLoop asDict ofDict true raiseExc (cs.map fun c => (c.1, Res.chunk (chunkwrap f c.2 []))) out =
      .ok (out.update ((cs.map Prod.snd).flatten.map fun x => (x.1, outcome f x.2))) := by
  induction cs generalizing out with
  | nil => rfl
  | cons c t ih =>
    simp only [List.map_cons, getLoop]
    have hc := chunkwrap_ok f c.2 [] (h c (by simp))
    have hs : Pool.getStep asDict ofDict true raiseExc c.1 (Res.chunk (chunkwrap f c.2 [])) out =
        .ok (out.update (c.2.map fun x => (x.1, outcome f x.2))) := by
      simp only [hc, Pool.getStep, Res.get, if_true]
      rw [upd_dict _ _ hout]
    rw [hs]
    simp only
    rw [ih _ (Dict.wf_update hout _) fun c hc => h c (List.mem_cons_of_mem _ hc)]
    simp [upd_append]

/-! ## divide -/

theorem divideLoop_flatten {α : Type} (q r i t : Nat) (l : List α) (h : l.length = t * q + min t (r - i)) :
    (divideLoop q r i t l).flatten = l := by
  induction t generalizing i l with
  | zero =>
    have : l = [] := by simpa using h
    simp [divideLoop, this]
  | succ t ih =>
    simp only [divideLoop, List.flatten_cons]
    rw [Nat.succ_mul] at h
    rw [ih, List.take_append_drop]
    rw [List.length_drop]
    split <;> omega

theorem divideLoop_length {α : Type} (q r i t : Nat) (l : List α) : (divideLoop q r i t l).length = t := by
  induction t generalizing i l with
  | zero => rfl
  | succ t ih => simp [divideLoop, ih]

theorem divideLoop_sizes {α : Type} (q r i t : Nat) (l : List α) (h : l.length = t * q + min t (r - i)) :
    ∀ c ∈ divideLoop q r i t l, c.length = q ∨ c.length = q + 1 := by
  induction t generalizing i l with
  | zero => simp [divideLoop]
  | succ t ih =>
    rw [Nat.succ_mul] at h
    intro c hc
    simp only [divideLoop, List.mem_cons] at hc
    rcases hc with rfl | hc
    · rw [List.length_take]
      split <;> omega
    · refine ih _ _ ?_ c hc
      rw [List.length_drop]
      split <;> omega

theorem divide_hyp {α : Type} (n : Nat) (hn : 1 ≤ n) (l : List α) :
    l.length = n * (l.length / n) + min n (l.length % n - 0) := by
  have := Nat.div_add_mod l.length n
  have h2 := Nat.mod_lt l.length hn
  omega

end Verif.Lemmas
