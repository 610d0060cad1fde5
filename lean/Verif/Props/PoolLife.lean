import Verif.Spec.PoolLife
import Verif.Props.Pool
/-!
# C168: the life of a `MaybePool`
-/
namespace Verif.Props
open Verif Verif.Model Verif.Lemmas Verif.Spec
variable {K A V : Type} [DecidableEq K]

theorem lifeTable_eq (ofNat : Nat → K) (f : A → Except PyErr (Ret V)) (l : List (Rec K A)) :
    lifeTable ofNat f 0 l [] = Dict.update [] ((keyed ofNat l).map fun x => (x.1, outcome f x.2)) := by
  have : ∀ (l : List (Rec K A)) (i : Nat) (d : Dict K (Ret V)), lifeTable ofNat f i l d =
      Dict.update d (((l.zipIdx i).map fun x => (match x.1.key with | some k => k | none => ofNat x.2, x.1.arg)).map
        fun x => (x.1, outcome f x.2)) := by
    intro l
    induction l with
    | nil => intro i d; rfl
    | cons r t ih =>
      intro i d
      simp only [lifeTable, List.zipIdx_cons, List.map_cons]
      rw [ih]
      rfl
  exact this l 0 []

/-- the results of a `map` on a new pool -/
theorem fresh_life (asDict : Ret V → Option (Dict K (Ret V))) (ofDict : Dict K (Ret V) → Ret V) (ofNat chunkName : Nat → K)
    (hinj : ∀ i j, chunkName i = chunkName j → i = j) (threads : Option Nat) (hth : ∀ n, threads = some n → 1 ≤ n) (ch : Bool)
    (f : A → Except PyErr (Ret V)) (l : List (Rec K A)) (hok : lifeOK ch (.map f l ch : LifeCall K A V)) :
    ∃ q, Pool.map ofNat chunkName f (Pool.new threads) (.list l) ch = .ok q ∧
      q.get asDict ofDict false = .ok (lifeTable ofNat f 0 l []) := by
  obtain ⟨_, h1, h2⟩ := hok
  have key : freshMapGet asDict ofDict ofNat chunkName f (.list l) threads ch false = .ok (lifeTable ofNat f 0 l []) := by
    rw [lifeTable_eq]
    cases ch with
    | false => exact unchunked_get asDict ofDict ofNat chunkName f l threads false (fun a e he => (h1 a e he).2) h2 (Or.inr rfl)
    | true =>
      have hf : ∀ a, f a = .ok (outcome f a) := fun a => by
        unfold outcome
        cases h : f a with
        | ok r => rfl
        | error e => cases (h1 a e h).1
      exact (C17_same_in_all_modes asDict ofDict ofNat chunkName hinj f (outcome f) hf
        (fun a e he => h2 a e (by rw [hf a, he])) l threads hth true).1
  unfold freshMapGet at key
  cases hq : Pool.map ofNat chunkName f (Pool.new threads) (.list l) ch with
  | ok q => rw [hq] at key; exact ⟨q, rfl, key⟩
  | error e => rw [hq] at key; cases key

/-- C168, in full: whatever the order of the calls, a pool gives the answers that the same calls give in-process (functions that return
values, all `map`s with the same `as_chunks`) -/
def C168_full : Prop :=
  ∀ (K A V : Type) (_ : DecidableEq K) (asDict : Ret V → Option (Dict K (Ret V))) (ofDict : Dict K (Ret V) → Ret V) (ofNat chunkName : Nat → K),
    (∀ i j, chunkName i = chunkName j → i = j) → ∀ (n : Nat), 1 ≤ n → ∀ (ch : Bool) (calls : List (LifeCall K A V)), (∀ o ∈ calls, lifeOK ch o) →
      (LifePool.new (some n)).play asDict ofDict ofNat chunkName calls = (LifePool.new none).play asDict ofDict ofNat chunkName calls

theorem life_from (asDict : Ret V → Option (Dict K (Ret V))) (ofDict : Dict K (Ret V) → Ret V) (ofNat chunkName : Nat → K)
    (hinj : ∀ i j, chunkName i = chunkName j → i = j) (threads : Option Nat) (hth : ∀ n, threads = some n → 1 ≤ n) (ch : Bool)
    (calls : List (LifeCall K A V)) (hok : ∀ o ∈ calls, lifeOK ch o) (over : Bool) (hord : threads ≠ none → inOrder over calls)
    (p : LifePool K V) (d : Dict K (Ret V)) (ht : p.pool.threads = threads) (hover : threads ≠ none → (over = false ↔ p.phase = .running))
    (hch : p.pool.chunked = true → ch = true ∧ threads ≠ none) (hget : p.pool.get asDict ofDict false = .ok d) :
    p.play asDict ofDict ofNat chunkName calls = lifeAnswers ofNat d calls := by
  induction calls generalizing over p d with
  | nil => rfl
  | cons o t ih =>
    have hokt : ∀ o ∈ t, lifeOK ch o := fun o ho => hok o (by simp [ho])
    cases o with
    | map f recs as =>
      have ho : lifeOK ch (.map f recs as : LifeCall K A V) := hok _ (by simp)
      obtain ⟨rfl, _⟩ := id ho
      obtain ⟨q, hq, hqg⟩ := fresh_life asDict ofDict ofNat chunkName hinj threads hth as f recs ho
      have hq' : Pool.map ofNat chunkName f p.pool (.list recs) as = .ok q := by
        rw [← hq]
        unfold Pool.map Pool.new
        rw [ht]
        cases threads with
        | none =>
          have hc : p.pool.chunked = false := by
            by_contra hc
            exact (hch (by simpa using hc)).2 rfl
          simp only [hc, ht]
        | some n =>
          cases as with
          | true => simp only [if_true, ht]
          | false =>
            have hc : p.pool.chunked = false := by
              by_contra hc
              have := (hch (by simpa using hc)).1
              cases this
            simp only [Bool.false_eq_true, if_false, hc, ht]
      have e : p.map ofNat chunkName f recs as = (.ok (), { p with pool := q }) := by
        unfold LifePool.map
        rw [ht]
        cases threads with
        | none => simp only [hq']
        | some n =>
          have hr : p.phase = .running := (hover (by simp)).1 (hord (by simp)).1
          simp only [if_pos hr, hq']
      have hqt : q.threads = threads ∧ (q.chunked = true → as = true ∧ threads ≠ none) := by
        unfold Pool.map Pool.new at hq
        cases threads with
        | none =>
          simp only at hq
          split at hq
          · injection hq with hq; subst hq; exact ⟨rfl, fun h => by cases h⟩
          · cases hq
        | some n =>
          cases as with
          | true => simp only [if_true] at hq; injection hq with hq; subst hq; exact ⟨rfl, fun _ => ⟨rfl, by simp⟩⟩
          | false => simp only [Bool.false_eq_true, if_false] at hq; injection hq with hq; subst hq; exact ⟨rfl, fun h => by cases h⟩
      simp only [LifePool.play, LifePool.step, e, lifeAnswers]
      rw [ih hokt over (fun h => (hord h).2) { p with pool := q } _ hqt.1 hover hqt.2 hqg]
    | close =>
      simp only [LifePool.play, LifePool.step, lifeAnswers]
      rw [ih hokt true (fun h => hord h) p.close d]
      · unfold LifePool.close; rw [ht]; cases threads with
        | none => exact ht
        | some n => simp only; split <;> exact ht
      · intro h
        unfold LifePool.close
        rw [ht]
        cases threads with
        | none => exact absurd rfl h
        | some n =>
          simp only [Bool.true_eq_false, false_iff]
          split
          · simp
          · assumption
      · unfold LifePool.close; rw [ht]; cases threads with
        | none => exact hch
        | some n => simp only; split <;> exact hch
      · unfold LifePool.close; rw [ht]; cases threads with
        | none => exact hget
        | some n => simp only; split <;> exact hget
    | join =>
      have e : p.join = .ok () := by
        unfold LifePool.join
        rw [ht]
        cases threads with
        | none => rfl
        | some n =>
          have : ¬ p.phase = .running := fun hr => by
            have h1 := (hover (by simp)).2 hr
            have h2 := (hord (by simp)).1
            rw [h1] at h2
            cases h2
          simp only [if_neg this]
      simp only [LifePool.play, LifePool.step, lifeAnswers, e]
      rw [ih hokt over (fun h => (hord h).2) p d ht hover hch hget]
    | terminate =>
      simp only [LifePool.play, LifePool.step, lifeAnswers]
      rw [ih hokt true (fun h => hord h) p.terminate []]
      · exact ht
      · intro h
        simp only [LifePool.terminate, Bool.true_eq_false, false_iff]
        rw [ht]
        cases threads with
        | none => exact absurd rfl h
        | some n => simp
      · exact hch
      · rfl
    | get =>
      simp only [LifePool.play, LifePool.step, lifeAnswers, hget]
      rw [ih hokt over (fun h => hord h) p d ht hover hch hget]

/-- C168, the part that holds: in-process always, and in a pool of any size if `map` does not come after `close` or `terminate` and `join`
not before, every `get` gives the results of the last `map` (none after `terminate`), and nothing else raises -/
theorem C168_life_partial (asDict : Ret V → Option (Dict K (Ret V))) (ofDict : Dict K (Ret V) → Ret V) (ofNat chunkName : Nat → K)
    (hinj : ∀ i j, chunkName i = chunkName j → i = j) (threads : Option Nat) (hth : ∀ n, threads = some n → 1 ≤ n) (ch : Bool)
    (calls : List (LifeCall K A V)) (hok : ∀ o ∈ calls, lifeOK ch o) (hord : threads ≠ none → inOrder false calls) :
    (LifePool.new threads).play asDict ofDict ofNat chunkName calls = lifeAnswers ofNat [] calls :=
  life_from asDict ofDict ofNat chunkName hinj threads hth ch calls hok false hord (LifePool.new threads) [] rfl (fun _ => by simp [LifePool.new])
    (fun h => by cases h) rfl

/-- C168: a pool that is not running refuses `map` of any records (chunked: even of none), and keeps its results -/
theorem C168_refused (ofNat chunkName : Nat → K) (f : A → Except PyErr (Ret V)) (recs : List (Rec K A)) (asChunks : Bool) (p : LifePool K V)
    (n : Nat) (hn : 1 ≤ n) (ht : p.pool.threads = some n) (hp : p.phase ≠ .running) (hr : recs ≠ [] ∨ asChunks = true) :
    (p.map ofNat chunkName f recs asChunks).1 = .error .valueError ∧ (p.map ofNat chunkName f recs asChunks).2.pool.results = p.pool.results := by
  unfold LifePool.map
  rw [ht]
  simp only [if_neg hp]
  cases asChunks with
  | false =>
    have : recs.isEmpty = false := by
      cases recs with
      | nil => simp at hr
      | cons x t => rfl
    simp only [Bool.false_eq_true, if_false, this, and_self]
  | true =>
    have : (divide n (fillKeys ofNat recs)).isEmpty = false := by
      obtain ⟨k, rfl⟩ : ∃ k, n = k + 1 := ⟨n - 1, by omega⟩
      rfl
    simp only [if_true, this, Bool.false_eq_true, if_false, and_self]

/-- C168: `join` of a pool that has not been closed raises `ValueError`; `close` and `terminate` may be called again and again -/
theorem C168_join_running (p : LifePool K V) (n : Nat) (ht : p.pool.threads = some n) :
    (p.phase = .running → p.join = .error .valueError) ∧ p.close.join = .ok () ∧ p.terminate.join = .ok () ∧
      p.close.close = p.close ∧ p.terminate.terminate = p.terminate := by
  obtain ⟨⟨_, ch, res⟩, ph⟩ := p
  obtain rfl : _ = some n := ht
  cases ph <;> simp [LifePool.join, LifePool.close, LifePool.terminate, Pool.terminate]

/-- C168: a refused chunked `map` spoils the results that are there: 5 squared is read as `TypeError` -/
theorem C168_spoiled :
    (LifePool.new (K := Nat) (V := Nat) (some 2)).play (fun _ => none) (fun _ => .val 0) id (· + 100)
      [.map (fun a => .ok (.val (a * a))) [⟨none, 5⟩] false, .close, .get, .map (fun a => .ok (.val (a * a))) [⟨none, 6⟩] true, .get] =
    [.done (.ok ()), .done (.ok ()), .got (.ok [(0, .val 25)]), .done (.error .valueError), .got (.ok [(0, .exc .typeError)])] := by rfl

def lifeSquare : Nat → Except PyErr (Ret Nat) := fun a => .ok (.val (a * a))

/-- C168 is false of the code: `map` after `close` -/
theorem C168_full_false : ¬ C168_full := by
  intro h
  have := h Nat Nat Nat inferInstance (fun _ => none) (fun _ => .val 0) id (· + 100) (by simp) 2 (by decide) false
    [.close, .map lifeSquare [⟨none, 5⟩] false] (by
      intro o ho
      simp only [List.mem_cons, List.not_mem_nil, or_false] at ho
      rcases ho with rfl | rfl
      · trivial
      · exact ⟨rfl, fun _ _ he => (by cases he), fun _ _ he => (by cases he)⟩)
  have := congrArg (fun l => l[1]?) this
  simp [LifePool.play, LifePool.step, LifePool.new, LifePool.close, LifePool.map, Pool.new, Pool.map, lifeSquare, secondPass, fillKeys, mapInline,
    maybeResult] at this

/-- two maps and what `map_into_pool` does; 3 raises -/
def lifeDemo : List (LifeCall Nat Nat Nat) :=
  [.get, .map (fun a => if a = 3 then .error .valueError else .ok (.val (a * a))) [⟨none, 2⟩, ⟨some 7, 3⟩] false, .get,
   .map lifeSquare [⟨none, 4⟩] false, .close, .join, .get, .terminate, .get, .join, .close]

example : (LifePool.new (some 3)).play (fun _ => none) (fun _ => .val 0) id (· + 100) lifeDemo =
    [.got (.ok []), .done (.ok ()), .got (.ok [(0, .val 4), (7, .exc .valueError)]), .done (.ok ()), .done (.ok ()), .done (.ok ()),
     .got (.ok [(0, .val 16)]), .done (.ok ()), .got (.ok []), .done (.ok ()), .done (.ok ())] := by
  rw [C168_life_partial _ _ id (· + 100) (by simp) (some 3) (fun n hn => by injection hn with hn; omega) false lifeDemo (by
    intro o ho
    simp only [lifeDemo, List.mem_cons, List.not_mem_nil, or_false] at ho
    rcases ho with rfl | rfl | rfl | rfl | rfl | rfl | rfl | rfl | rfl | rfl | rfl <;> try trivial
    · refine ⟨rfl, fun a e he => ⟨rfl, ?_⟩, fun a e he => ?_⟩
      · by_cases ha : a = 3
        · simp only [if_pos ha] at he; injection he with he; subst he; rfl
        · simp only [if_neg ha] at he; cases he
      · by_cases ha : a = 3
        · simp only [if_pos ha] at he; cases he
        · simp only [if_neg ha] at he; cases he
    · exact ⟨rfl, fun _ _ he => (by cases he), fun _ _ he => (by cases he)⟩) (fun _ => by simp [lifeDemo, inOrder])]
  rfl

end Verif.Props
