import Verif.Model.PoolReady
import Verif.Props.Pool
/-!
# C129: the progress of a `MaybePool`
-/
namespace Verif.Props
open Verif Verif.Model Verif.Lemmas

variable {K A V : Type} [DecidableEq K]

/-- a result that is ready stays ready -/
def Stays (ready : Nat → K → Bool) : Prop := ∀ t t' k, t ≤ t' → ready t k = true → ready t' k = true

/-- the results that are ready at a time -/
def readyNow (ready : Nat → K → Bool) (p : Pool K V) (t : Nat) : List (K × Res K V) :=
  p.results.filter fun x => x.2.readyAt ready t x.1

/-- the questions of a counter: one for each result, between two times -/
structure Asked (p : Pool K V) (t t' : Nat) (times : List Nat) : Prop where
  one : times.length = p.results.length
  since : ∀ x ∈ times, t ≤ x
  til : ∀ x ∈ times, x ≤ t'

theorem readyAt_stays {ready : Nat → K → Bool} (hs : Stays ready) {t t' : Nat} (h : t ≤ t') (k : K) (r : Res K V)
    (hr : r.readyAt ready t k = true) : r.readyAt ready t' k = true := by
  cases r with
  | inline => rfl
  | async => exact hs _ _ _ h hr
  | chunk => exact hs _ _ _ h hr

theorem asked_count {ready : Nat → K → Bool} (hs : Stays ready) (t t' : Nat) :
    ∀ (l : List (K × Res K V)) (times : List Nat), times.length = l.length → (∀ x ∈ times, t ≤ x) → (∀ x ∈ times, x ≤ t') →
    (l.filter fun x => x.2.readyAt ready t x.1).length ≤
      ((l.zip times).filter fun x => x.1.2.readyAt ready x.2 x.1.1).length ∧
    ((l.zip times).filter fun x => x.1.2.readyAt ready x.2 x.1.1).length ≤
      (l.filter fun x => x.2.readyAt ready t' x.1).length := by
  intro l
  induction l with
  | nil => intros; simp
  | cons a l ih =>
    intro times hlen h1 h2
    cases times with
    | nil => simp at hlen
    | cons u times =>
      obtain ⟨i1, i2⟩ := ih times (by simpa using hlen) (fun x hx => h1 x (List.mem_cons_of_mem _ hx))
        (fun x hx => h2 x (List.mem_cons_of_mem _ hx))
      have g1 := readyAt_stays hs (h1 u List.mem_cons_self) a.1 a.2
      have g2 := readyAt_stays hs (h2 u List.mem_cons_self) a.1 a.2
      simp only [List.zip_cons_cons, List.filter_cons]
      clear ih h1 h2 hlen
      cases q : a.2.readyAt ready t a.1 <;> cases q' : a.2.readyAt ready u a.1 <;> cases q'' : a.2.readyAt ready t' a.1 <;>
        rw [q, q'] at g1 <;> rw [q', q''] at g2 <;> simp at g1 g2 <;>
        simp only [Bool.false_eq_true, if_false, if_true, List.length_cons] <;> omega

/-- **C129**: `n_ready` lies between the number of results ready when it was called and the number ready when it returned;
`n_running` between the number of those that were not ready at the end and at the beginning (it is never negative) -/
theorem C129_counts (ready : Nat → K → Bool) (hs : Stays ready) (p : Pool K V) (t t' : Nat) (times : List Nat)
    (h : Asked p t t' times) :
    (readyNow ready p t).length ≤ p.nReady ready times ∧ p.nReady ready times ≤ (readyNow ready p t').length ∧
    p.nRunning ready times + p.nReady ready times = p.nResults ∧ 0 ≤ p.nRunning ready times := by
  obtain ⟨h1, h2⟩ := asked_count hs t t' p.results times h.one h.since h.til
  refine ⟨h1, h2, by unfold Pool.nRunning; omega, ?_⟩
  have : (readyNow ready p t').length ≤ p.results.length := List.length_filter_le _ _
  have h3 : p.nReady ready times ≤ (readyNow ready p t').length := h2
  unfold Pool.nRunning Pool.nResults
  omega

/-- **C129**: asked again later, `n_ready` is not smaller -/
theorem C129_progress (ready : Nat → K → Bool) (hs : Stays ready) (p : Pool K V) (t t' t'' : Nat) (times times' : List Nat)
    (h : Asked p t t' times) (h' : Asked p t' t'' times') : p.nReady ready times ≤ p.nReady ready times' :=
  Nat.le_trans (C129_counts ready hs p t t' times h).2.1 (C129_counts ready hs p t' t'' times' h').1

/-- **C129**: if `ready()` says yes, all results are ready when it returns and ever after; if it says no, one was not ready
when it was called -/
theorem C129_ready (ready : Nat → K → Bool) (hs : Stays ready) (p : Pool K V) (t t' : Nat) (times : List Nat)
    (h : Asked p t t' times) :
    (p.allReady ready times = true → ∀ u, t' ≤ u → ∀ x ∈ p.results, x.2.readyAt ready u x.1 = true) ∧
    (p.allReady ready times = false → ∃ x ∈ p.results, x.2.readyAt ready t x.1 = false) := by
  obtain ⟨h1, h2, h3⟩ := h
  unfold Pool.allReady
  constructor
  · intro ha u hu x hx
    obtain ⟨i, hi, rfl⟩ := List.mem_iff_getElem.1 hx
    have := List.all_eq_true.1 ha (p.results[i], times[i]) (List.mem_iff_getElem.2 ⟨i, by simp; omega, by simp⟩)
    exact readyAt_stays hs (Nat.le_trans (h3 _ (List.getElem_mem _)) hu) _ _ this
  · intro ha
    obtain ⟨x, hx, hr⟩ := List.all_eq_false.1 ha
    obtain ⟨hx1, hx2⟩ := List.of_mem_zip hx
    refine ⟨x.1, hx1, ?_⟩
    cases q : x.1.2.readyAt ready t x.1.1 with
    | false => rfl
    | true => exact absurd (readyAt_stays hs (h2 _ hx2) _ _ q) hr

/-- **C129**: `results_ready()` has the keys of the results, in order; a result said to be ready is, from the end of the call
on; one said not to be was not, when the call began -/
theorem C129_results_ready (ready : Nat → K → Bool) (hs : Stays ready) (p : Pool K V) (t t' : Nat) (times : List Nat)
    (h : Asked p t t' times) :
    (p.resultsReady ready times).map Prod.fst = p.results.map Prod.fst ∧
    ∀ i (hi : i < p.results.length) b, (p.resultsReady ready times)[i]? = some ((p.results[i]).1, b) →
      (b = true → ∀ u, t' ≤ u → (p.results[i]).2.readyAt ready u (p.results[i]).1 = true) ∧
      (b = false → (p.results[i]).2.readyAt ready t (p.results[i]).1 = false) := by
  obtain ⟨h1, h2, h3⟩ := h
  unfold Pool.resultsReady
  constructor
  · rw [List.map_map]
    have : (Prod.fst ∘ fun x : (K × Res K V) × Nat => (x.1.1, x.1.2.readyAt ready x.2 x.1.1)) = Prod.fst ∘ Prod.fst := rfl
    rw [this, ← List.map_map, List.map_fst_zip (by omega)]
  · intro i hi b hb
    rw [List.getElem?_map, List.getElem?_eq_getElem (by simp; omega)] at hb
    simp only [List.getElem_zip, Option.map_some, Option.some.injEq, Prod.mk.injEq, true_and] at hb
    subst hb
    have hm : times[i]'(by omega) ∈ times := List.getElem_mem _
    constructor
    · intro hr u hu
      exact readyAt_stays hs (Nat.le_trans (h3 _ hm) hu) _ _ hr
    · intro hr
      cases q : (p.results[i]).2.readyAt ready t (p.results[i]).1 with
      | false => rfl
      | true => rw [readyAt_stays hs (h2 _ hm) _ _ q] at hr; cases hr

variable (asDict : Ret V → Option (Dict K (Ret V))) (ofDict : Dict K (Ret V) → Ret V) (ofNat chunkName : Nat → K)

/-- **C129**: without workers, every result is ready as soon as `map` returns -/
theorem C129_in_process (ready : Nat → K → Bool) (f : A → Except PyErr (Ret V)) (recs : ArgRecs K A) (asChunks : Bool)
    (p : Pool K V) (h : Pool.map ofNat chunkName f (Pool.new none) recs asChunks = .ok p) (times : List Nat)
    (ht : times.length = p.results.length) :
    p.allReady ready times = true ∧ p.nReady ready times = p.nResults ∧ p.nRunning ready times = 0 := by
  have hin : ∀ (l : List (K × A)) (d d' : Dict K (Res K V)), (∀ x ∈ d, ∃ r, x.2 = .inline r) → mapInline f l d = .ok d' →
      ∀ x ∈ d', ∃ r, x.2 = .inline r := by
    intro l
    induction l with
    | nil => intro d d' hd e; simp only [mapInline, Except.ok.injEq] at e; subst e; exact hd
    | cons y l ih =>
      intro d d' hd e
      simp only [mapInline] at e
      split at e
      · next r hr =>
        refine ih _ _ ?_ e
        have : ∀ (d : Dict K (Res K V)), (∀ x ∈ d, ∃ r, x.2 = .inline r) → ∀ x ∈ d.set y.1 (.inline r), ∃ r, x.2 = .inline r := by
          intro d
          induction d with
          | nil => intro _ x hx; simp [Dict.set] at hx; subst hx; exact ⟨r, rfl⟩
          | cons z s ihs =>
            intro hz x hx
            obtain ⟨zk, zv⟩ := z
            simp only [Dict.set] at hx
            split at hx
            · rcases List.mem_cons.1 hx with rfl | hx
              · exact ⟨r, rfl⟩
              · exact hz _ (List.mem_cons_of_mem _ hx)
            · rcases List.mem_cons.1 hx with rfl | hx
              · exact hz _ (by simp)
              · exact ihs (fun x hx => hz x (List.mem_cons_of_mem _ hx)) x hx
        exact this d hd
      · cases e
  have hall : ∀ x ∈ p.results, ∃ r, x.2 = .inline r := by
    unfold Pool.map Pool.new at h
    simp only at h
    split at h
    · next d hd => injection h with h; subst h; exact hin _ _ _ (by simp) hd
    · cases h
  have hz : ∀ x ∈ p.results.zip times, x.1.2.readyAt ready x.2 x.1.1 = true := by
    intro x hx
    obtain ⟨r, hr⟩ := hall _ (List.of_mem_zip hx).1
    rw [hr]; rfl
  have hn : p.nReady ready times = p.nResults := by
    unfold Pool.nReady Pool.nResults
    rw [List.filter_eq_self.2 hz, List.length_zip, ht, Nat.min_self]
  exact ⟨List.all_eq_true.2 hz, hn, by unfold Pool.nRunning; omega⟩

/-- **C129**: with workers and chunks, there are as many results as workers, however many records there are -/
theorem C129_chunked (hinj : ∀ i j, chunkName i = chunkName j → i = j) (f : A → Except PyErr (Ret V)) (l : List (Rec K A))
    (n : Nat) (hn : 1 ≤ n) (p : Pool K V) (h : Pool.map ofNat chunkName f (Pool.new (some n)) (.list l) true = .ok p) :
    p.nResults = n := by
  unfold Pool.nResults
  rw [C19_map_uses_chunks ofNat chunkName hinj f l n p h, List.length_map, List.length_zipIdx]
  exact (C19_chunks n hn _).1

/-- **C129**: after `terminate`, everything is ready and there is nothing to get -/
theorem C129_terminate (ready : Nat → K → Bool) (p : Pool K V) (times : List Nat) (raiseExc : Bool) :
    p.terminate.allReady ready times = true ∧ p.terminate.nResults = 0 ∧ p.terminate.get asDict ofDict raiseExc = .ok [] :=
  ⟨rfl, rfl, rfl⟩

/-- two results; the first becomes ready at time 3, the second at 5 -/
def twoResults : Pool Nat Nat := ⟨some 2, false, [(0, .async (.ok (.val 1))), (1, .async (.error .valueError))]⟩
def readyTwo (t k : Nat) : Bool := if k = 0 then 3 ≤ t else 5 ≤ t

theorem readyTwo_stays : Stays readyTwo := by
  intro t t' k h hr
  unfold readyTwo at *
  split at hr <;> simp_all <;> omega

example : twoResults.nReady readyTwo [2, 4] = 0 ∧ twoResults.nReady readyTwo [4, 4] = 1 ∧
    twoResults.nReady readyTwo [4, 4] ≤ twoResults.nReady readyTwo [4, 6] ∧ twoResults.nRunning readyTwo [4, 4] = 1 :=
  ⟨rfl, rfl, C129_progress readyTwo readyTwo_stays twoResults 4 4 6 _ _ ⟨rfl, by decide, by decide⟩ ⟨rfl, by decide, by decide⟩,
    rfl⟩

end Verif.Props
