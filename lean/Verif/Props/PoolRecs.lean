import Verif.Model.PoolRecs
import Verif.Props.Pool
import Mathlib.Data.List.Nodup
/-!
# C128: the records given to `MaybePool.map`
-/
namespace Verif.Props
open Verif Verif.Model Verif.Lemmas

variable {K A V : Type} [DecidableEq K]

/-- the caller's records after `map` has been called with these lists, one after the other -/
def afterMaps (ofNat : Nat → K) (h : Recs K A) (calls : List (List Nat)) : Recs K A :=
  calls.foldl (fun h l => h.fillAll ofNat l 0) h

/-- the first list with the record `r` has it first at place `i` -/
def FirstAt (calls : List (List Nat)) (r i : Nat) : Prop :=
  ∃ before l after, calls = before ++ l :: after ∧ (∀ l' ∈ before, r ∉ l') ∧ l[i]? = some r ∧ ∀ j, j < i → l[j]? ≠ some r

theorem fill_arg (ofNat : Nat → K) (h : Recs K A) (r i x : Nat) : (h.fill ofNat r i x).arg = (h x).arg := by
  unfold Recs.fill
  split
  · next e => rw [e]
  · rfl

theorem fill_keyed (ofNat : Nat → K) (h : Recs K A) (r i x : Nat) {k : K} (hx : (h x).key = some k) :
    h.fill ofNat r i x = h x := by
  unfold Recs.fill
  split
  · next e =>
    subst e
    cases hh : h x with
    | mk key arg => rw [hh] at hx; simp only at hx; subst hx; rfl
  · rfl

theorem fillAll_arg (ofNat : Nat → K) (l : List Nat) (h : Recs K A) (i x : Nat) : (h.fillAll ofNat l i x).arg = (h x).arg := by
  induction l generalizing h i with
  | nil => rfl
  | cons r t ih => rw [Recs.fillAll, ih, fill_arg]

theorem fillAll_keyed (ofNat : Nat → K) (l : List Nat) (h : Recs K A) (i x : Nat) {k : K} (hx : (h x).key = some k) :
    h.fillAll ofNat l i x = h x := by
  induction l generalizing h i with
  | nil => rfl
  | cons r t ih =>
    have := fill_keyed ofNat h r i x hx
    rw [Recs.fillAll, ih _ _ (by rw [this]; exact hx), this]

theorem fillAll_not_mem (ofNat : Nat → K) (l : List Nat) (h : Recs K A) (i x : Nat) (hx : x ∉ l) :
    h.fillAll ofNat l i x = h x := by
  induction l generalizing h i with
  | nil => rfl
  | cons r t ih =>
    rw [Recs.fillAll, ih _ _ (fun e => hx (List.mem_cons_of_mem _ e)), Recs.fill, if_neg]
    rintro rfl
    exact hx List.mem_cons_self

theorem fillAll_first (ofNat : Nat → K) (l : List Nat) (h : Recs K A) (i x n : Nat) (hx : (h x).key = none)
    (hn : l[n]? = some x) (hf : ∀ j, j < n → l[j]? ≠ some x) : (h.fillAll ofNat l i x).key = some (ofNat (i + n)) := by
  induction l generalizing h i n with
  | nil => simp at hn
  | cons r t ih =>
    rw [Recs.fillAll]
    cases n with
    | zero =>
      simp only [List.getElem?_cons_zero, Option.some.injEq] at hn
      subst hn
      have : (h.fill ofNat r i r).key = some (ofNat i) := by simp [Recs.fill, hx]
      rw [fillAll_keyed _ _ _ _ _ this, this, Nat.add_zero]
    | succ n =>
      have hne : x ≠ r := by
        rintro rfl
        exact hf 0 (by omega) (by simp)
      rw [ih _ _ n (by rw [Recs.fill, if_neg hne]; exact hx) (by simpa using hn)
        (fun j hj => by simpa using hf (j + 1) (by omega))]
      congr 2
      omega

theorem afterMaps_keyed (ofNat : Nat → K) (calls : List (List Nat)) (h : Recs K A) (x : Nat) {k : K}
    (hx : (h x).key = some k) : afterMaps ofNat h calls x = h x := by
  induction calls generalizing h with
  | nil => rfl
  | cons l t ih =>
    have := fillAll_keyed ofNat l h 0 x hx
    have h2 := ih (h.fillAll ofNat l 0) (by rw [this]; exact hx)
    rw [this] at h2
    exact h2

theorem afterMaps_not_mem (ofNat : Nat → K) (calls : List (List Nat)) (h : Recs K A) (x : Nat) (hx : ∀ l ∈ calls, x ∉ l) :
    afterMaps ofNat h calls x = h x := by
  induction calls generalizing h with
  | nil => rfl
  | cons l t ih =>
    have h2 := ih (h.fillAll ofNat l 0) (fun l' hl' => hx l' (List.mem_cons_of_mem _ hl'))
    rw [fillAll_not_mem _ _ _ _ _ (hx l List.mem_cons_self)] at h2
    exact h2

theorem afterMaps_arg (ofNat : Nat → K) (calls : List (List Nat)) (h : Recs K A) (x : Nat) :
    (afterMaps ofNat h calls x).arg = (h x).arg := by
  induction calls generalizing h with
  | nil => rfl
  | cons l t ih => exact (ih (h.fillAll ofNat l 0)).trans (fillAll_arg ..)

/-- **C128**: whatever lists `map` has been called with, a record with a key of its own and a record in none of the lists are
as they were; another record has as its key the place where it stood first in the first list it was in. Arguments never
change. -/
theorem C128_keys (ofNat : Nat → K) (h : Recs K A) (calls : List (List Nat)) (r : Nat) :
    (∀ k, (h r).key = some k → afterMaps ofNat h calls r = h r) ∧
    ((∀ l ∈ calls, r ∉ l) → afterMaps ofNat h calls r = h r) ∧
    (∀ i, (h r).key = none → FirstAt calls r i → afterMaps ofNat h calls r = ⟨some (ofNat i), (h r).arg⟩) := by
  refine ⟨fun k hk => afterMaps_keyed ofNat calls h r hk, afterMaps_not_mem ofNat calls h r, ?_⟩
  rintro i hk ⟨before, l, after, rfl, hb, hi, hj⟩
  have e1 : afterMaps ofNat h before r = h r := afterMaps_not_mem ofNat before h r hb
  have e2 := fillAll_first ofNat l (afterMaps ofNat h before) 0 r i (by rw [e1]; exact hk) hi hj
  rw [Nat.zero_add] at e2
  have e3 : afterMaps ofNat h (before ++ l :: after) = afterMaps ofNat ((afterMaps ofNat h before).fillAll ofNat l 0) after := by
    simp [afterMaps, List.foldl_append]
  have e4 := afterMaps_arg ofNat (before ++ l :: after) h r
  have e5 : (afterMaps ofNat h (before ++ l :: after) r).key = some (ofNat i) := by
    rw [e3, afterMaps_keyed ofNat after _ r e2, e2]
  cases hh : afterMaps ofNat h (before ++ l :: after) r with
  | mk key arg =>
    rw [hh] at e4 e5
    simp only at e4 e5
    rw [e4, e5]

variable (asDict : Ret V → Option (Dict K (Ret V))) (ofDict : Dict K (Ret V) → Ret V) (ofNat chunkName : Nat → K)

theorem keyed_filled (l : List Nat) (h : Recs K A) (key : Nat → K) (hk : ∀ r ∈ l, (h r).key = some (key r)) :
    keyed ofNat (l.map h) = l.map fun r => (key r, (h r).arg) := by
  unfold keyed
  suffices ∀ (l : List Nat) (i : Nat), (∀ r ∈ l, (h r).key = some (key r)) →
      ((l.map h).zipIdx i).map (fun x => (match x.1.key with | some k => k | none => ofNat x.2, x.1.arg)) =
        l.map fun r => (key r, (h r).arg) from this l 0 hk
  intro l
  induction l with
  | nil => intros; rfl
  | cons r t ih =>
    intro i hk
    simp only [List.map_cons, List.zipIdx_cons, hk r List.mem_cons_self]
    rw [ih _ fun x hx => hk x (List.mem_cons_of_mem _ hx)]

/-- **C128** (partial: the keys are different). After any calls of `map` with any lists of records, `map_into_pool` of a list
of records whose keys (those of `C128_keys`) are different gives one result for each record, in order, under its key, in
every mode. -/
theorem C128_results_partial (hinj : ∀ i j, chunkName i = chunkName j → i = j) (f : A → Except PyErr (Ret V)) (r : A → Ret V)
    (hf : ∀ a, f a = .ok (r a)) (hr : ∀ a e, r a = .exc e → e.isException = true) (h : Recs K A) (calls : List (List Nat))
    (recs : List Nat) (key : Nat → K) (hkey : ∀ x ∈ recs, (afterMaps ofNat h (calls ++ [recs]) x).key = some (key x))
    (hnd : (recs.map key).Nodup) (threads : Option Nat) (hthreads : ∀ n, threads = some n → 1 ≤ n) (asChunks : Bool) :
    mapRecsIntoPool asDict ofDict ofNat chunkName f (afterMaps ofNat h calls) recs threads asChunks =
      (.ok (recs.map fun x => (key x, r (h x).arg)), afterMaps ofNat h (calls ++ [recs])) := by
  have e1 : (afterMaps ofNat h calls).fillAll ofNat recs 0 = afterMaps ofNat h (calls ++ [recs]) := by
    simp [afterMaps, List.foldl_append]
  have e2 := keyed_filled ofNat recs (afterMaps ofNat h (calls ++ [recs])) key hkey
  have e3 := (C17_same_in_all_modes asDict ofDict ofNat chunkName hinj f r hf hr
    (recs.map (afterMaps ofNat h (calls ++ [recs]))) threads hthreads asChunks).2 (by
      rw [e2, List.map_map]; exact hnd)
  rw [e2, List.map_map] at e3
  unfold mapRecsIntoPool Pool.mapRecs
  rw [e1]
  refine Prod.ext ?_ rfl
  have e4 : (recs.map fun x => (key x, r (h x).arg)) =
      recs.map ((fun x : K × A => (x.1, r x.2)) ∘ fun x => (key x, (afterMaps ofNat h (calls ++ [recs]) x).arg)) := by
    apply List.map_congr_left
    intro x _
    simp only [Function.comp, afterMaps_arg]
  rw [e4, ← e3]
  unfold freshMapGet
  dsimp only
  cases (Pool.map ofNat chunkName f (Pool.new threads) (.list (recs.map (afterMaps ofNat h (calls ++ [recs])))) asChunks) <;> rfl

/-- **C128**: different records without keys that have been in no earlier call get their places as keys -/
theorem C128_fresh_partial (hinj : ∀ i j, chunkName i = chunkName j → i = j) (hnat : ∀ i j, ofNat i = ofNat j → i = j)
    (f : A → Except PyErr (Ret V)) (r : A → Ret V) (hf : ∀ a, f a = .ok (r a))
    (hr : ∀ a e, r a = .exc e → e.isException = true) (h : Recs K A) (calls : List (List Nat)) (recs : List Nat)
    (hd : recs.Nodup) (hnone : ∀ x ∈ recs, (h x).key = none) (hnew : ∀ l ∈ calls, ∀ x ∈ recs, x ∉ l) (threads : Option Nat)
    (hthreads : ∀ n, threads = some n → 1 ≤ n) (asChunks : Bool) :
    (mapRecsIntoPool asDict ofDict ofNat chunkName f (afterMaps ofNat h calls) recs threads asChunks).1 =
      .ok (recs.zipIdx.map fun x => (ofNat x.2, r (h x.1).arg)) := by
  have hi : ∀ x ∈ recs, recs[recs.idxOf x]? = some x := fun x hx => by
    rw [List.getElem?_eq_getElem (List.idxOf_lt_length_iff.2 hx), List.getElem_idxOf]
  rw [C128_results_partial asDict ofDict ofNat chunkName hinj f r hf hr h calls recs (fun x => ofNat (recs.idxOf x)) ?_ ?_
    threads hthreads asChunks]
  · refine congrArg Except.ok (List.ext_getElem (by simp) fun n h1 h2 => ?_)
    simp only [List.getElem_map, List.getElem_zipIdx, Nat.zero_add]
    rw [hd.idxOf_getElem]
  · intro x hx
    refine congrArg Rec.key ((C128_keys ofNat h (calls ++ [recs]) x).2.2 _ (hnone x hx)
      ⟨calls, recs, [], rfl, fun l hl => hnew l hl x hx, hi x hx, ?_⟩)
    intro j hj he
    obtain ⟨hj', he⟩ := List.getElem?_eq_some_iff.1 he
    rw [← he, hd.idxOf_getElem] at hj
    omega
  · refine (List.nodup_map_iff_inj_on hd).2 fun x hx y hy he => ?_
    have h1 := hi x hx
    rw [hnat _ _ he, hi y hy] at h1
    exact (Option.some.inj h1).symm

/-- C128, in full: `map_into_pool` of different records, none of which was given a key by the caller, gives one result for
each of them, whatever calls were made before -/
def C128_full : Prop :=
  ∀ (f : Nat → Except PyErr (Ret Nat)), (∀ a, ∃ v, f a = .ok (.val v)) → ∀ (h : Recs Nat Nat) (calls : List (List Nat))
    (recs : List Nat), recs.Nodup → (∀ x, (h x).key = none) →
    ∃ out, (mapRecsIntoPool (fun _ => none) (fun _ => .val 0) id (· + 100) f (afterMaps id h calls) recs none false).1 = .ok out ∧
      out.length = recs.length

/-- records 0, 1, …, without keys, with themselves as arguments -/
def plainRecs : Recs Nat Nat := fun x => ⟨none, x⟩

/-- **C128**: two lists are mapped, then both together: they have the same keys, and results are lost -/
theorem C128_reuse :
    (mapRecsIntoPool (fun _ => none) (fun _ => .val 0) id (· + 100) (fun a => .ok (.val (a * 5)))
      (afterMaps id plainRecs [[0, 1], [2, 3]]) [0, 1, 2, 3] none false).1 = .ok [(0, .val 10), (1, .val 15)] := rfl

/-- C128 is false of the code -/
theorem C128_full_false : ¬ C128_full := by
  intro h
  obtain ⟨out, h1, h2⟩ := h (fun a => .ok (.val (a * 5))) (fun a => ⟨_, rfl⟩) plainRecs [[0, 1], [2, 3]] [0, 1, 2, 3] (by decide)
    (fun _ => rfl)
  rw [C128_reuse] at h1
  injection h1 with h1
  subst h1
  cases h2

/-- **C128**: the same record twice in a list gives one result -/
theorem C128_same_record :
    (mapRecsIntoPool (fun _ => none) (fun _ => .val 0) id (· + 100) (fun a => .ok (.val (a * 5))) plainRecs
      [7, 7, 7] none false).1 = .ok [(0, .val 35)] := rfl

/-- two workers, records mapped before in another order: they keep their keys -/
example : mapRecsIntoPool (fun _ => none) (fun _ => .val 0) id (· + 100) (fun a => .ok (.val (a * 5)))
    (afterMaps id plainRecs [[4, 6]]) [6, 4] (some 2) true =
      (.ok [(1, .val 30), (0, .val 20)], afterMaps id plainRecs [[4, 6], [6, 4]]) :=
  C128_results_partial _ _ _ _ (fun _ _ h => by omega) _ (fun a => .val (a * 5)) (fun _ => rfl) (fun _ _ h => by cases h)
    plainRecs [[4, 6]] [6, 4] (fun x => if x = 4 then 0 else 1) (by decide) (by decide) _ (fun n h => by injection h; omega) _

end Verif.Props
