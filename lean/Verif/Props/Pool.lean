import Verif.Lemmas.Pool
/-!
# C17–C19, C74, C75: `MaybePool`
-/
set_option linter.unusedSectionVars false
namespace Verif.Props
open Verif Verif.Model Verif.Lemmas

section pool
variable {K A V : Type} [DecidableEq K]

/-- the keys and arguments of the records: an explicit key, or the record's position -/
def keyed (ofNat : Nat → K) (l : List (Rec K A)) : List (K × A) :=
  l.zipIdx.map fun x => (match x.1.key with | some k => k | none => ofNat x.2, x.1.arg)

theorem fillKeys_eq (ofNat : Nat → K) (l : List (Rec K A)) : fillKeys ofNat l = keyed ofNat l := by
  unfold fillKeys keyed
  apply List.map_congr_left
  intro x _
  cases x.1.key <;> rfl

/-- a fresh pool is made, mapped over the records, and read -/
def freshMapGet (asDict : Ret V → Option (Dict K (Ret V))) (ofDict : Dict K (Ret V) → Ret V) (ofNat chunkName : Nat → K)
    (f : A → Except PyErr (Ret V)) (recs : ArgRecs K A) (threads : Option Nat) (asChunks raiseExc : Bool) :
    Except PyErr (Dict K (Ret V)) :=
  match Pool.map ofNat chunkName f (Pool.new threads) recs asChunks with
  | .ok p => p.get asDict ofDict raiseExc
  | .error e => .error e

theorem fold_chunks_eq (chunkName : Nat → K) (hinj : ∀ i j, chunkName i = chunkName j → i = j) {β : Type}
    (g : List (K × A) → β) (cs : List (List (K × A))) :
    (cs.zipIdx.map fun x => (chunkName x.2, g x.1)).foldl (fun (d : Dict K β) kv => d.set kv.1 kv.2) [] =
      (cs.zipIdx.map fun x => (chunkName x.2, g x.1)) := by
  apply upd_nil_wf
  unfold Dict.WF Dict.keys
  rw [List.map_map]
  have : (Prod.fst ∘ fun x : List (K × A) × Nat => (chunkName x.2, g x.1)) = chunkName ∘ Prod.snd := rfl
  rw [this, ← List.map_map, List.zipIdx_map_snd]
  exact List.Pairwise.map _ (fun i j hij he => hij (hinj i j he)) List.nodup_range'

variable (asDict : Ret V → Option (Dict K (Ret V))) (ofDict : Dict K (Ret V) → Ret V) (ofNat chunkName : Nat → K)

theorem unchunked_get (f : A → Except PyErr (Ret V)) (l : List (Rec K A)) (threads : Option Nat) (asChunks : Bool)
    (hexc : ∀ a e, f a = .error e → e.isException = true) (hret : ∀ a e, f a = .ok (.exc e) → e.isException = true)
    (hmode : threads = none ∨ asChunks = false) :
    freshMapGet asDict ofDict ofNat chunkName f (.list l) threads asChunks false =
      .ok (Dict.update [] ((keyed ofNat l).map fun x => (x.1, outcome f x.2))) := by
  have hget : ∀ (g : A → Res K V) (hg : ∀ a, plainRes (g a) = outcome f a)
      (hk : ∀ a, (∃ r, g a = .inline r ∧ ∀ e, r = .exc e → e.isException = true) ∨
        (∃ r, g a = .async r ∧ ∀ e, r = .error e → e.isException = true)),
      getLoop asDict ofDict false false (Dict.update [] ((keyed ofNat l).map fun x => (x.1, g x.2))) [] =
        .ok (Dict.update [] ((keyed ofNat l).map fun x => (x.1, outcome f x.2))) := by
    intro g hg hk
    have hmem : ∀ (L : List (K × A)) (d : Dict K (Res K V)), (∀ x ∈ d, ∃ a, x.2 = g a) →
        ∀ x ∈ Dict.update d (L.map fun x => (x.1, g x.2)), ∃ a, x.2 = g a := by
      intro L
      induction L with
      | nil => intro d hd; exact hd
      | cons y t ih =>
        intro d hd
        rw [List.map_cons, Dict.update_cons]
        apply ih
        intro x hx
        have : ∀ (d : Dict K (Res K V)), (∀ x ∈ d, ∃ a, x.2 = g a) → ∀ x ∈ d.set y.1 (g y.2), ∃ a, x.2 = g a := by
          intro d
          induction d with
          | nil => intro _ x hx; simp [Dict.set] at hx; subst hx; exact ⟨y.2, rfl⟩
          | cons z s ihs =>
            intro hz x hx
            obtain ⟨zk, zv⟩ := z
            simp only [Dict.set] at hx
            split at hx
            · rcases List.mem_cons.1 hx with rfl | hx
              · exact ⟨y.2, rfl⟩
              · exact hz _ (List.mem_cons_of_mem _ hx)
            · rcases List.mem_cons.1 hx with rfl | hx
              · exact hz _ (by simp)
              · exact ihs (fun x hx => hz x (List.mem_cons_of_mem _ hx)) x hx
        exact this d hd x hx
    rw [getLoop_plain]
    · have hmap : ∀ (L : List (K × A)) (d : Dict K (Res K V)),
          (Dict.update d (L.map fun x => (x.1, g x.2))).map (fun x => (x.1, plainRes x.2)) =
            Dict.update (d.map fun x => (x.1, plainRes x.2)) (L.map fun x => (x.1, outcome f x.2)) := by
        intro L
        induction L with
        | nil => intro d; rfl
        | cons y t ih =>
          intro d
          rw [List.map_cons, Dict.update_cons, ih, List.map_cons, Dict.update_cons]
          congr 1
          induction d with
          | nil => simp [Dict.set, hg]
          | cons z s ihs =>
            simp only [Dict.set, List.map_cons]
            split <;> simp [hg, ihs]
      rw [hmap]
      exact congrArg Except.ok (upd_idem _)
    · intro x hx
      obtain ⟨a, ha⟩ := hmem (keyed ofNat l) [] (by simp) x hx
      rw [ha]
      exact hk a
  unfold freshMapGet Pool.map Pool.new
  simp only [secondPass, fillKeys_eq]
  cases threads with
  | none =>
    simp only [mapInline_ok f _ _ fun x _ e he => hexc x.2 e he, Pool.get]
    refine hget (fun a => .inline (outcome f a)) (fun a => rfl) fun a => Or.inl ⟨_, rfl, ?_⟩
    intro e he
    unfold outcome at he
    cases hf : f a with
    | ok r => rw [hf] at he; simp at he; subst he; exact hret a e hf
    | error e' => rw [hf] at he; simp at he; subst he; exact hexc a _ hf
  | some n =>
    rcases hmode with h | rfl
    · cases h
    simp only [Bool.false_eq_true, if_false, Pool.get]
    refine hget (fun a => .async (f a)) (fun a => ?_) fun a => Or.inr ⟨_, rfl, fun e he => hexc a e he⟩
    simp only [outcome]
    cases f a <;> rfl

/-- **C17**. If `func` raises on no record, mapping and reading a fresh `MaybePool` gives the dict of
`(key, func(*args, **kwargs))` in record order — in-process, pooled with any number of workers, chunked or not. (With
repeated keys: what the dict display of these pairs gives, in each of the modes.) -/
theorem C17_same_in_all_modes (hinj : ∀ i j, chunkName i = chunkName j → i = j) (f : A → Except PyErr (Ret V))
    (r : A → Ret V) (hf : ∀ a, f a = .ok (r a)) (hr : ∀ a e, r a = .exc e → e.isException = true)
    (l : List (Rec K A)) (threads : Option Nat) (hthreads : ∀ n, threads = some n → 1 ≤ n) (asChunks : Bool) :
    freshMapGet asDict ofDict ofNat chunkName f (.list l) threads asChunks false =
      .ok (Dict.update [] ((keyed ofNat l).map fun x => (x.1, r x.2))) ∧
    (((keyed ofNat l).map Prod.fst).Nodup →
      freshMapGet asDict ofDict ofNat chunkName f (.list l) threads asChunks false =
        .ok ((keyed ofNat l).map fun x => (x.1, r x.2))) := by
  have hout : ∀ a, outcome f a = r a := fun a => by simp [outcome, hf a]
  have key : freshMapGet asDict ofDict ofNat chunkName f (.list l) threads asChunks false =
      .ok (Dict.update [] ((keyed ofNat l).map fun x => (x.1, r x.2))) := by
    by_cases hmode : threads = none ∨ asChunks = false
    · rw [unchunked_get asDict ofDict ofNat chunkName f l threads asChunks (fun a e he => by rw [hf a] at he; cases he)
        (fun a e he => hr a e (by rw [hf a] at he; exact Except.ok.inj he)) hmode]
      simp only [hout]
    · simp only [not_or, Bool.not_eq_false] at hmode
      obtain ⟨h1, rfl⟩ := hmode
      cases threads with
      | none => exact absurd rfl h1
      | some n =>
        unfold freshMapGet Pool.map Pool.new
        simp only [secondPass, fillKeys_eq, if_true, Pool.get]
        rw [fold_chunks_eq chunkName hinj (fun c => Res.chunk (chunkwrap f c []))]
        have e1 : ((divide n (keyed ofNat l)).zipIdx.map fun x => (chunkName x.2, Res.chunk (chunkwrap f x.1 []))) =
            ((divide n (keyed ofNat l)).zipIdx.map fun x => (chunkName x.2, x.1)).map
              fun c => (c.1, (Res.chunk (chunkwrap f c.2 []) : Res K V)) := by
          rw [List.map_map]; rfl
        rw [e1, getLoop_chunks _ _ _ _ _ _ Dict.wf_nil (fun c _ x _ => ⟨_, hf x.2⟩)]
        have e2 : (((divide n (keyed ofNat l)).zipIdx.map fun x => (chunkName x.2, x.1)).map Prod.snd).flatten =
            keyed ofNat l := by
          rw [List.map_map]
          have : (Prod.snd ∘ fun x : List (K × A) × Nat => (chunkName x.2, x.1)) = Prod.fst := rfl
          rw [this, List.zipIdx_map_fst]
          exact divideLoop_flatten _ _ _ _ _ (divide_hyp n (hthreads n rfl) _)
        rw [e2]
        simp only [hout]
  refine ⟨key, fun hnd => ?_⟩
  rw [key, upd_nil_wf]
  unfold Dict.WF Dict.keys
  rw [List.map_map]
  exact hnd

/-- witness: three records, two workers, chunked: both modes give the same dict -/
example : freshMapGet (K := Nat) (V := Nat) (fun _ => none) (fun _ => .val 0) id (· + 100)
      (fun a => .ok (.val (a * a))) (.list [⟨none, 2⟩, ⟨some 7, 3⟩, ⟨none, 4⟩]) (some 2) true false =
    .ok [(0, .val 4), (7, .val 9), (2, .val 16)] := rfl

/-- **C18 (partial)**. In-process, and pooled without chunks, `get()` maps every record's key to its result or to the
exception it raised: no failure affects another record. Missing: chunked pools; see `C18_chunked_loses_results`. -/
theorem C18_isolates_failures_partial (f : A → Except PyErr (Ret V)) (l : List (Rec K A)) (threads : Option Nat)
    (asChunks : Bool) (hexc : ∀ a e, f a = .error e → e.isException = true)
    (hret : ∀ a e, f a = .ok (.exc e) → e.isException = true) (hmode : threads = none ∨ asChunks = false)
    (hnd : ((keyed ofNat l).map Prod.fst).Nodup) :
    ∃ out, freshMapGet asDict ofDict ofNat chunkName f (.list l) threads asChunks false = .ok out ∧
      out.keys = (keyed ofNat l).map Prod.fst ∧
      ∀ k a, (k, a) ∈ keyed ofNat l →
        (∀ r, f a = .ok r → out.get? k = some r) ∧ (∀ e, f a = .error e → out.get? k = some (.exc e)) := by
  have hwf : Dict.WF ((keyed ofNat l).map fun x => (x.1, outcome f x.2)) := by
    unfold Dict.WF Dict.keys; rw [List.map_map]; exact hnd
  refine ⟨_, by rw [unchunked_get asDict ofDict ofNat chunkName f l threads asChunks hexc hret hmode, upd_nil_wf hwf],
    ?_, ?_⟩
  · unfold Dict.keys; rw [List.map_map]; rfl
  · intro k a hka
    have hg : Dict.get? ((keyed ofNat l).map fun x => (x.1, outcome f x.2)) k = some (outcome f a) :=
      Dict.get?_of_mem hwf (List.mem_map.2 ⟨(k, a), hka, rfl⟩)
    exact ⟨fun r hr => by rw [hg]; simp [outcome, hr], fun e he => by rw [hg]; simp [outcome, he]⟩

/-- **C18** (`raise_exc=True`): in-process and unchunked, with distinct keys, the first failing record's exception is
raised. -/
theorem C18_raise_exc (f : A → Except PyErr (Ret V)) (pre : List (Rec K A)) (x : Rec K A) (post : List (Rec K A))
    (threads : Option Nat) (asChunks : Bool) (e : PyErr)
    (hexc : ∀ a e, f a = .error e → e.isException = true) (hpre : ∀ y ∈ pre, ∃ v, f y.arg = .ok (.val v))
    (hx : f x.arg = .error e) (hmode : threads = none ∨ asChunks = false)
    (hnd : ((keyed ofNat (pre ++ x :: post)).map Prod.fst).Nodup) :
    freshMapGet asDict ofDict ofNat chunkName f (.list (pre ++ x :: post)) threads asChunks true = .error e := by
  -- the loop over entries in record order
  have hloop : ∀ (g : A → Res K V), (∀ a v, f a = .ok (.val v) → (g a).get = .obj (.val v)) →
      (∀ a e, f a = .error e → (g a).get = .raised e) →
      ∀ (p : List (K × A)) (xk : K) (q : List (K × A)) (out : Dict K (Ret V)),
        (∀ y ∈ p, ∃ v, f y.2 = .ok (.val v)) →
        getLoop asDict ofDict false true (((p ++ (xk, x.arg) :: q)).map fun y => (y.1, g y.2)) out = .error e := by
    intro g hg1 hg2 p
    induction p with
    | nil =>
      intro xk q out _
      simp [getLoop, Pool.getStep, hg2 _ _ hx]
    | cons y t ih =>
      intro xk q out hp
      obtain ⟨v, hv⟩ := hp y (by simp)
      simp only [List.cons_append, List.map_cons, getLoop, Pool.getStep, hg1 _ _ hv]
      exact ih xk q _ fun z hz => hp z (List.mem_cons_of_mem _ hz)
  have hsplit : ∃ p xk q, keyed ofNat (pre ++ x :: post) = p ++ (xk, x.arg) :: q ∧
      ∀ y ∈ p, ∃ v, f y.2 = .ok (.val v) := by
    refine ⟨keyed ofNat pre, match x.key with | some k => k | none => ofNat pre.length,
      (post.zipIdx (pre.length + 1)).map fun x => (match x.1.key with | some k => k | none => ofNat x.2, x.1.arg), ?_, ?_⟩
    · simp [keyed, List.zipIdx_append]
    · intro y hy
      simp only [keyed, List.mem_map] at hy
      obtain ⟨z, hz, rfl⟩ := hy
      exact hpre z.1 (List.fst_mem_of_mem_zipIdx hz)
  obtain ⟨p, xk, q, hk, hp⟩ := hsplit
  unfold freshMapGet Pool.map Pool.new
  simp only [secondPass, fillKeys_eq]
  have hwf : ∀ g : A → Res K V, Dict.WF ((keyed ofNat (pre ++ x :: post)).map fun x => (x.1, g x.2)) := by
    intro g; unfold Dict.WF Dict.keys; rw [List.map_map]; exact hnd
  cases threads with
  | none =>
    simp only [mapInline_ok f _ _ fun x _ e he => hexc x.2 e he, Pool.get]
    rw [upd_nil_wf (hwf fun a => .inline (outcome f a)), hk]
    refine hloop (fun a => .inline (outcome f a)) ?_ ?_ p xk q [] hp
    · intro a v h; simp [Res.get, outcome, h]
    · intro a e h; simp [Res.get, outcome, h]
  | some n =>
    rcases hmode with h | rfl
    · cases h
    simp only [Bool.false_eq_true, if_false, Pool.get]
    have := upd_nil_wf (hwf fun a => .async (f a))
    unfold Dict.update at this
    rw [this, hk]
    refine hloop (fun a => .async (f a)) ?_ ?_ p xk q [] hp
    · intro a v h; simp [Res.get, h]
    · intro a e h; simp [Res.get, h]

/-- **C18 is false of chunked pools**: one worker, two records, the second raising. The whole chunk is lost: the good
record's key is absent, and so is the failing record's; the exception sits under the invented key `chunk_0`. -/
theorem C18_chunked_loses_results :
    ∃ (f : Nat → Except PyErr (Ret Nat)) (l : List (Rec Nat Nat)) (out : Dict Nat (Ret Nat)),
      (keyed id l) = [(0, 5), (1, 6)] ∧ f 5 = .ok (.val 25) ∧ f 6 = .error .valueError ∧
      freshMapGet (fun _ => none) (fun _ => .val 0) id (· + 100) f (.list l) (some 1) true false = .ok out ∧
      out.get? 0 = none ∧ out.get? 1 = none ∧ out.get? 100 = some (.exc .valueError) :=
  ⟨fun a => if a = 6 then .error .valueError else .ok (.val (a * 5)), [⟨none, 5⟩, ⟨none, 6⟩],
    [(100, .exc .valueError)], rfl, rfl, rfl, rfl, rfl, rfl, rfl⟩

/-- **C19**. For a pool of `n ≥ 1` workers the chunks are `n` contiguous runs whose concatenation is the record list,
with sizes differing by at most one. -/
theorem C19_chunks {α : Type} (n : Nat) (hn : 1 ≤ n) (l : List α) :
    (divide n l).length = n ∧ (divide n l).flatten = l ∧
    ∀ c ∈ divide n l, ∀ c' ∈ divide n l, c.length ≤ c'.length + 1 := by
  refine ⟨divideLoop_length _ _ _ _ _, divideLoop_flatten _ _ _ _ _ (divide_hyp n hn l), ?_⟩
  intro c hc c' hc'
  have h1 := divideLoop_sizes _ _ _ _ _ (divide_hyp n hn l) c hc
  have h2 := divideLoop_sizes _ _ _ _ _ (divide_hyp n hn l) c' hc'
  omega

example : divide 3 [1, 2, 3, 4, 5, 6, 7] = [[1, 2, 3], [4, 5], [6, 7]] := rfl

/-- **C19** (in use). A chunked `map` stores one result per worker, the `i`-th being the evaluation of the `i`-th chunk;
and each record is in exactly one chunk (`C19_chunks`). -/
theorem C19_map_uses_chunks (hinj : ∀ i j, chunkName i = chunkName j → i = j) (f : A → Except PyErr (Ret V))
    (l : List (Rec K A)) (n : Nat) (p : Pool K V)
    (h : Pool.map ofNat chunkName f (Pool.new (some n)) (.list l) true = .ok p) :
    p.results = ((divide n (keyed ofNat l)).zipIdx.map fun x => (chunkName x.2, .chunk (chunkwrap f x.1 []))) := by
  unfold Pool.map Pool.new at h
  simp only [secondPass, fillKeys_eq, if_true, Except.ok.injEq] at h
  rw [← h]
  exact fold_chunks_eq chunkName hinj (fun c => Res.chunk (chunkwrap f c [])) _

/-! ## C74: reuse -/

/-- **C74** (positive part): a pool on which no chunked map was run has `chunked` off, so a later unchunked or
in-process map is read exactly as on a fresh pool. -/
theorem C74_reuse_unchunked_partial (f g : A → Except PyErr (Ret V)) (l l' : ArgRecs K A) (threads : Option Nat)
    (p : Pool K V) (raiseExc : Bool)
    (h : Pool.map ofNat chunkName f (Pool.new threads) l false = .ok p) :
    (match Pool.map ofNat chunkName g p l' false with
      | .ok p' => p'.get asDict ofDict raiseExc
      | .error e => .error e) = freshMapGet asDict ofDict ofNat chunkName g l' threads false raiseExc := by
  have hp : p.threads = threads ∧ p.chunked = false := by
    unfold Pool.map Pool.new at h
    cases threads with
    | none =>
      simp only at h
      split at h
      · cases h; exact ⟨rfl, rfl⟩
      · cases h
    | some n => simp only [Bool.false_eq_true, if_false] at h; cases h; exact ⟨rfl, rfl⟩
  obtain ⟨pt, pc, pr⟩ := p
  obtain ⟨rfl, rfl⟩ := hp
  unfold freshMapGet Pool.map Pool.new
  cases pt with
  | none =>
    cases mapInline g (secondPass ofNat l') [] <;> rfl
  | some n => rfl

/-- **C74 is false of the code**: after one chunked map, an unchunked map on the same pool returns `TypeError` objects
instead of its results, because the `chunked` flag stays on. -/
theorem C74_chunked_flag_sticks :
    ∃ (p p' : Pool Nat Nat) (f : Nat → Except PyErr (Ret Nat)),
      Pool.map id (· + 100) f (Pool.new (some 2)) (.list [⟨none, 1⟩]) true = .ok p ∧
      Pool.map id (· + 100) f p (.list [⟨none, 3⟩]) false = .ok p' ∧ f 3 = .ok (.val 3) ∧
      p'.get (fun _ => none) (fun _ => .val 0) false = .ok [(0, .exc .typeError)] :=
  ⟨_, _, fun a => .ok (.val a), rfl, rfl, rfl, rfl⟩

/-! ## C75: one-shot iterators -/

/-- **C75 is false of the code**: records given by a generator are consumed by the key-filling loop, so nothing is
computed and `get()` is empty, in every mode, whatever the records. -/
theorem C75_generator_records_lost (hinj : ∀ i j, chunkName i = chunkName j → i = j)
    (f : A → Except PyErr (Ret V)) (l : List (Rec K A)) (threads : Option Nat)
    (hthreads : ∀ n, threads = some n → 1 ≤ n) (asChunks raiseExc : Bool) :
    freshMapGet asDict ofDict ofNat chunkName f (.oneShot l) threads asChunks raiseExc = .ok [] := by
  unfold freshMapGet Pool.map Pool.new
  simp only [secondPass]
  cases threads with
  | none => rfl
  | some n =>
    cases asChunks with
    | false => rfl
    | true =>
      simp only [if_true, Pool.get]
      rw [fold_chunks_eq chunkName hinj (fun c => Res.chunk (chunkwrap f c []))]
      have e1 : ((divide n ([] : List (K × A))).zipIdx.map fun x => (chunkName x.2, Res.chunk (chunkwrap f x.1 []))) =
          ((divide n ([] : List (K × A))).zipIdx.map fun x => (chunkName x.2, x.1)).map
            fun c => (c.1, (Res.chunk (chunkwrap f c.2 []) : Res K V)) := by
        rw [List.map_map]; rfl
      have e2 : (divide n ([] : List (K × A))).flatten = [] :=
        divideLoop_flatten _ _ _ _ _ (divide_hyp n (hthreads n rfl) [])
      have e3 : ∀ c ∈ divide n ([] : List (K × A)), c = [] := by
        intro c hc
        exact List.flatten_eq_nil_iff.1 e2 c hc
      have e4 : (((divide n ([] : List (K × A))).zipIdx.map fun x => (chunkName x.2, x.1)).map Prod.snd).flatten = [] := by
        rw [List.map_map]
        have : (Prod.snd ∘ fun x : List (K × A) × Nat => (chunkName x.2, x.1)) = Prod.fst := rfl
        rw [this, List.zipIdx_map_fst, e2]
      rw [e1, getLoop_chunks _ _ _ _ _ _ Dict.wf_nil]
      · rw [e4]; rfl
      · intro c hc x hx
        simp only [List.mem_map] at hc
        obtain ⟨y, hy, rfl⟩ := hc
        rw [e3 _ (List.fst_mem_of_mem_zipIdx hy)] at hx
        cases hx

/-- **C75 (partial)**: with a list of records the result has every record's key (each record is computed). -/
theorem C75_list_records_partial (f : A → Except PyErr (Ret V)) (l : List (Rec K A)) (threads : Option Nat)
    (asChunks : Bool) (hexc : ∀ a e, f a = .error e → e.isException = true)
    (hret : ∀ a e, f a = .ok (.exc e) → e.isException = true) (hmode : threads = none ∨ asChunks = false) :
    ∃ out, freshMapGet asDict ofDict ofNat chunkName f (.list l) threads asChunks false = .ok out ∧
      ∀ k, k ∈ out.keys ↔ ∃ a, (k, a) ∈ keyed ofNat l := by
  refine ⟨_, unchunked_get asDict ofDict ofNat chunkName f l threads asChunks hexc hret hmode, ?_⟩
  intro k
  rw [Dict.mem_keys_update]
  simp [Dict.keys]

/-! ## C76: `map_into_pool` -/

theorem mapIntoPool_of_get (f : A → Except PyErr (Ret V)) (r : A → Ret V)
    (l : List (Rec K A)) (threads : Option Nat) (asChunks : Bool)
    (h : freshMapGet asDict ofDict ofNat chunkName f (.list l) threads asChunks false =
      .ok ((keyed ofNat l).map fun x => (x.1, r x.2))) :
    mapIntoPool asDict ofDict ofNat chunkName f (.list l) threads false asChunks =
      .ok ((keyed ofNat l).map fun x => (x.1, r x.2)) ∧
    ∃ out, mapIntoPool asDict ofDict ofNat chunkName f (.list l) threads true asChunks = .ok out ∧
      out.Sublist ((keyed ofNat l).map fun x => (x.1, r x.2)) ∧
      ∀ k v, (k, v) ∈ out ↔ (∃ a, (k, a) ∈ keyed ofNat l ∧ r a = v) ∧ ∀ e, v ≠ .exc e := by
  unfold freshMapGet at h
  cases hm : Pool.map ofNat chunkName f (Pool.new threads) (.list l) asChunks with
  | error e => rw [hm] at h; cases h
  | ok p =>
    rw [hm] at h
    simp only at h
    refine ⟨by simp [mapIntoPool, hm, h, bind, Except.bind],
      ((keyed ofNat l).map fun x => (x.1, r x.2)).filter (fun kv => kv.2.notExc),
      by simp only [mapIntoPool, hm, h, bind, Except.bind, if_true], List.filter_sublist, ?_⟩
    intro k v
    rw [List.mem_filter, List.mem_map]
    constructor
    · rintro ⟨⟨x, hx, he⟩, hv⟩
      simp only [Prod.mk.injEq] at he
      obtain ⟨rfl, rfl⟩ := he
      refine ⟨⟨x.2, hx, rfl⟩, ?_⟩
      intro e he
      simp [he, Ret.notExc] at hv
    · rintro ⟨⟨a, ha, rfl⟩, hv⟩
      refine ⟨⟨(k, a), ha, rfl⟩, ?_⟩
      cases hra : r a with
      | val v => simp [hra, Ret.notExc]
      | exc e => exact absurd hra (hv e)

/-- **C76**. `map_into_pool` of a function that does not raise gives, for every thread count and with or without chunks,
the dict of results in record order; with `filter_exc=True` exactly the entries whose result is an exception instance
are dropped, in the same order. -/
theorem C76_map_into_pool (hinj : ∀ i j, chunkName i = chunkName j → i = j) (f : A → Except PyErr (Ret V))
    (r : A → Ret V) (hf : ∀ a, f a = .ok (r a)) (hr : ∀ a e, r a = .exc e → e.isException = true)
    (l : List (Rec K A)) (threads : Option Nat) (hthreads : ∀ n, threads = some n → 1 ≤ n) (asChunks : Bool)
    (hnd : ((keyed ofNat l).map Prod.fst).Nodup) :
    mapIntoPool asDict ofDict ofNat chunkName f (.list l) threads false asChunks =
      .ok ((keyed ofNat l).map fun x => (x.1, r x.2)) ∧
    ∃ out, mapIntoPool asDict ofDict ofNat chunkName f (.list l) threads true asChunks = .ok out ∧
      out.Sublist ((keyed ofNat l).map fun x => (x.1, r x.2)) ∧
      ∀ k v, (k, v) ∈ out ↔ (∃ a, (k, a) ∈ keyed ofNat l ∧ r a = v) ∧ ∀ e, v ≠ .exc e := by
  have h := (C17_same_in_all_modes asDict ofDict ofNat chunkName hinj f r hf hr l threads hthreads asChunks).2 hnd
  exact mapIntoPool_of_get asDict ofDict ofNat chunkName f r l threads asChunks h

/-- **C76** (raising functions). In-process or unchunked, `filter_exc=True` drops exactly the records whose call raised
(or returned) an exception and keeps every other result. -/
theorem C76_filter_exc_raising (f : A → Except PyErr (Ret V)) (l : List (Rec K A)) (threads : Option Nat)
    (asChunks : Bool) (hexc : ∀ a e, f a = .error e → e.isException = true)
    (hret : ∀ a e, f a = .ok (.exc e) → e.isException = true) (hmode : threads = none ∨ asChunks = false)
    (hnd : ((keyed ofNat l).map Prod.fst).Nodup) :
    ∃ out, mapIntoPool asDict ofDict ofNat chunkName f (.list l) threads true asChunks = .ok out ∧
      ∀ k v, (k, v) ∈ out ↔ ∃ a w, (k, a) ∈ keyed ofNat l ∧ f a = .ok (.val w) ∧ v = .val w := by
  have h := unchunked_get asDict ofDict ofNat chunkName f l threads asChunks hexc hret hmode
  rw [upd_nil_wf (by unfold Dict.WF Dict.keys; rw [List.map_map]; exact hnd)] at h
  obtain ⟨-, out, h1, -, h3⟩ := mapIntoPool_of_get asDict ofDict ofNat chunkName f (outcome f) l threads asChunks h
  refine ⟨out, h1, fun k v => ?_⟩
  rw [h3]
  constructor
  · rintro ⟨⟨a, ha, rfl⟩, hv⟩
    cases hfa : f a with
    | ok r =>
      cases r with
      | val w => exact ⟨a, w, ha, hfa, by simp [outcome, hfa]⟩
      | exc e => exact absurd (by simp [outcome, hfa]) (hv e)
    | error e => exact absurd (by simp [outcome, hfa]) (hv e)
  · rintro ⟨a, w, ha, hfa, rfl⟩
    exact ⟨⟨a, ha, by simp [outcome, hfa]⟩, by simp⟩

example : mapIntoPool (K := Nat) (V := Nat) (fun _ => none) (fun _ => .val 0) id (· + 100)
      (fun a => .ok (if a = 3 then .exc .valueError else .val a)) (.list [⟨none, 2⟩, ⟨none, 3⟩, ⟨none, 4⟩]) none true true
    = .ok [(0, .val 2), (2, .val 4)] := rfl

end pool
end Verif.Props
