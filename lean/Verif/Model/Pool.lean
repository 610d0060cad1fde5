import Verif.Py.Err
import Verif.Py.Dict
import Verif.Py.Tactics
/-!
# Model of `/repo/dustgoggles/structures.py`: `MaybeResult`, `MaybePool`, `map_into_pool` (340-469)

What is abstracted: the mapped function is a deterministic total Lean function `f : A → Except PyErr (Ret V)` of one
record's `(args, kwargs)`; a `multiprocessing.Pool` worker evaluates its task exactly once and `AsyncResult.get`
hands the outcome back unchanged (results and exceptions survive pickling), so the order in which workers run has no
effect on results. Not modelled: worker crashes, timing (`ready`, `n_ready`), pickling failures, `SystemExit` and
`KeyboardInterrupt` in a worker.
-/
namespace Verif.Model
open Verif

/-- what a function returns: an ordinary value, or an `Exception` *instance* (returned, not raised) -/
inductive Ret (V : Type) where
  | val (v : V)
  | exc (e : PyErr)
  deriving DecidableEq, Repr

/-- one argument record: optional key, and the packed `(args, kwargs)` (a missing `args` or `kwargs` is filled with
`()` / `{}` at lines 377-378; that is part of `A` here) -/
structure Rec (K A : Type) where
  key : Option K
  arg : A

/-- `argrecs`: a re-iterable list, or a one-shot iterator (generator) over records -/
inductive ArgRecs (K A : Type) where
  | list (l : List (Rec K A))
  | oneShot (l : List (Rec K A))

/-- the values of `self.results`: a `MaybeResult` (in-process), or an `AsyncResult` of one call or of one chunk -/
inductive Res (K V : Type) where
  | inline (r : Ret V)
  | async (r : Except PyErr (Ret V))
  | chunk (r : Except PyErr (Dict K (Ret V)))

/-- structures.py:367-372: the attributes of a `MaybePool`; `threads = none` iff `pool is None` -/
structure Pool (K V : Type) where
  threads : Option Nat
  chunked : Bool
  results : Dict K (Res K V)

variable {K A V : Type} [DecidableEq K]

/-- structures.py:367-372 -/
def Pool.new (threads : Option Nat) : Pool K V := ⟨threads, false, []⟩

/-- structures.py:341-347 `MaybeResult.__init__`: an `Exception` becomes the value, anything else propagates -/
def maybeResult (f : A → Except PyErr (Ret V)) (a : A) : Except PyErr (Ret V) :=
  match f a with
  | .ok r => .ok r
  | .error e => if e.isException then .ok (.exc e) else .error e

/-- structures.py:375-376, the enumeration that fills in the missing keys -/
def fillKeys (ofNat : Nat → K) (l : List (Rec K A)) : List (K × A) :=
  l.zipIdx.map fun x => (x.1.key.getD (ofNat x.2), x.1.arg)

/-- what a second iteration over `argrecs` sees, after the enumeration of line 375 has consumed it once -/
def secondPass (ofNat : Nat → K) : ArgRecs K A → List (K × A)
  | .list l => fillKeys ofNat l
  | .oneShot _ => []

/-- `more_itertools.divide(n, seq)` for `n ≥ 1`: `q, r = divmod(len(seq), n)`, the loop over `range(n)` that cuts a piece
of `q + 1` for `i < r` and of `q` otherwise -/
def divideLoop {α : Type} (q r : Nat) : (i todo : Nat) → List α → List (List α)
  | _, 0, _ => []
  | i, t + 1, rest =>
    let size := if i < r then q + 1 else q
    rest.take size :: divideLoop q r (i + 1) t (rest.drop size)

/-- `more_itertools.divide` -/
def divide {α : Type} (n : Nat) (l : List α) : List (List α) := divideLoop (l.length / n) (l.length % n) 0 n l

/-- structures.py:359-363 `_chunkwrap`: a dict comprehension, so the first raising record raises -/
def chunkwrap (f : A → Except PyErr (Ret V)) : List (K × A) → Dict K (Ret V) → Except PyErr (Dict K (Ret V))
  | [], d => .ok d
  | (k, a) :: t, d => match f a with
    | .ok r => chunkwrap f t (d.set k r)
    | .error e => .error e

/-- structures.py:379-383, 392-397, in-process: results are computed as the comprehension runs -/
def mapInline (f : A → Except PyErr (Ret V)) : List (K × A) → Dict K (Res K V) → Except PyErr (Dict K (Res K V))
  | [], d => .ok d
  | (k, a) :: t, d => match maybeResult f a with
    | .ok r => mapInline f t (d.set k (.inline r))
    | .error e => .error e

/-- structures.py:374-390 `MaybePool.map`. `chunkName i` is the string `chunk_i`; `divide` raises for `threads = 0`, but
`Pool(0)` already does. -/
def Pool.map (ofNat chunkName : Nat → K) (f : A → Except PyErr (Ret V)) (p : Pool K V) (recs : ArgRecs K A)
    (asChunks : Bool) : Except PyErr (Pool K V) :=
  let l := secondPass ofNat recs
  match p.threads with
  | none => match mapInline f l [] with
    | .ok results => .ok { p with results := results }
    | .error e => .error e
  | some n =>
    if asChunks then
      .ok { p with
        chunked := true
        results := ((divide n l).zipIdx.map fun x => (chunkName x.2, Res.chunk (chunkwrap f x.1 []))).foldl
          (fun d kv => d.set kv.1 kv.2) [] }
    else
      .ok { p with
        results := (l.map fun x => (x.1, Res.async (f x.2))).foldl (fun d kv => d.set kv.1 kv.2) [] }

/-- what `v.get()` gives: an object or a raised exception (structures.py:349-352; `AsyncResult.get`) -/
inductive Got (K V : Type) where
  | obj (r : Ret V)
  | dict (d : Dict K (Ret V))
  | raised (e : PyErr)

/-- structures.py:349-352 `MaybeResult.get` and `AsyncResult.get` -/
def Res.get : Res K V → Got K V
  | .inline (.val v) => .obj (.val v)
  | .inline (.exc e) => .raised e
  | .async (.ok r) => .obj r
  | .async (.error e) => .raised e
  | .chunk (.ok d) => .dict d
  | .chunk (.error e) => .raised e

/-- one pass of the loop of structures.py:409-423, given `self.chunked`. `asDict r` is the dict that `output |= r` adds
when `r` is a mapping or an iterable of pairs; other objects make `|=` raise `TypeError`. `ofDict` turns a chunk's dict
into an ordinary object for the case that a chunk result is read with `chunked` off (which cannot happen). -/
def Pool.getStep (asDict : Ret V → Option (Dict K (Ret V))) (ofDict : Dict K (Ret V) → Ret V) (chunked raiseExc : Bool)
    (k : K) (r : Res K V) (out : Dict K (Ret V)) : Except PyErr (Dict K (Ret V)) :=
  let caught (e : PyErr) : Except PyErr (Dict K (Ret V)) :=
    if e.isException && !raiseExc then .ok (out.set k (.exc e)) else .error e
  match r.get with
  | .raised e => caught e
  | .dict d => if chunked then .ok (out.update d) else .ok (out.set k (ofDict d))
  | .obj r => if chunked then
      match asDict r with
      | some d => .ok (out.update d)
      | none => caught .typeError
    else .ok (out.set k r)

/-- structures.py:409-423 `MaybePool.get`, the loop -/
def getLoop (asDict : Ret V → Option (Dict K (Ret V))) (ofDict : Dict K (Ret V) → Ret V) (chunked raiseExc : Bool) :
    List (K × Res K V) → Dict K (Ret V) → Except PyErr (Dict K (Ret V))
  | [], out => .ok out
  | (k, r) :: t, out => match Pool.getStep asDict ofDict chunked raiseExc k r out with
    | .ok out' => getLoop asDict ofDict chunked raiseExc t out'
    | .error e => .error e

/-- structures.py:409-423 -/
def Pool.get (asDict : Ret V → Option (Dict K (Ret V))) (ofDict : Dict K (Ret V) → Ret V) (p : Pool K V)
    (raiseExc : Bool) : Except PyErr (Dict K (Ret V)) :=
  getLoop asDict ofDict p.chunked raiseExc p.results []

/-- structures.py:464-465: `not isinstance(v, Exception)` -/
def Ret.notExc : Ret V → Bool
  | .exc _ => false
  | .val _ => true

/-- structures.py:449-469 `map_into_pool` (closing, joining and terminating the pool do not change the results) -/
def mapIntoPool (asDict : Ret V → Option (Dict K (Ret V))) (ofDict : Dict K (Ret V) → Ret V) (ofNat chunkName : Nat → K)
    (f : A → Except PyErr (Ret V)) (recs : ArgRecs K A) (threads : Option Nat) (filterExc asChunks : Bool) :
    Except PyErr (Dict K (Ret V)) := do
  let p ← Pool.map ofNat chunkName f (Pool.new threads) recs asChunks
  let results ← p.get asDict ofDict false
  if filterExc then
    .ok (results.filter fun kv => kv.2.notExc)
  else .ok results

end Verif.Model
