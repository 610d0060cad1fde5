import Verif.Model.PoolReady
/-!
# The life of a `MaybePool`

`/repo/dustgoggles/structures.py`, lines 366-407, 443-446, and the states of a `multiprocessing.Pool` (CPython 3.11,
`multiprocessing/pool.py`): `apply_async` raises `ValueError` unless the pool is running (351-353, 458), `close` ends that, `join` raises
`ValueError` while the pool is running, and otherwise waits for the workers. Results that have been asked for before `close` come
in. The records are a list (a generator is empty on the second pass, C75). Not modelled: what is said in Model/Pool.lean.
-/
namespace Verif.Model
open Verif
variable {K A V : Type} [DecidableEq K]

/-- `Pool._state` -/
inductive PoolPhase where
  | running
  | closed
  | terminated
  deriving DecidableEq

/-- a `MaybePool` with the state of its pool; in-process there is no pool, and the state means nothing -/
structure LifePool (K V : Type) where
  pool : Pool K V
  phase : PoolPhase

/-- structures.py:367-372 -/
def LifePool.new (threads : Option Nat) : LifePool K V := ⟨Pool.new threads, .running⟩

/-- a call; `get` is `get()` -/
inductive LifeCall (K A V : Type) where
  | map (f : A → Except PyErr (Ret V)) (recs : List (Rec K A)) (asChunks : Bool)
  | close
  | join
  | terminate
  | get

inductive LifeRes (K V : Type) where
  | done (r : Except PyErr Unit)
  | got (r : Except PyErr (Dict K (Ret V)))

/-- structures.py:374-397 `map`: `apply` is called for every record, or for every chunk, and the first call raises if the pool is not
running; `self.chunked` has been set by then (385), `self.results` has not -/
def LifePool.map (ofNat chunkName : Nat → K) (f : A → Except PyErr (Ret V)) (recs : List (Rec K A)) (asChunks : Bool)
    (p : LifePool K V) : Except PyErr Unit × LifePool K V :=
  match p.pool.threads with
  | some n => if p.phase = .running then
      match p.pool.map ofNat chunkName f (.list recs) asChunks with
      | .ok q => (.ok (), { p with pool := q })
      | .error e => (.error e, p)
    else if asChunks then
      let q := { p.pool with chunked := true }
      if (divide n (fillKeys ofNat recs)).isEmpty then (.ok (), { p with pool := { q with results := [] } })
      else (.error .valueError, { p with pool := q })
    else if recs.isEmpty then (.ok (), { p with pool := { p.pool with results := [] } })
    else (.error .valueError, p)
  | none => match p.pool.map ofNat chunkName f (.list recs) asChunks with
    | .ok q => (.ok (), { p with pool := q })
    | .error e => (.error e, p)

/-- structures.py:399-402 `close`; a terminated pool stays so -/
def LifePool.close (p : LifePool K V) : LifePool K V :=
  match p.pool.threads with
  | none => p
  | some _ => if p.phase = .running then { p with phase := .closed } else p

/-- structures.py:404-407 `join` -/
def LifePool.join (p : LifePool K V) : Except PyErr Unit :=
  match p.pool.threads with
  | none => .ok ()
  | some _ => if p.phase = .running then .error .valueError else .ok ()

/-- structures.py:443-446 `terminate` -/
def LifePool.terminate (p : LifePool K V) : LifePool K V :=
  ⟨p.pool.terminate, if p.pool.threads.isSome then .terminated else p.phase⟩

/-- one call -/
def LifePool.step (asDict : Ret V → Option (Dict K (Ret V))) (ofDict : Dict K (Ret V) → Ret V) (ofNat chunkName : Nat → K)
    (p : LifePool K V) : LifeCall K A V → LifeRes K V × LifePool K V
  | .map f recs ch => (.done (p.map ofNat chunkName f recs ch).1, (p.map ofNat chunkName f recs ch).2)
  | .close => (.done (.ok ()), p.close)
  | .join => (.done p.join, p)
  | .terminate => (.done (.ok ()), p.terminate)
  | .get => (.got (p.pool.get asDict ofDict false), p)

/-- calls one after the other -/
def LifePool.play (asDict : Ret V → Option (Dict K (Ret V))) (ofDict : Dict K (Ret V) → Ret V) (ofNat chunkName : Nat → K) :
    LifePool K V → List (LifeCall K A V) → List (LifeRes K V)
  | _, [] => []
  | p, o :: t => (p.step asDict ofDict ofNat chunkName o).1 ::
      LifePool.play asDict ofDict ofNat chunkName (p.step asDict ofDict ofNat chunkName o).2 t

end Verif.Model
