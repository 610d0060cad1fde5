import Verif.Model.Pool
/-!
# `MaybePool.map` and the caller's records

`/repo/dustgoggles/structures.py`, lines 374-390. The records are dicts of the caller's, and `map` writes the keys it makes
up into them (376). `Model/Pool.lean` has them as values; here they are objects (numbered), so that one may stand twice in
a list or be given to several calls. Of a record, only the key and the packed arguments are kept. The function is taken
not to change the records.
-/
namespace Verif.Model
open Verif

variable {K A V : Type} [DecidableEq K]

/-- the caller's records -/
abbrev Recs (K A : Type) := Nat → Rec K A

/-- structures.py:376 `rec['key'] = rec.get('key', i)` -/
def Recs.fill (ofNat : Nat → K) (h : Recs K A) (r i : Nat) : Recs K A :=
  fun x => if x = r then { h r with key := some ((h r).key.getD (ofNat i)) } else h x

/-- structures.py:375-378, from number `i` on -/
def Recs.fillAll (ofNat : Nat → K) : Recs K A → List Nat → Nat → Recs K A
  | h, [], _ => h
  | h, r :: t, i => Recs.fillAll ofNat (h.fill ofNat r i) t (i + 1)

/-- structures.py:374-390 `MaybePool.map` of a list of records: the pool and the records afterwards (380-390 see them with
their keys) -/
def Pool.mapRecs (ofNat chunkName : Nat → K) (f : A → Except PyErr (Ret V)) (p : Pool K V) (h : Recs K A)
    (recs : List Nat) (asChunks : Bool) : Except PyErr (Pool K V) × Recs K A :=
  let h' := h.fillAll ofNat recs 0
  (p.map ofNat chunkName f (.list (recs.map h')) asChunks, h')

/-- structures.py:449-469 `map_into_pool` -/
def mapRecsIntoPool (asDict : Ret V → Option (Dict K (Ret V))) (ofDict : Dict K (Ret V) → Ret V) (ofNat chunkName : Nat → K)
    (f : A → Except PyErr (Ret V)) (h : Recs K A) (recs : List Nat) (threads : Option Nat) (asChunks : Bool) :
    Except PyErr (Dict K (Ret V)) × Recs K A :=
  ((do
    let p ← ((Pool.new threads).mapRecs ofNat chunkName f h recs asChunks).1
    p.get asDict ofDict false), ((Pool.new (V := V) threads).mapRecs ofNat chunkName f h recs asChunks).2)

end Verif.Model
