import Verif.Py.Err
import Verif.Py.Str
/-!
# What an index is for: an ordered list of distinct keys

`add` appends; `remove` moves the last key into the hole.
-/
namespace Verif.Spec
open Verif

/-- position of a key -/
def position (k : Str) : List Str → Option Nat
  | [] => none
  | x :: t => if x = k then some 0 else (position k t).map (· + 1)

/-- `add`: outcome and new list -/
def ixAdd (keys : List Str) (k : Str) (existsOk : Bool) : Except PyErr Nat × List Str :=
  match position k keys with
  | some i => (if existsOk then .ok i else .error .fileExists, keys)
  | none => (.ok keys.length, keys ++ [k])

/-- the list without the key at `i`, the last key having taken its place -/
def swapRemove (keys : List Str) (i : Nat) : List Str :=
  match keys.getLast? with
  | none => keys
  | some l => (keys.set i l).dropLast

/-- `remove`: outcome and new list -/
def ixDel (keys : List Str) (k : Str) : Except PyErr Nat × List Str :=
  match position k keys with
  | some i => (.ok i, swapRemove keys i)
  | none => (.error .keyError, keys)

end Verif.Spec

namespace Verif.Spec
open Verif

/-- a call on an index, by one of its clients; keys by their text -/
inductive IxCall where
  | add (client : Nat) (k : Str) (existsOk : Bool)
  | del (client : Nat) (k : Str)
  | list (client : Nat)
  | join

/-- what a call gives its caller -/
inductive IxResult where
  | position (r : Except PyErr Nat)
  | listing (keys : List Str)
  | joined
  | noClient
  | stuck
  | other (e : PyErr)

/-- results of a history of calls on a list of distinct keys shared by `n` clients -/
def ixPlay : List IxCall → Nat → List Str → List IxResult × List Str
  | [], _, keys => ([], keys)
  | .join :: t, n, keys => (.joined :: (ixPlay t (n + 1) keys).1, (ixPlay t (n + 1) keys).2)
  | .add c k eo :: t, n, keys =>
    if c < n then (.position (ixAdd keys k eo).1 :: (ixPlay t n (ixAdd keys k eo).2).1, (ixPlay t n (ixAdd keys k eo).2).2)
    else (.noClient :: (ixPlay t n keys).1, (ixPlay t n keys).2)
  | .del c k :: t, n, keys =>
    if c < n then (.position (ixDel keys k).1 :: (ixPlay t n (ixDel keys k).2).1, (ixPlay t n (ixDel keys k).2).2)
    else (.noClient :: (ixPlay t n keys).1, (ixPlay t n keys).2)
  | .list c :: t, n, keys =>
    if c < n then (.listing keys :: (ixPlay t n keys).1, (ixPlay t n keys).2)
    else (.noClient :: (ixPlay t n keys).1, (ixPlay t n keys).2)

end Verif.Spec
