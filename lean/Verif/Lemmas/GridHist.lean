import Verif.Lemmas.Grid
import Verif.Lemmas.PadHist
/-! # Histories of calls on GridPapers -/
namespace Verif.Model
open Verif Verif.Spec

/-- a call on a GridPaper by one of its clients; each client has its own object and lock class -/
inductive GridOp where
  | create (mode : LockMode)
  | join (mode : LockMode)
  | set (client : Nat) (key : Key) (a : Arr)
  | get (client : Nat) (key : Key)
  | getD (client : Nat) (key : Key) (default : Arr)
  | del (client : Nat) (key : Key)
  | keys (client : Nat)
  | close (client : Nat)

def GridOp.call : GridOp → GridCall Arr
  | .create _ => .create
  | .join _ => .join
  | .set c k a => .set c k.text a
  | .get c k => .get c k.text
  | .getD c k d => .getD c k.text d
  | .del c k => .del c k.text
  | .keys c => .keys c
  | .close c => .close c

def gridDone : Outcome Unit → GridRes Arr
  | .ok _ => .done (.ok ())
  | .err e => .done (.error e)
  | .stuck => .stuck

def gridValue : Outcome Arr → GridRes Arr
  | .ok v => .value (.ok v)
  | .err e => .value (.error e)
  | .stuck => .stuck

def gridListing : Outcome (List Str) → GridRes Arr
  | .ok l => .listing (.ok l)
  | .err e => .listing (.error e)
  | .stuck => .stuck

/-- what a call on a client's object runs; `gp[key] = a` is `set` with `exists_ok=True` -/
def gridCall (E : Env) (c : Codec ArrMeta) (nbytes : Str → List Nat → Nat) (g : Grid) (s : Store) :
    GridOp → GridRes Arr × Store
  | .set _ key a => (gridDone ((gridSet E c g key a true).run E s).1, ((gridSet E c g key a true).run E s).2)
  | .get _ key => (gridValue ((gridGet E c nbytes g key).run E s).1, ((gridGet E c nbytes g key).run E s).2)
  | .getD _ key d => (gridValue ((gridGetD E c nbytes g key d).run E s).1, ((gridGetD E c nbytes g key d).run E s).2)
  | .del _ key => (gridDone ((gridDel E g key).run E s).1, ((gridDel E g key).run E s).2)
  | .keys _ => (gridListing ((indexUpdate E g.index).run E s).1, ((indexUpdate E g.index).run E s).2)
  | .close _ => (gridDone ((gridClose E g).run E s).1, ((gridClose E g).run E s).2)
  | _ => (.noClient, s)

/-- the client objects after constructing one more -/
def addGrid (cl : List Grid) : Outcome Grid → GridRes Arr × List Grid
  | .ok p => (.done (.ok ()), cl ++ [p])
  | .err e => (.done (.error e), cl)
  | .stuck => (.stuck, cl)

/-- one call on the GridPaper with prefix `pre`: the answer, the client objects in use afterwards (none after a
`close`), the store -/
def stepGrid (E : Env) (c : Codec ArrMeta) (nbytes : Str → List Nat → Nat) (pre : Str) (cl : List Grid) (s : Store)
    (op : GridOp) : GridRes Arr × List Grid × Store :=
  match op with
  | .create mode =>
    let r := (gridInit pre true mode).run E s
    ((addGrid cl r.1).1, (addGrid cl r.1).2, r.2)
  | .join mode =>
    let r := (gridInit pre false mode).run E s
    ((addGrid cl r.1).1, (addGrid cl r.1).2, r.2)
  | op => match op.call.client? with
    | none => (.noClient, cl, s)
    | some n => match cl[n]? with
      | none => (.noClient, cl, s)
      | some g => ((gridCall E c nbytes g s op).1, (match op with | .close _ => [] | _ => cl), (gridCall E c nbytes g s op).2)

/-- a history of calls -/
def playGrid (E : Env) (c : Codec ArrMeta) (nbytes : Str → List Nat → Nat) (pre : Str) :
    List GridOp → List Grid → Store → List (GridRes Arr) × List Grid × Store
  | [], cl, s => ([], cl, s)
  | op :: t, cl, s =>
    let r := stepGrid E c nbytes pre cl s op
    let rest := playGrid E c nbytes pre t r.2.1 r.2.2
    (r.1 :: rest.1, rest.2)

end Verif.Model

namespace Verif.Lemmas
open Verif Verif.Model Verif.Spec
variable {E : Env} {c : Codec ArrMeta} {nbytes : Str → List Nat → Nat}

/-- what a call must satisfy: nonempty text keys in play, arrays that survive, lock loops that run; deletions only
when no client uses a lock -/
def GridOpOK (E : Env) (c : Codec ArrMeta) (nbytes : Str → List Nat → Nat) (pre : Str) (U : Str → Prop) (noLock : Bool) :
    GridOp → Prop
  | .create mode => mode.Runs ∧ (noLock = true → mode = .fake)
  | .join mode => mode.Runs ∧ (noLock = true → mode = .fake)
  | .set _ k a => k.hashed E = E.utf8 k.text ∧ U k.text ∧ ArrOK c nbytes pre k.text a
  | .get _ k => k.hashed E = E.utf8 k.text ∧ U k.text
  | .getD _ k _ => k.hashed E = E.utf8 k.text ∧ U k.text
  | .del _ k => noLock = true ∧ k.hashed E = E.utf8 k.text ∧ U k.text
  | .keys _ => True
  | .close _ => noLock = true

/-- none of the blocks a GridPaper would use exist -/
def NoGrid (s : Store) (pre : Str) : Prop := ∀ x, gridTouch pre x → s.content x = none

/-- the memory represents the state of the GridPaper -/
def GridStRep (E : Env) (c : Codec ArrMeta) (nbytes : Str → List Nat → Nat) (pre : Str) (U : Str → Prop) (noLock : Bool)
    (s : Store) (cl : List Grid) (st : GridState Arr) (t : Nat) : Prop :=
  st.clients = cl.length ∧
  match st.map with
  | none => cl = [] ∧ NoGrid s pre
  | some m => ∃ ix keys f fl, GridRep E c nbytes pre U s ix m keys f fl ∧ fl + keys.length ≤ 2 * t ∧
      ∀ g ∈ cl, g.pre = pre ∧ g.index = ix ∧ g.mode.Runs ∧ (noLock = true → g.mode = .fake)

theorem GridStRep.mono {pre : Str} {U : Str → Prop} {noLock : Bool} {s : Store} {cl : List Grid} {st : GridState Arr}
    {t t' : Nat} (h : GridStRep E c nbytes pre U noLock s cl st t) (ht : t ≤ t') :
    GridStRep E c nbytes pre U noLock s cl st t' := by
  refine ⟨h.1, ?_⟩
  have h2 := h.2
  cases hm : st.map with
  | none => rw [hm] at h2; exact h2
  | some m =>
    rw [hm] at h2
    obtain ⟨ix, keys, f, fl, h1, h2, h3⟩ := h2
    exact ⟨ix, keys, f, fl, h1, by omega, h3⟩

theorem run_indexClose {name : Str} {s1 : Store} (w1 : s1.WF) {ix : Index} (hn : ix.name = name) (hok : NamesOK E name)
    (hm1 : s1.names name = some ix.memory) :
    ∃ s2, (indexClose ix).run E s1 = (.ok (), s2) ∧ s2.WF ∧
      (∀ x, s2.content x = if x = name ∨ x = countAddr name then none else s1.content x) ∧
      SameOff (fun x => x = name ∨ x = countAddr name) s1 s2 := by
  subst hn
  have f2 := eff_unlinked w1 ix.name
  have hcm : countAddr ix.name ≠ ix.name := by
    intro he
    have := addr_injective ((addr_count _).symm.trans (he.trans (addr_mem _)))
    simp at this
  cases hcn : s1.names (countAddr ix.name) with
  | none =>
    refine ⟨s1.unlinked ix.name, ?_, f2.wf, fun x => ?_, f2.sameOff (Or.inl rfl)⟩
    · rw [indexClose, run_bind, run_unlink hm1, andThen_ok, run_bind, run_existsBlock _ hok.count, andThen_ok,
        f2.names _ hcm, hcn]
      rfl
    · rw [f2.content]
      by_cases h1 : x = ix.name
      · rw [if_pos h1, if_pos (Or.inl h1)]
      · rw [if_neg h1]
        by_cases h2 : x = countAddr ix.name
        · rw [if_pos (Or.inr h2), h2]; exact content_none.2 hcn
        · rw [if_neg (by simp [h1, h2])]
  | some i =>
    have hcn2 : (s1.unlinked ix.name).names (countAddr ix.name) = some i := by
      rw [f2.names _ hcm]; exact hcn
    have f3 := eff_unlinked f2.wf (countAddr ix.name)
    refine ⟨_, ?_, f3.wf, fun x => ?_, (f2.sameOff (Or.inl rfl)).trans (f3.sameOff (Or.inr rfl))⟩
    · rw [indexClose, run_bind, run_unlink hm1, andThen_ok, run_bind, run_existsBlock _ hok.count, andThen_ok, hcn2]
      simp only [Option.isSome_some, if_true]
      rw [run_bind, run_attach hok.count hcn2, andThen_ok, run_unlink hcn2]
    · rw [f3.content, f2.content]
      by_cases h2 : x = countAddr ix.name
      · rw [if_pos h2, if_pos (Or.inr h2)]
      · rw [if_neg h2]
        by_cases h1 : x = ix.name
        · rw [if_pos h1, if_pos (Or.inl h1)]
        · rw [if_neg h1, if_neg (by simp [h1, h2])]

theorem run_gridClose {pre : Str} {U : Str → Prop} (hU : KeysOK E pre U) (hok : NamesOK E (indexName pre))
    {ix : Index} {g : Grid} (hg : g.pre = pre) (hgi : g.index = ix) (hm : g.mode = .fake) {s : Store} (w : s.WF)
    {m : Str → Option (Arr × Nat)} {keys : List Str} {f : Str → Option Bytes} {fl : Nat}
    (h : GridRep E c nbytes pre U s ix m keys f fl) :
    ∃ s', (gridClose E g).run E s = (.ok (), s') ∧ s'.WF ∧ NoGrid s' pre ∧ SameOff (gridTouch pre) s s' := by
  obtain ⟨s1, keys1, e1, w1, h1, hf1, hs1⟩ := run_gridDelAll hU hok hg hgi hm keys h.rep.rep.nodup w h (fun _ => Iff.rfl)
  have hk1 : keys1 = [] := by
    cases hk : keys1 with
    | nil => rfl
    | cons k t => exact absurd rfl ((h1.live k).1 (by rw [hk]; exact List.mem_cons_self))
  subst hk1
  have hok' : NamesOK E ix.name := by rw [h.name]; exact hok
  obtain ⟨s2, e2, w2, hc2, hs2⟩ := run_indexClose (E := E) w1 h.name hok (by rw [← h.name]; exact h1.rep.rep.mem)
  refine ⟨s2, ?_, w2, ?_, hs1.trans (hs2.mono ?_)⟩
  · rw [gridClose, hgi, run_bind, run_indexUpdate h.rep.rep hok', andThen_ok, run_bind, e1, andThen_ok, e2]
  · intro x ht
    rw [hc2]
    by_cases hx : x = indexName pre ∨ x = countAddr (indexName pre)
    · rw [if_pos hx]
    · rw [if_neg hx]
      rcases ht with ⟨sl, rfl⟩ | ⟨k, hk, rfl⟩
      · cases sl with
        | mem => exact absurd (Or.inl (addr_mem _).symm) hx
        | count => exact absurd (Or.inr rfl) hx
        | hash hh => rw [← h.name]; exact h1.rep.rep.nohash hh (by simp)
        | key i => rw [← addr_key, ← h.name]; exact h1.rep.rep.nokey i (by simp)
        | val i => rw [← addr_val, ← h.name]; exact h1.rep.noval i (by simp)
        | marker n => exact h1.lock.marker n
        | lock n => exact h1.lock.lock n
      · exact h1.noval k hk rfl
  · rintro x (hx | hx)
    · exact Or.inl ⟨.mem, by rw [hx]; exact addr_mem _⟩
    · exact Or.inl ⟨.count, hx⟩

/-- one call gives a right answer, does what it should, and touches nothing else -/
theorem stepGrid_spec {pre : Str} {U : Str → Prop} {noLock : Bool} (hU : KeysOK E pre U) (hok : NamesOK E (indexName pre))
    {s : Store} (w : s.WF) {cl : List Grid} {st : GridState Arr} {t : Nat}
    (h : GridStRep E c nbytes pre U noLock s cl st t) (ht : 2 * t + 2 < 256 ^ 5) (op : GridOp)
    (hop : GridOpOK E c nbytes pre U noLock op) :
    gridAnswer (fun a => a.data.length) st op.call (stepGrid E c nbytes pre cl s op).1 ∧
      (stepGrid E c nbytes pre cl s op).2.2.WF ∧
      GridStRep E c nbytes pre U noLock (stepGrid E c nbytes pre cl s op).2.2 (stepGrid E c nbytes pre cl s op).2.1
        (gridNext (fun a => a.data.length) st op.call) (t + 1) ∧
      SameOff (gridTouch pre) s (stepGrid E c nbytes pre cl s op).2.2 := by
  obtain ⟨n, map⟩ := st
  obtain ⟨hn, h2⟩ := h
  simp only at hn h2
  subst hn
  cases map with
  | none =>
    simp only at h2
    obtain ⟨rfl, hno⟩ := h2
    cases op with
    | create mode =>
      obtain ⟨ix, s', e', hname, w', h', hc', hs'⟩ := run_metaIndexInit_create (E := E) w
        (fun sl => hno _ (Or.inl ⟨sl, rfl⟩)) hok
      have e : (gridInit pre true mode).run E s = (.ok ⟨pre, ix, mode⟩, s') := by
        rw [gridInit, run_bind, e']; rfl
      simp only [stepGrid, e, addGrid, gridAnswer, gridNext, GridOp.call, GridState.has, GridCall.client?, if_true]
      refine ⟨trivial, w', ⟨rfl, ix, [], _, 0, ⟨hname, h', hc', by simp, by simp, by simp, by simp, ?_, by simp, by simp⟩,
        by simp, ?_⟩, hs'.mono ?_⟩
      · intro k hk _
        rw [(hs' _ (pad_not_index hU hk rfl)).2]
        exact hno _ (Or.inr ⟨k, hk, rfl⟩)
      · intro p hp
        simp only [List.nil_append, List.mem_singleton] at hp
        subst hp
        exact ⟨rfl, rfl, hop.1, hop.2⟩
      · rintro x (⟨sl, _, hx⟩ | ⟨sl, _, hx⟩) <;> exact Or.inl ⟨sl, hx⟩
    | join mode =>
      have := run_tagIndexInit_missing (E := E) (hno (indexName pre) (Or.inl ⟨.mem, addr_mem _⟩)) hok
      have e : (gridInit pre false mode).run E s = (.err .fileNotFound, s) := by
        rw [gridInit, run_bind, metaIndexInit, run_bind, this]; rfl
      simp only [stepGrid, e, addGrid, gridAnswer, gridNext, GridOp.call, GridState.has, GridCall.client?, if_true]
      exact ⟨trivial, w, ⟨rfl, rfl, hno⟩, SameOff.refl _ _⟩
    | _ =>
      simp only [stepGrid, GridOp.call, GridCall.client?, List.getElem?_nil, gridAnswer, gridNext, GridState.has,
        List.length_nil, Nat.not_lt_zero, decide_false, Bool.false_eq_true, if_false]
      exact ⟨trivial, w, ⟨rfl, rfl, hno⟩, SameOff.refl _ _⟩
  | some m =>
    obtain ⟨ix, keys, f, fl, hrep, hfl, hcl⟩ := h2
    have hok' : NamesOK E ix.name := by rw [hrep.name]; exact hok
    have stay : GridStRep E c nbytes pre U noLock s cl ⟨cl.length, some m⟩ (t + 1) :=
      ⟨rfl, ix, keys, f, fl, hrep, by omega, hcl⟩
    have gone : ∀ (op : GridOp) (n : Nat), op.call.client? = some n → ¬ n < cl.length →
        stepGrid E c nbytes pre cl s op = (.noClient, cl, s) →
        gridAnswer (fun a : Arr => a.data.length) ⟨cl.length, some m⟩ op.call (stepGrid E c nbytes pre cl s op).1 ∧
        (stepGrid E c nbytes pre cl s op).2.2.WF ∧
        GridStRep E c nbytes pre U noLock (stepGrid E c nbytes pre cl s op).2.2 (stepGrid E c nbytes pre cl s op).2.1
          (gridNext (fun a => a.data.length) ⟨cl.length, some m⟩ op.call) (t + 1) ∧
        SameOff (gridTouch pre) s (stepGrid E c nbytes pre cl s op).2.2 := by
      intro op n h1 h2 h3
      have hh : GridState.has (⟨cl.length, some m⟩ : GridState Arr) op.call = false := by
        simp [GridState.has, h1, h2]
      rw [h3]
      simp only [gridAnswer, gridNext, hh, Bool.false_eq_true, if_false]
      exact ⟨trivial, w, stay, SameOff.refl _ _⟩
    cases op with
    | create mode =>
      have := run_tagIndexInit_exists hrep.rep.rep hok'
      have e : (gridInit pre true mode).run E s = (.err .fileExists, s) := by
        rw [gridInit, run_bind, ← hrep.name, metaIndexInit, run_bind, this]; rfl
      simp only [stepGrid, e, addGrid, gridAnswer, gridNext, GridOp.call, GridState.has, GridCall.client?, if_true,
        gridMapAnswer, gridMapNext]
      exact ⟨trivial, w, stay, SameOff.refl _ _⟩
    | join mode =>
      have := run_metaIndexInit_attach hrep.rep.rep hok'
      have e : (gridInit pre false mode).run E s = (.ok ⟨pre, ix, mode⟩, s) := by
        rw [gridInit, run_bind, ← hrep.name, this]; rfl
      simp only [stepGrid, e, addGrid, gridAnswer, gridNext, GridOp.call, GridState.has, GridCall.client?, if_true,
        gridMapAnswer, gridMapNext]
      refine ⟨trivial, w, ⟨by simp, ix, keys, f, fl, hrep, by omega, ?_⟩, SameOff.refl _ _⟩
      intro p hp
      rcases List.mem_append.1 hp with hp | hp
      · exact hcl p hp
      · simp only [List.mem_singleton] at hp
        subst hp
        exact ⟨rfl, rfl, hop.1, hop.2⟩
    | set n key a =>
      by_cases hn : n < cl.length
      · obtain ⟨hg, hgi, hm, _⟩ := hcl cl[n] (List.getElem_mem hn)
        obtain ⟨hk, hUk, ha⟩ := hop
        obtain ⟨s', keys', f', fl', e, w', h', hf', hs'⟩ := run_gridSet hU hok w hrep (by omega) hg hgi hm hk hUk ha true
          (Or.inl rfl)
        simp only [stepGrid, GridOp.call, GridCall.client?, List.getElem?_eq_getElem hn, gridCall, e, gridAnswer, gridNext,
          GridState.has, hn, decide_true, if_true, gridMapAnswer, gridMapNext]
        refine ⟨?_, w', ⟨rfl, ix, keys', f', fl', h', by omega, hcl⟩, hs'⟩
        cases (gridStore (fun a : Arr => a.data.length) m key.text a).1 <;> rfl
      · exact gone _ n rfl hn (by
          simp only [stepGrid, GridOp.call, GridCall.client?, List.getElem?_eq_none (Nat.not_lt.1 hn)])
    | get n key =>
      by_cases hn : n < cl.length
      · obtain ⟨hg, hgi, hm, _⟩ := hcl cl[n] (List.getElem_mem hn)
        have e := run_gridGet hU hok hrep hgi hop.1 hop.2
        simp only [stepGrid, GridOp.call, GridCall.client?, List.getElem?_eq_getElem hn, gridCall, e, gridAnswer, gridNext,
          GridState.has, hn, decide_true, if_true, gridMapAnswer, gridMapNext]
        exact ⟨by cases m key.text <;> rfl, w, stay, SameOff.refl _ _⟩
      · exact gone _ n rfl hn (by
          simp only [stepGrid, GridOp.call, GridCall.client?, List.getElem?_eq_none (Nat.not_lt.1 hn)])
    | getD n key d =>
      by_cases hn : n < cl.length
      · obtain ⟨hg, hgi, hm, _⟩ := hcl cl[n] (List.getElem_mem hn)
        have e := run_gridGetD hU hok hrep hgi hop.1 hop.2 d
        simp only [stepGrid, GridOp.call, GridCall.client?, List.getElem?_eq_getElem hn, gridCall, e, gridAnswer, gridNext,
          GridState.has, hn, decide_true, if_true, gridMapAnswer, gridMapNext]
        exact ⟨by cases m key.text <;> rfl, w, stay, SameOff.refl _ _⟩
      · exact gone _ n rfl hn (by
          simp only [stepGrid, GridOp.call, GridCall.client?, List.getElem?_eq_none (Nat.not_lt.1 hn)])
    | del n key =>
      by_cases hn : n < cl.length
      · obtain ⟨hg, hgi, hm, hfake⟩ := hcl cl[n] (List.getElem_mem hn)
        obtain ⟨hnl, hk, hUk⟩ := hop
        obtain ⟨s', keys', e, w', h', hf', hs'⟩ := run_gridDel hU hok w hrep hg hgi (hfake hnl) hk hUk
        simp only [stepGrid, GridOp.call, GridCall.client?, List.getElem?_eq_getElem hn, gridCall, e, gridAnswer, gridNext,
          GridState.has, hn, decide_true, if_true, gridMapAnswer, gridMapNext]
        exact ⟨by split <;> rfl, w', ⟨rfl, ix, keys', f, fl, h', by omega, hcl⟩, hs'⟩
      · exact gone _ n rfl hn (by
          simp only [stepGrid, GridOp.call, GridCall.client?, List.getElem?_eq_none (Nat.not_lt.1 hn)])
    | keys n =>
      by_cases hn : n < cl.length
      · obtain ⟨hg, hgi, hm, _⟩ := hcl cl[n] (List.getElem_mem hn)
        have e := run_indexUpdate hrep.rep.rep hok'
        simp only [stepGrid, GridOp.call, GridCall.client?, List.getElem?_eq_getElem hn, gridCall, hgi, e, gridAnswer,
          gridNext, GridState.has, hn, decide_true, if_true, gridMapAnswer, gridMapNext]
        exact ⟨⟨keys, rfl, hrep.rep.rep.nodup, hrep.live⟩, w, stay, SameOff.refl _ _⟩
      · exact gone _ n rfl hn (by
          simp only [stepGrid, GridOp.call, GridCall.client?, List.getElem?_eq_none (Nat.not_lt.1 hn)])
    | close n =>
      by_cases hn : n < cl.length
      · obtain ⟨hg, hgi, hm, hfake⟩ := hcl cl[n] (List.getElem_mem hn)
        obtain ⟨s', e, w', h', hs'⟩ := run_gridClose hU hok hg hgi (hfake hop) w hrep
        simp only [stepGrid, GridOp.call, GridCall.client?, List.getElem?_eq_getElem hn, gridCall, e, gridAnswer, gridNext,
          GridState.has, hn, decide_true, if_true, gridMapAnswer, gridMapNext]
        exact ⟨rfl, w', ⟨rfl, rfl, h'⟩, hs'⟩
      · exact gone _ n rfl hn (by
          simp only [stepGrid, GridOp.call, GridCall.client?, List.getElem?_eq_none (Nat.not_lt.1 hn)])

theorem playGrid_spec {pre : Str} {U : Str → Prop} {noLock : Bool} (hU : KeysOK E pre U) (hok : NamesOK E (indexName pre))
    (ops : List GridOp) (hops : ∀ o ∈ ops, GridOpOK E c nbytes pre U noLock o) (cl : List Grid) (s : Store) (w : s.WF)
    (st : GridState Arr) (t : Nat) (h : GridStRep E c nbytes pre U noLock s cl st t) (ht : 2 * (t + ops.length) < 256 ^ 5) :
    gridAnswersOK (fun a => a.data.length) st (ops.map GridOp.call) (playGrid E c nbytes pre ops cl s).1 ∧
      (playGrid E c nbytes pre ops cl s).2.2.WF ∧
      GridStRep E c nbytes pre U noLock (playGrid E c nbytes pre ops cl s).2.2 (playGrid E c nbytes pre ops cl s).2.1
        (gridEnd (fun a => a.data.length) st (ops.map GridOp.call)) (t + ops.length) ∧
      SameOff (gridTouch pre) s (playGrid E c nbytes pre ops cl s).2.2 := by
  induction ops generalizing cl s st t with
  | nil => exact ⟨trivial, w, h, SameOff.refl _ _⟩
  | cons op r ih =>
    simp only [List.length_cons] at ht
    obtain ⟨h1, w1, hst, hs⟩ := stepGrid_spec hU hok w h (by omega) op (hops op List.mem_cons_self)
    obtain ⟨h2, w2, hst2, hs2⟩ := ih (fun o ho => hops o (List.mem_cons_of_mem _ ho)) _ _ w1 _ (t + 1) hst (by omega)
    simp only [playGrid, List.map_cons, gridAnswersOK, gridEnd, List.length_cons]
    refine ⟨⟨h1, h2⟩, w2, ?_, hs.trans hs2⟩
    rw [show t + (r.length + 1) = t + 1 + r.length by omega]
    exact hst2

end Verif.Lemmas
