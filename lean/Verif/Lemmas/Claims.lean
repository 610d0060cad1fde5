import Verif.Lemmas.Linear
import Verif.Lemmas.PadOwn
import Verif.Model.Claims
import Verif.Spec.Claims
import Mathlib.Data.List.Nodup
import Mathlib.Data.List.Induction
/-!
# Processes that claim keys of a notepad, as clients of the lock of its index
-/
namespace Verif.Lemmas
open Verif Verif.Model Verif.Spec
variable {E : Env} {α β γ V ρ : Type}

/-! ## the programs -/

theorem try_bind (p : Prog α) (f : α → Prog β) (g : Except PyErr β → Prog γ) :
    (p.bind f).attempt.bind g = p.attempt.bind fun r => match r with
      | .ok a => (f a).attempt.bind g
      | .error e => g (.error e) := by
  unfold Prog.attempt
  induction p with
  | ret a => rfl
  | raise e => rfl
  | stuck => rfl
  | op o k ih => simp only [Prog.bind, Prog.catch_]; congr 1; funext r; exact ih r

theorem try_try (p : Prog α) (f : Except PyErr α → Prog β) (g : Except PyErr β → Prog γ) :
    (p.attempt.bind f).attempt.bind g = p.attempt.bind fun r => (f r).attempt.bind g := by
  unfold Prog.attempt
  induction p with
  | ret a => rfl
  | raise e => rfl
  | stuck => rfl
  | op o k ih => simp only [Prog.bind, Prog.catch_]; congr 1; funext r; exact ih r

theorem try_then (p : Prog α) (f : Except PyErr α → Prog β) (g : β → Prog γ) :
    (p.attempt.bind f).bind g = p.attempt.bind fun r => (f r).bind g := prog_bind_assoc _ _ _

/-- `except FileExistsError: raise KeyError` (implements.py:769) -/
def setErr : Except PyErr α → Except PyErr α
  | .error .fileExists => .error .keyError
  | r => r

/-- `except FileNotFoundError: raise KeyError` (implements.py:784) -/
def delErr : Except PyErr α → Except PyErr α
  | .error .fileNotFound => .error .keyError
  | r => r

/-- an `OverflowError` ends the client -/
def clAfter {κ : Type} (K : Except PyErr β → Cl κ Nat β ρ) (r : Except PyErr β) : Cl κ Nat β ρ :=
  if isOverflow r then .raise .overflowError else K r

/-- a call on a notepad, as what happens inside the lock of its index and outside it -/
def callCl (E : Env) (c : Codec V) (isNone : V → Bool) (p : Pad) (fuel i : Nat) (o : PadCall V)
    (K : Except PyErr (PadOut V) → Cl (Nat × KOp) Nat (PadOut V) ρ) : Cl (Nat × KOp) Nat (PadOut V) ρ :=
  match o with
  | .get k => .free ((PadCall.get k).run E c isNone p) (clAfter K)
  | .keys => .free (PadCall.keys.run E c isNone p) (clAfter K)
  | .set k v eo => .call fuel (i, .add k eo) fun r => match r with
    | .ok _ => .free ((memorize c v (padAddr p.pre k.text) eo).bind fun _ => .ret .done) fun r => clAfter K (setErr r)
    | .error e => clAfter K (setErr (.error e))
  | .del k => .free ((deleteBlock (padAddr p.pre k.text)).bind fun _ => .ret .done) fun r => match r with
    | .ok _ => .call fuel (i, .del k) fun r => match r with
      | .ok _ => clAfter K (.ok .done)
      | .error e => clAfter K (delErr (.error e))
    | .error e => clAfter K (delErr (.error e))

/-- a process as client `i` -/
def claimCl (E : Env) (c : Codec V) (isNone : V → Bool) (p : Pad) (fuel i : Nat) :
    PadScript V ρ → Cl (Nat × KOp) Nat (PadOut V) ρ
  | .ret r => .ret r
  | .raise e => .raise e
  | .call o k => callCl E c isNone p fuel i o fun r => claimCl E c isNone p fuel i (k r)

variable {c : Codec V} {isNone : V → Bool} {p : Pad} {ix : Index} {fuel : Nat}

theorem clAfter_prog {κ : Type} (name : Str) (bodies : κ → Prog Nat) (K : Except PyErr β → Cl κ Nat β ρ)
    (r : Except PyErr β) : (clAfter K r).prog name bodies = afterCall (fun r => (K r).prog name bodies) r := by
  unfold clAfter afterCall
  split <;> rfl

theorem callCl_prog {bodies : Nat × KOp → Prog Nat} (hp : p.index = .tag ix) (hm : p.mode = .sliding fuel) (i : Nat)
    (o : PadCall V) (K : Except PyErr (PadOut V) → Cl (Nat × KOp) Nat (PadOut V) ρ)
    (hset : ∀ k v eo, o = .set k v eo → reserved k = false ∧ bodies (i, .add k eo) = KOp.body E ix (.add k eo))
    (hdel : ∀ k, o = .del k → reservedExact k = false ∧ bodies (i, .del k) = KOp.body E ix (.del k)) :
    (callCl E c isNone p fuel i o K).prog ix.name bodies =
      (o.run E c isNone p).attempt.bind (afterCall fun r => (K r).prog ix.name bodies) := by
  cases o with
  | get k =>
    simp only [callCl, Cl.prog]
    congr 1; funext r
    exact clAfter_prog _ _ _ _
  | keys =>
    simp only [callCl, Cl.prog]
    congr 1; funext r
    exact clAfter_prog _ _ _ _
  | set k v eo =>
    obtain ⟨h1, h2⟩ := hset k v eo rfl
    simp only [callCl, Cl.prog, h2, PadCall.run, padSet, h1, Bool.false_eq_true, if_false]
    rw [← KOp.run_eq (E := E) fuel ix (.add k eo), KOp.run]
    show _ = ((Prog.bind (Prog.attempt (Prog.bind (padIndexAdd E p k false eo) fun _ =>
      Prog.bind (memorize c v (padAddr p.pre k.text) eo) fun _ => .ret ())) _).bind _).attempt.bind _
    rw [try_then, try_try]
    simp only [padIndexAdd, hp, hm, Bool.false_eq_true, if_false]
    show _ = (Prog.bind (Prog.bind (indexAdd E (.sliding fuel) ix k eo) fun _ => .ret ()) _).attempt.bind _
    rw [try_bind, try_bind]
    congr 1; funext r
    cases r with
    | error e =>
      cases e <;> simp only [clAfter_prog, afterCall, isOverflow, setErr] <;> rfl
    | ok n =>
      show Prog.bind (Prog.attempt _) _ = Prog.bind (Prog.attempt (.ret ())) _
      show _ = (Prog.bind (memorize c v (padAddr p.pre k.text) eo) fun _ => .ret ()).attempt.bind _
      rw [try_bind, try_bind]
      congr 1; funext r
      cases r with
      | ok a => simp only [clAfter_prog]; rfl
      | error e => cases e <;> simp only [clAfter_prog, setErr] <;> rfl
  | del k =>
    obtain ⟨h1, h2⟩ := hdel k rfl
    simp only [callCl, Cl.prog, PadCall.run, padDel, h1, Bool.false_eq_true, if_false]
    show _ = ((Prog.bind (Prog.attempt (Prog.bind (deleteBlock (padAddr p.pre k.text)) fun _ =>
      padIndexDel E p k)) _).bind _).attempt.bind _
    rw [try_then, try_try, try_bind, try_bind]
    congr 1; funext r
    cases r with
    | error e => cases e <;> simp only [clAfter_prog, delErr] <;> rfl
    | ok a =>
      simp only [padIndexDel, hp, hm]
      show (Cl.call fuel (i, KOp.del k) _).prog ix.name bodies = (Prog.bind (indexDel E (.sliding fuel) ix k) fun _ => .ret ()).attempt.bind _
      rw [try_bind]
      simp only [Cl.prog, h2]
      rw [← KOp.run_eq (E := E) fuel ix (.del k), KOp.run, try_bind]
      congr 1; funext r
      cases r with
      | ok n => exact clAfter_prog _ _ _ _
      | error e => cases e <;> simp only [clAfter_prog, afterCall, isOverflow, delErr] <;> rfl

/-- the keys that calls may name -/
structure ClaimKeyOK (E : Env) (U : List Str) (k : Key) : Prop where
  hashed : k.hashed E = E.utf8 k.text
  mem : k.text ∈ U

theorem claimCl_prog {bodies : Nat × KOp → Prog Nat} {ok : Key → Prop} {good : V → Prop} (hp : p.index = .tag ix)
    (hm : p.mode = .sliding fuel) (i : Nat) (hr : ∀ k, ok k → ¬ indexWord <+: k.text)
    (hb : ∀ o : KOp, ok o.key → bodies (i, o) = KOp.body E ix o)
    (sc : PadScript V ρ) (held : Str → Prop) (h : sc.Plays ok good held) :
    (claimCl E c isNone p fuel i sc).prog ix.name bodies = sc.run E c isNone p := by
  induction sc generalizing held with
  | ret r => rfl
  | raise e => rfl
  | call o k ih =>
    simp only [claimCl, PadScript.run]
    rw [callCl_prog hp hm]
    · congr 2; funext r
      cases o with
      | get key => exact ih r _ (h r)
      | keys => exact ih r _ (h r)
      | set key v eo =>
        cases eo with
        | true => exact ih r _ (h.2.2.2 r)
        | false =>
          cases r with
          | error e => exact ih _ _ (h.2.2.2 e)
          | ok x => exact ih _ _ (h.2.2.1 x)
      | del key => exact ih r _ (h.2.2 r)
    · rintro key v eo rfl
      cases eo with
      | true => exact ⟨not_reserved (hr _ h.1), hb _ h.1⟩
      | false => exact ⟨not_reserved (hr _ h.1), hb _ h.1⟩
    · rintro key rfl
      exact ⟨not_reservedExact (hr _ h.1), hb _ h.1⟩

/-! ## histories -/

/-- what a call on the index does with keys, when it is part of `set` or `del` -/
def ixGrab : KOp × Except PyErr Nat → Option (Str × Grab)
  | (.add k false, .ok _) => some (k.text, .won)
  | (.add k false, .error _) => some (k.text, .lost)
  | (.add _ true, _) => none
  | (.del k, _) => some (k.text, .gave)

def grabsIn (h : Hist (Nat × KOp) Nat) : List (Str × Grab) := h.filterMap fun x => ixGrab (x.1.2, x.2)

/-- … with the clients -/
def eventsIn (h : Hist (Nat × KOp) Nat) : List (Nat × Str × Grab) :=
  h.filterMap fun x => (ixGrab (x.1.2, x.2)).map fun g => (x.1.1, g)

/-- a client's calls -/
def mine (i : Nat) (H : Hist (Nat × KOp) Nat) : Hist (Nat × KOp) Nat := H.filter fun x => x.1.1 == i

/-- the keys a client has, after one more event -/
def keepKey (T : Str → Bool) (e : Str × Grab) : Str → Bool := match e.2 with
  | .won => fun k => k == e.1 || T k
  | .lost => T
  | .gave => fun k => k != e.1 && T k

/-- the keys a client has -/
def hasKey (h : Hist (Nat × KOp) Nat) : Str → Bool := (grabsIn h).foldl keepKey fun _ => false

theorem hasKey_snoc (h : Hist (Nat × KOp) Nat) (x : (Nat × KOp) × Except PyErr Nat) :
    hasKey (h ++ [x]) = match ixGrab (x.1.2, x.2) with
      | none => hasKey h
      | some e => keepKey (hasKey h) e := by
  unfold hasKey grabsIn
  rw [List.filterMap_append, List.foldl_append]
  cases hx : ixGrab (x.1.2, x.2) <;> simp [hx]

/-- the call is within the rules for one who has the keys `T`, when the keys that `guard` maps to a key may be used by who
has that key -/
def obeys (guard : Str → Option Str) (T : Str → Bool) : KOp → Prop
  | .add _ false => True
  | .add k true => T k.text = true ∨ ∃ m, guard k.text = some m ∧ T m = true
  | .del k => T k.text = true

/-- all calls are within the rules -/
def Disc (guard : Str → Option Str) (h : Hist (Nat × KOp) Nat) : Prop := ∀ a x b, h = a ++ x :: b → obeys guard (hasKey a) x.1.2

variable {guard : Str → Option Str}

theorem disc_nil : Disc guard [] := fun a x b h => by simp at h

theorem disc_pre {h h' : Hist (Nat × KOp) Nat} (hd : Disc guard (h ++ h')) : Disc guard h := fun a x b e =>
  hd a x (b ++ h') (by rw [e]; simp)

theorem disc_last {h : Hist (Nat × KOp) Nat} {x : (Nat × KOp) × Except PyErr Nat} (hd : Disc guard (h ++ [x])) :
    obeys guard (hasKey h) x.1.2 := hd h x [] rfl

theorem disc_snoc {h : Hist (Nat × KOp) Nat} (hd : Disc guard h) {x : (Nat × KOp) × Except PyErr Nat}
    (hx : obeys guard (hasKey h) x.1.2) : Disc guard (h ++ [x]) := by
  intro a y b e
  rcases List.eq_nil_or_concat b with rfl | ⟨b', z, rfl⟩
  · obtain ⟨rfl, e2⟩ := List.append_inj' e rfl
    injection e2 with e2
    rw [← e2]; exact hx
  · have e' : h ++ [x] = (a ++ y :: b') ++ [z] := by rw [e]; simp
    obtain ⟨rfl, _⟩ := List.append_inj' e' rfl
    exact hd a y b' rfl

theorem legal_snoc {h : List (KeyOp × Except PyErr Nat)} {o : KeyOp} {r : Except PyErr Nat} {a b : List Str}
    (hl : Legal (h ++ [(o, r)]) a b) : ∃ c, Legal h a c ∧ r = (ixDo c o).1 ∧ b = (ixDo c o).2 := by
  induction h generalizing a with
  | nil => exact ⟨a, rfl, hl.1, hl.2.symm⟩
  | cons x t ih =>
    obtain ⟨o', r'⟩ := x
    obtain ⟨c, h1, h2⟩ := ih hl.2
    exact ⟨c, ⟨hl.1, h1⟩, h2⟩

theorem legalClaims_append {T T1 T2 : Str → Holder} {a b : List (Nat × Str × Grab)} (h1 : LegalClaims T a T1)
    (h2 : LegalClaims T1 b T2) : LegalClaims T (a ++ b) T2 := by
  induction a generalizing T with
  | nil => cases h1; exact h2
  | cons e t ih =>
    obtain ⟨i, k, g⟩ := e
    cases g <;> exact ⟨h1.1, ih h1.2⟩

theorem mine_snoc (i j : Nat) (H : Hist (Nat × KOp) Nat) (o : KOp) (r : Except PyErr Nat) :
    mine j (H ++ [((i, o), r)]) = if i = j then mine j H ++ [((i, o), r)] else mine j H := by
  unfold mine
  rw [List.filter_append]
  by_cases h : i = j <;> simp [h]

theorem nodup_swapRemove {keys : List Str} (hnd : keys.Nodup) {i : Nat} (hi : i < keys.length) : (swapRemove keys i).Nodup := by
  rw [List.nodup_iff_getElem?_ne_getElem?] at hnd ⊢
  intro a b hab hb
  rw [length_swapRemove hi] at hb
  rw [getElem?_swapRemove hi, getElem?_swapRemove hi, if_pos (by omega), if_pos hb]
  by_cases ha : a = i
  · by_cases hbi : b = i
    · omega
    · rw [if_pos ha, if_neg hbi]; exact (hnd b (keys.length - 1) (by omega) (by omega)).symm
  · by_cases hbi : b = i
    · rw [if_neg ha, if_pos hbi]; exact hnd a (keys.length - 1) (by omega) (by omega)
    · rw [if_neg ha, if_neg hbi]; exact hnd a b hab (by omega)

/-- a history of calls within the rules, as one of claims -/
structure Story (keys0 : List Str) (H : Hist (Nat × KOp) Nat) (keys : List Str) (T : Str → Holder) : Prop where
  claims : LegalClaims (atFirst keys0) (eventsIn H) T
  free : ∀ k, T k = .free ↔ k ∉ keys
  holder : ∀ k i, T k = .by i ↔ hasKey (mine i H) k = true
  before : ∀ k ∈ keys0, T k = .before
  nodup : keys.Nodup

theorem story {keys0 keys : List Str} (h0 : keys0.Nodup) (hg : ∀ k m, guard k = some m → k ∈ keys0) {H : Hist (Nat × KOp) Nat} (hl : Legal (texts H) keys0 keys)
    (hd : ∀ i, Disc guard (mine i H)) : ∃ T, Story keys0 H keys T := by
  induction H using List.reverseRecOn generalizing keys with
  | nil =>
    have hl : keys0 = keys := hl
    subst hl
    refine ⟨atFirst keys0, rfl, fun k => ?_, fun k i => ?_, fun k hk => if_pos hk, h0⟩
    · unfold atFirst; split <;> simp [*]
    · unfold atFirst; split <;> simp [mine, hasKey, grabsIn]
  | append_singleton H x ih =>
    obtain ⟨⟨i, o⟩, r⟩ := x
    rw [texts, List.map_append] at hl
    obtain ⟨ks, l1, l2, l3⟩ := legal_snoc hl
    have hd' : ∀ j, Disc guard (mine j H) := fun j => by
      have := hd j
      rw [mine_snoc] at this
      split at this
      · exact disc_pre this
      · exact this
    obtain ⟨T, st⟩ := ih l1 hd'
    have hob : obeys guard (hasKey (mine i H)) o := by
      have := hd i
      rw [mine_snoc, if_pos rfl] at this
      exact disc_last this
    have hev : eventsIn (H ++ [((i, o), r)]) = eventsIn H ++ ((ixGrab (o, r)).map fun g => (i, g)).toList := by
      unfold eventsIn
      rw [List.filterMap_append]
      cases hx : ixGrab (o, r) <;> simp [hx]
    have hother : ∀ j, j ≠ i → mine j (H ++ [((i, o), r)]) = mine j H := fun j hj => by
      rw [mine_snoc, if_neg (Ne.symm hj)]
    have hself : hasKey (mine i (H ++ [((i, o), r)])) = match ixGrab (o, r) with
      | none => hasKey (mine i H)
      | some e => keepKey (hasKey (mine i H)) e := by
      rw [mine_snoc, if_pos rfl, hasKey_snoc]
    -- nothing changes hands
    have stay : ks = keys → (ixGrab (o, r) = none ∨ ∃ k, ixGrab (o, r) = some (k, .lost) ∧ T k ≠ .free) →
        ∃ T, Story keys0 (H ++ [((i, o), r)]) keys T := by
      intro e hg
      subst e
      refine ⟨T, ?_, st.free, fun k j => ?_, st.before, st.nodup⟩
      · rw [hev]
        rcases hg with hg | ⟨k, hg, hk⟩
        · rw [hg]; simpa using st.claims
        · rw [hg]; exact legalClaims_append st.claims ⟨hk, rfl⟩
      · by_cases hj : j = i
        · subst hj
          rw [hself]
          rcases hg with hg | ⟨k', hg, _⟩
          · rw [hg]; exact st.holder k j
          · rw [hg]; exact st.holder k j
        · rw [hother j hj]; exact st.holder k j
    cases o with
    | add key eo =>
      simp only [KOp.text, ixDo, ixAdd] at l2 l3
      cases hp : position key.text ks with
      | some n =>
        rw [hp] at l2 l3
        have hin : T key.text ≠ .free := fun hc => (st.free _).1 hc (List.mem_of_getElem? (position_some hp))
        cases eo with
        | true => exact stay l3.symm (Or.inl rfl)
        | false =>
          simp only [Bool.false_eq_true, if_false] at l2
          subst l2
          exact stay l3.symm (Or.inr ⟨_, rfl, hin⟩)
      | none =>
        rw [hp] at l2 l3
        simp only at l2 l3
        subst l2
        have hnk := position_none.1 hp
        have hfree : T key.text = .free := (st.free _).2 hnk
        cases eo with
        | true =>
          rcases hob with hob | ⟨m, hm, _⟩
          · have := (st.holder key.text i).2 hob
            rw [hfree] at this
            cases this
          · have := st.before _ (hg _ _ hm)
            rw [hfree] at this
            cases this
        | false =>
          refine ⟨holderPut T key.text (.by i), ?_, fun k => ?_, fun k j => ?_, fun k hk => ?_, ?_⟩
          · rw [hev]; exact legalClaims_append st.claims ⟨hfree, rfl⟩
          · rw [l3]
            unfold holderPut
            by_cases hk : k = key.text
            · simp [hk]
            · rw [if_neg hk, st.free]; simp [hk]
          · unfold holderPut
            by_cases hj : j = i
            · subst hj
              rw [hself]
              simp only [ixGrab, keepKey]
              by_cases hk : k = key.text
              · simp [hk]
              · rw [if_neg hk, st.holder]; simp [hk]
            · rw [hother j hj]
              by_cases hk : k = key.text
              · rw [if_pos hk, hk]
                have : ¬ T key.text = .by j := by rw [hfree]; simp
                rw [st.holder] at this
                simp [this, Ne.symm hj]
              · rw [if_neg hk]; exact st.holder k j
          · have := st.before k hk
            unfold holderPut
            rw [if_neg fun e => by rw [e, hfree] at this; cases this]
            exact this
          · rw [l3, List.nodup_append]
            exact ⟨st.nodup, by simp, fun a ha b hb e => by simp at hb; exact hnk (by rw [← hb, ← e]; exact ha)⟩
    | del key =>
      have hby := (st.holder key.text i).2 hob
      have hin : key.text ∈ ks := by
        by_contra hc
        rw [(st.free _).2 hc] at hby
        cases hby
      obtain ⟨n, hp⟩ := position_mem hin
      simp only [KOp.text, ixDo, ixDel, hp] at l2 l3
      refine ⟨holderPut T key.text .free, ?_, fun k => ?_, fun k j => ?_, fun k hk => ?_, ?_⟩
      · rw [hev]; exact legalClaims_append st.claims ⟨hby, rfl⟩
      · rw [l3, mem_swapRemove_iff st.nodup (position_some hp)]
        unfold holderPut
        by_cases hk : k = key.text
        · simp [hk]
        · rw [if_neg hk, st.free]; simp [hk]
      · unfold holderPut
        by_cases hj : j = i
        · subst hj
          rw [hself]
          simp only [ixGrab, keepKey]
          by_cases hk : k = key.text
          · simp [hk]
          · rw [if_neg hk, st.holder]; simp [hk]
        · rw [hother j hj]
          by_cases hk : k = key.text
          · rw [if_pos hk, hk]
            have : ¬ T key.text = .by j := by rw [hby]; simp [Ne.symm hj]
            rw [st.holder] at this
            simp [this]
          · rw [if_neg hk]; exact st.holder k j
      · have := st.before k hk
        unfold holderPut
        rw [if_neg fun e => by rw [e, hby] at this; cases this]
        exact this
      · rw [l3]; exact nodup_swapRemove st.nodup (position_lt hp)

end Verif.Lemmas
