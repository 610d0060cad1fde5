import Verif.Lemmas.LockClients
import Verif.Lemmas.RGDel
import Verif.Lemmas.TagIndexHist
import Verif.Spec.Linear
import Mathlib.Data.List.Perm.Subperm
/-!
# Concurrent calls on a `TagIndex` with the default lock, one after the other
-/
namespace Verif.Lemmas
open Verif Verif.Model Verif.Spec
variable {E : Env} {α β γ ρ : Type}

theorem prog_bind_assoc (p : Prog α) (f : α → Prog β) (g : β → Prog γ) :
    (p.bind f).bind g = p.bind fun a => (f a).bind g := by
  induction p with
  | ret a => rfl
  | raise e => rfl
  | stuck => rfl
  | op o k ih => simp only [Prog.bind]; congr 1; funext r; exact ih r

/-- the outcome of a program whose result is mapped -/
theorem attempt_map (p : Prog α) (f : α → β) :
    (p.bind fun a => .ret (f a)).attempt = p.attempt.bind fun r => .ret (r.map f) := by
  unfold Prog.attempt
  induction p with
  | ret a => rfl
  | raise e => rfl
  | stuck => rfl
  | op o k ih => simp only [Prog.bind, Prog.catch_]; congr 1; funext r; exact ih r

theorem ofExcept_map (r : Except PyErr α) (f : α → β) :
    (Prog.ofExcept r).bind (fun a => .ret (f a)) = Prog.ofExcept (r.map f) := by cases r <;> rfl

theorem withLock_map (mode : LockMode) (name : Str) (body : Prog α) (f : α → β) :
    (withLock mode name body).bind (fun a => .ret (f a)) = withLock mode name (body.bind fun a => .ret (f a)) := by
  cases mode with
  | fake => rfl
  | sliding fuel =>
    show ((lockEnter fuel name).bind fun h => body.attempt.bind fun r => (lockRelease name h).bind fun _ => Prog.ofExcept r).bind _ =
      (lockEnter fuel name).bind fun h => (body.bind fun a => .ret (f a)).attempt.bind fun r =>
        (lockRelease name h).bind fun _ => Prog.ofExcept r
    rw [prog_bind_assoc]
    congr 1; funext h
    rw [prog_bind_assoc, attempt_map, prog_bind_assoc]
    congr 1; funext r
    rw [prog_bind_assoc]
    show _ = (lockRelease name h).bind fun _ => Prog.ofExcept (r.map f)
    congr 1; funext u
    exact ofExcept_map r f

/-- an exception caught and raised again -/
theorem attempt_rethrow (p : Prog α) : p.attempt.bind (afterCall Prog.ofExcept) = p := by
  unfold Prog.attempt
  induction p with
  | ret a => rfl
  | raise e => cases e <;> rfl
  | stuck => rfl
  | op o k ih => simp only [Prog.bind, Prog.catch_]; congr 1; funext r; exact ih r

theorem interleave_length (sched : List Nat) (ps : List (Prog α)) (s : Store) :
    (interleave E sched ps s).1.length = ps.length := by
  induction sched generalizing ps s with
  | nil => rfl
  | cons i t ih =>
    simp only [interleave]
    cases hi : ps[i]? with
    | none => exact ih _ _
    | some p =>
      cases hs : p.step E s with
      | none => simp only [hs]; exact ih _ _
      | some x => simp only [hs]; rw [ih]; simp

/-- the code of a call inside the lock -/
def KOp.body (E : Env) (ix : Index) : KOp → Prog Nat
  | .add k eo => indexAdd_ E ix k eo
  | .del k => (indexDel_ E ix k).bind fun p => .ret p.1

theorem KOp.run_eq (fuel : Nat) (ix : Index) (o : KOp) :
    o.run E fuel ix = withLock (.sliding fuel) ix.name (KOp.body E ix o) := by
  cases o with
  | add k eo => rfl
  | del k => exact withLock_map _ _ _ _

/-- the call by the text of its key -/
def KOp.text : KOp → KeyOp
  | .add k eo => .add k.text eo
  | .del k => .del k.text

/-- a call on a key that can be stored -/
structure KeyOpOK (E : Env) (U : List Str) (o : KOp) : Prop where
  hashed : o.key.hashed E = E.utf8 o.key.text
  nonempty : o.key.text ≠ []
  mem : o.key.text ∈ U

/-- a set of keys that the digest separates, small enough for the length field -/
structure UniverseOK (E : Env) (U : List Str) : Prop where
  inj : ∀ a ∈ U, ∀ b ∈ U, E.sha (E.utf8 a) = E.sha (E.utf8 b) → a = b
  size : U.length < 256 ^ 8

theorem legal_append {h : List (KeyOp × Except PyErr Nat)} {a b : List Str} (hl : Legal h a b) (o : KeyOp) :
    Legal (h ++ [(o, (ixDo b o).1)]) a (ixDo b o).2 := by
  induction h generalizing a with
  | nil => cases hl; exact ⟨rfl, rfl⟩
  | cons x t ih => obtain ⟨o', r⟩ := x; exact ⟨hl.1, ih hl.2⟩

theorem legal_prefix {h h' : List (KeyOp × Except PyErr Nat)} {a b : List Str} (hl : Legal (h ++ h') a b) :
    ∃ c, Legal h a c := by
  induction h generalizing a with
  | nil => exact ⟨a, rfl⟩
  | cons x t ih =>
    obtain ⟨o', r⟩ := x
    obtain ⟨c, hc⟩ := ih hl.2
    exact ⟨c, hl.1, hc⟩

theorem position_mem {k : Str} {keys : List Str} (h : k ∈ keys) : ∃ i, position k keys = some i := by
  cases hp : position k keys with
  | none => exact absurd h (position_none.1 hp)
  | some i => exact ⟨i, rfl⟩

/-- a call inside the lock does what it should -/
theorem lrg_body {X : Str → Prop} {s : Store} (w : s.WF) {ix : Index} {keys U : List Str} (h : IxRep E s ix keys)
    (hok : NamesOK E ix.name) (hX : OffX ix.name X) (hU : UniverseOK E U) (hsub : keys ⊆ U) {o : KOp} (ho : KeyOpOK E U o) :
    LRG E X (fun r s' => r = (ixDo keys (KOp.text o)).1 ∧ IxRep E s' ix (ixDo keys (KOp.text o)).2)
      (KOp.body E ix o) s := by
  have habs : o.key.text ∉ keys → ∀ k' ∈ keys, E.sha (E.utf8 k') ≠ E.sha (E.utf8 o.key.text) :=
    fun hn k' hk' e => hn (hU.inj k' (hsub hk') _ ho.mem e ▸ hk')
  cases o with
  | add key eo =>
    simp only [KOp.text, ixDo, ixAdd, KOp.body]
    cases hp : position key.text keys with
    | some i =>
      cases eo with
      | true => exact lrg_mono (lrg_indexAddOld w h hok hX ho.hashed (position_some hp)) fun r s' h' => ⟨h'.1, h'.2.2⟩
      | false => exact lrg_mono (lrg_indexAddRefused w h hok hX ho.hashed (position_some hp)) fun r s' h' => ⟨h'.1, h'.2.2⟩
    | none =>
      have hin := position_none.1 hp
      have hlen : keys.length + 1 ≤ U.length := by
        have hnd : (keys ++ [key.text]).Nodup := by
          rw [List.nodup_append]
          refine ⟨h.nodup, by simp, ?_⟩
          intro a ha b hb' e
          simp at hb'
          subst hb'; subst e; exact hin ha
        have hss : keys ++ [key.text] ⊆ U := by
          intro k hk
          rcases List.mem_append.1 hk with h | h
          · exact hsub h
          · simp at h; rw [h]; exact ho.mem
        have := (List.subperm_of_subset hnd hss).length_le
        simpa using this
      have hb := hU.size
      exact lrg_mono (lrg_indexAddNew w h hok hX ho.hashed ho.nonempty (by omega) (habs hin) eo) fun r s' h' => ⟨h'.1, h'.2.2⟩
  | del key =>
    simp only [KOp.text, ixDo, ixDel, KOp.body]
    cases hp : position key.text keys with
    | some i =>
      refine lrg_bind w (lrg_indexDelSome w h hok hX ho.hashed (position_some hp)) ?_ (fun e s' h => by simp at h)
      rintro p s1 w1 ⟨h1, _, h3⟩
      injection h1 with h1
      subst h1
      exact lrg_pure fun s' hr => ⟨rfl, h3.rely hX hr⟩
    | none =>
      refine lrg_bind w (lrg_indexDelNone w h hok hX ho.hashed (habs (position_none.1 hp))) ?_ ?_
      · rintro p s1 w1 ⟨h1, _⟩
        simp at h1
      · rintro e s' ⟨h1, h2⟩
        injection h1 with h1
        exact ⟨by simp only [h1], h2.2⟩

theorem ixDo_sub {keys U : List Str} {o : KOp} (h : keys ⊆ U) (ho : KeyOpOK E U o) : (ixDo keys (KOp.text o)).2 ⊆ U := by
  intro k hk
  cases o with
  | add key eo =>
    simp only [KOp.text, ixDo, ixAdd] at hk
    cases hp : position key.text keys with
    | some i => rw [hp] at hk; exact h hk
    | none =>
      rw [hp] at hk
      rcases List.mem_append.1 hk with hk | hk
      · exact h hk
      · simp at hk; rw [hk]; exact ho.mem
  | del key =>
    simp only [KOp.text, ixDo, ixDel] at hk
    cases hp : position key.text keys with
    | some i => rw [hp] at hk; exact h (mem_swapRemove (position_lt hp) hk)
    | none => rw [hp] at hk; exact h hk

/-- the calls of a history, without the clients -/
def texts (H : Hist (Nat × KOp) Nat) : List (KeyOp × Except PyErr Nat) := H.map fun x => (KOp.text x.1.2, x.2)

open Classical in
/-- clients of an index, over blocks `X` that are not the index's own -/
noncomputable def ixSetup (E : Env) (ix : Index) (hok : NamesOK E ix.name) (X : Str → Prop)
    (hl : ∀ x, lockNames ix.name x → X x) (hX : OffX ix.name X) (keys0 U : List Str) (hU : UniverseOK E U) :
    Setup E (Nat × KOp) Nat where
  name := ix.name
  namesOK := hok
  X := X
  lockX := hl
  bodies := fun c => if KeyOpOK E U c.2 then KOp.body E ix c.2 else .stuck
  who := Prod.fst
  adm := fun H => ∃ keys, Legal (texts H) keys0 keys
  J := fun H s => ∃ keys, IxRep E s ix keys ∧ Legal (texts H) keys0 keys ∧ keys ⊆ U
  stable := fun H s s' ⟨keys, h1, h2⟩ hr => ⟨keys, h1.rely hX hr, h2⟩
  rel := fun _ _ _ _ => True
  rel_X := fun _ _ _ _ _ => trivial
  rel_trans := fun _ _ _ _ _ _ _ => trivial
  ever := fun _ _ => True
  ever_X := fun _ _ _ => trivial
  ever_trans := fun _ _ _ _ _ => trivial
  body := fun c H s w ⟨keys, h1, h2, h3⟩ => by
    refine body_any ?_
    by_cases ho : KeyOpOK E U c.2
    · rw [if_pos ho]
      refine lrg_mono (lrg_body w h1 hok hX hU h3 ho) fun r s' hr => ⟨_, hr.2, ?_, ixDo_sub h3 ho⟩
      rw [texts, List.map_append, hr.1]
      exact legal_append h2 _
    · rw [if_neg ho]; trivial
  adm_of := fun H s ⟨keys, _, h2, _⟩ => ⟨keys, h2⟩
  adm_prefix := fun H H' ⟨keys, h⟩ => by
    rw [texts, List.map_append] at h
    exact legal_prefix h

/-- a script as client `i` -/
def scriptCl (fuel i : Nat) : IxScript ρ → Cl (Nat × KOp) Nat Unit ρ
  | .ret r => .ret r
  | .raise e => .raise e
  | .call o k => .call fuel (i, o) fun r => scriptCl fuel i (k r)

theorem scriptCl_prog {ix : Index} {U : List Str} {bodies : Nat × KOp → Prog Nat}
    (hb : ∀ c, KeyOpOK E U c.2 → bodies c = KOp.body E ix c.2) (fuel i : Nat) (sc : IxScript ρ) (h : sc.Uses (KeyOpOK E U)) :
    (scriptCl fuel i sc).prog ix.name bodies = sc.prog E fuel ix := by
  induction sc with
  | ret r => rfl
  | raise e => rfl
  | call o k ih =>
    simp only [scriptCl, Cl.prog, IxScript.prog, KOp.run_eq, hb (i, o) h.1]
    congr 2; funext r
    exact ih r (h.2 r)

/-- a script, whatever the others do: it makes calls until it ends -/
theorem scriptCl_crg {ix : Index} {hok : NamesOK E ix.name} {X : Str → Prop} {hl : ∀ x, lockNames ix.name x → X x}
    {hX : OffX ix.name X} {keys0 U : List Str} {hU : UniverseOK E U} {fuel : Nat}
    (hf : fuel + 256 ^ 5 < 256 ^ 8) (i : Nat) (sc0 sc : IxScript ρ) (h L : Hist (Nat × KOp) Nat) (s : Store)
    (hfol : ∀ t r, sc.Follows t r → sc0.Follows (h.map (fun x => (x.1.2, x.2)) ++ t) r) :
    CRG (ixSetup E ix hok X hl hX keys0 U hU) (fun _ _ => True) (fun _ _ => False) (fun _ _ => none) i
      (fun h _ r _ => sc0.Follows (h.map fun x => (x.1.2, x.2)) r) (scriptCl fuel i sc) h L s := by
  induction sc generalizing h L s with
  | ret r =>
    intro s' _
    have := hfol [] r rfl
    simpa using this
  | raise e => trivial
  | call o k ih =>
    refine ⟨rfl, hf, fun r s' H _ _ _ _ _ _ _ => ⟨trivial, fun _ hx => hx.elim, fun _ => ih r _ _ _ fun t r' ht => ?_⟩⟩
    have := hfol ((o, r) :: t) r' ⟨rfl, ht⟩
    simpa using this

theorem mapIdx_eq_map {γ δ : Type} (l : List γ) (f : Nat → γ → δ) (g : γ → δ) (h : ∀ i x, l[i]? = some x → f i x = g x) :
    l.mapIdx f = l.map g := by
  apply List.ext_getElem?
  intro i
  rw [List.getElem?_mapIdx, List.getElem?_map]
  cases hi : l[i]? with
  | none => rfl
  | some x => simp [h i x hi]

/-- the calls of client `i` -/
def ofClient (i : Nat) (H : List (Nat × KOp × Except PyErr Nat)) : List (KOp × Except PyErr Nat) :=
  (H.filter fun e => e.1 == i).map fun e => e.2

/-- the calls of all clients, as one sequence -/
def allCalls (H : List (Nat × KOp × Except PyErr Nat)) : List (KeyOp × Except PyErr Nat) :=
  H.map fun e => (KOp.text e.2.1, e.2.2)

/-- The interleaved calls have the outcomes of some sequence of the same calls, one after the other, which respects the
order of each client's own calls, and has every call of a client that had returned before any call of a client that had
not yet moved. -/
structure Linearised (E : Env) (fuel : Nat) (ix : Index) (keys0 : List Str) (scripts : List (IxScript ρ)) (sched : List Nat)
    (s : Store) (H : List (Nat × KOp × Except PyErr Nat)) (keys : List Str) : Prop where
  legal : Legal (allCalls H) keys0 keys
  clients : ∀ e ∈ H, e.1 < scripts.length
  own : ∀ (i : Nat) (sc : IxScript ρ) (r : ρ), scripts[i]? = some sc →
    (interleave E sched (scripts.map (IxScript.prog E fuel ix)) s).1[i]? = some (.ret r) → sc.Follows (ofClient i H) r
  order : ∀ a b, sched = a ++ b → ∃ Ha Hb, H = Ha ++ Hb ∧ (∀ e ∈ Ha, e.1 ∈ a) ∧
    ∀ i r, (interleave E a (scripts.map (IxScript.prog E fuel ix)) s).1[i]? = some (.ret r) → ∀ e ∈ Hb, e.1 ≠ i

theorem linear {ix : Index} (hok : NamesOK E ix.name) {s : Store} (w : s.WF) {keys0 : List Str} (h : IxRep E s ix keys0)
    {fl : Nat} (hc : LockClean s ix.name fl) (hfl : fl < 256 ^ 5) {U : List Str} (hU : UniverseOK E U) (hk0 : keys0 ⊆ U)
    {fuel : Nat} (hf : fuel + 256 ^ 5 < 256 ^ 8) (scripts : List (IxScript ρ)) (hs : ∀ sc ∈ scripts, sc.Uses (KeyOpOK E U))
    (sched : List Nat) (hq : CodeQuietRun E ix.name sched (scripts.map (IxScript.prog E fuel ix)) s) :
    ∃ H keys, Linearised E fuel ix keys0 scripts sched s H keys ∧
      ((∀ p ∈ (interleave E sched (scripts.map (IxScript.prog E fuel ix)) s).1, ∃ a, p = .ret a) →
        IxRep E (interleave E sched (scripts.map (IxScript.prog E fuel ix)) s).2 ix keys) := by
  let S := ixSetup E ix hok (lockNames ix.name) (fun _ h => h) (offX_lock _) keys0 U hU
  let cls := scripts.mapIdx fun i sc => scriptCl fuel i sc
  have hprog : cls.map (Cl.prog S.name S.bodies) = scripts.map (IxScript.prog E fuel ix) := by
    have : cls.map (Cl.prog S.name S.bodies) = scripts.mapIdx fun i sc => (scriptCl fuel i sc).prog S.name S.bodies := by
      apply List.ext_getElem?
      intro i
      simp only [cls, List.getElem?_map, List.getElem?_mapIdx, Option.map_map]
      rfl
    rw [this]
    exact mapIdx_eq_map _ _ _ fun i sc hi => scriptCl_prog (fun c hc => if_pos hc) fuel i sc (hs sc (List.mem_of_getElem? hi))
  have : Inhabited (Nat × KOp) := ⟨(0, .del (.str []))⟩
  let Q : Nat → Hist (Nat × KOp) Nat → Hist (Nat × KOp) Nat → ρ → Store → Prop := fun i h _ r _ =>
    ∀ sc, scripts[i]? = some sc → sc.Follows (h.map fun x => (x.1.2, x.2)) r
  rw [← hprog] at hq
  obtain ⟨H, ⟨keys, hl⟩, _, hord, hout, hown, hJ, _⟩ := clients (D := fun _ _ => True) (P := fun _ _ _ => False)
    (ex := fun _ _ => none) (M := fun _ => False) (Q := Q) S
    ⟨fun _ _ _ h => h.elim, fun _ h => h.elim, fun _ _ _ _ _ _ _ h => h.elim, fun _ _ _ _ _ _ h => h.elim⟩ w hc hfl ⟨keys0, h, rfl, hk0⟩
    (fun _ => trivial) (fun _ h => h.elim) cls (by
      intro i c hi
      simp only [cls, List.getElem?_mapIdx] at hi
      cases hsc : scripts[i]? with
      | none => rw [hsc] at hi; simp at hi
      | some sc =>
        rw [hsc] at hi
        simp only [Option.map_some, Option.some.injEq] at hi
        subst hi
        have := scriptCl_crg (hok := hok) (hl := fun _ h => h) (hX := offX_lock _) (keys0 := keys0) (hU := hU)
          hf i sc sc [] [] s (fun t r ht => ht)
        have e : Q i = fun h _ r (_ : Store) => sc.Follows (h.map fun x => (x.1.2, x.2)) r := by
          funext h _ r _
          simp only [Q, hsc, Option.some.injEq, forall_eq']
        rw [e]
        exact this) sched hq
  rw [hprog] at hord hown hJ
  let H' : List (Nat × KOp × Except PyErr Nat) := H.map fun x => (x.1.1, x.1.2, x.2)
  have hrestr : ∀ i (H : Hist (Nat × KOp) Nat), ofClient i (H.map fun x => (x.1.1, x.1.2, x.2)) =
      (S.restrict i H).map fun x => (x.1.2, x.2) := by
    intro i H
    simp only [ofClient, Setup.restrict, List.filter_map, List.map_map]
    rfl
  have hall : ∀ (H : Hist (Nat × KOp) Nat), allCalls (H.map fun x => (x.1.1, x.1.2, x.2)) = texts H := by
    intro H
    simp only [allCalls, texts, List.map_map]
    rfl
  have hlen : cls.length = scripts.length := by simp [cls]
  have mem_restr : ∀ x ∈ H, x ∈ S.restrict x.1.1 H := fun x hx => List.mem_filter.2 ⟨hx, by simp [S, ixSetup]⟩
  have lin : ∀ keys, Legal (texts H) keys0 keys → Linearised E fuel ix keys0 scripts sched s H' keys := by
    intro keys hl
    refine ⟨by rw [hall]; exact hl, ?_, ?_, ?_⟩
    · intro e he
      obtain ⟨x, hx, rfl⟩ := List.mem_map.1 he
      by_contra hn
      have := hout x.1.1 (by rw [hlen]; simp only at hn; omega)
      have hm := mem_restr x hx
      rw [this] at hm
      simp at hm
    · intro i sc r hi hr
      rw [hrestr]
      obtain ⟨_, _, _, hq'⟩ := hown i r hr
      exact hq' sc hi
    · intro a b hab
      obtain ⟨Ha, _, ⟨Hb, hp⟩, h2, h3⟩ := hord a b hab
      refine ⟨Ha.map fun x => (x.1.1, x.1.2, x.2), Hb.map fun x => (x.1.1, x.1.2, x.2), ?_, ?_, ?_⟩
      · simp only [H', ← hp, List.map_append]
      · intro e he
        obtain ⟨x, hx, rfl⟩ := List.mem_map.1 he
        by_contra hn
        have := h2 x.1.1 hn
        have hm : x ∈ S.restrict x.1.1 Ha := List.mem_filter.2 ⟨hx, by simp [S, ixSetup]⟩
        rw [this] at hm
        simp [Setup.restrict] at hm
      · intro i r hr e he
        obtain ⟨x, hx, rfl⟩ := List.mem_map.1 he
        intro hxi
        have := h3 i r hr
        rw [← hp, Setup.restrict, Setup.restrict, List.filter_append] at this
        have hnil : Hb.filter (fun y => S.who y.1 == i) = [] := by
          have := congrArg List.length this
          rw [List.length_append] at this
          exact List.eq_nil_of_length_eq_zero (by omega)
        have hm : x ∈ Hb.filter (fun y => S.who y.1 == i) := List.mem_filter.2 ⟨hx, by simpa [S, ixSetup] using hxi⟩
        rw [hnil] at hm
        simp at hm
  by_cases hret : ∀ p ∈ (interleave E sched (scripts.map (IxScript.prog E fuel ix)) s).1, ∃ a, p = .ret a
  · obtain ⟨⟨keys', h1, h2, _⟩, _⟩ := hJ hret
    exact ⟨H', keys', lin keys' h2, fun _ => h1⟩
  · exact ⟨H', keys, lin keys hl, fun h => absurd h hret⟩

end Verif.Lemmas
