import Verif.Lemmas.Listing
/-!
# Processes that add keys to an index and list it

Every process knows a growing beginning of the list of keys; every step of every process keeps what the others know.
-/
namespace Verif.Lemmas
open Verif Verif.Model Verif.Spec
variable {E : Env} {α β ρ : Type} {s s' : Store} {ix : Index} {U keys0 : List Str} {fuel : Nat}

/-- a key is added that can be stored -/
def AddOK (E : Env) (U : List Str) (o : KOp) : Prop := KeyOpOK E U o ∧ ∃ k eo, o = .add k eo

/-- a call, as what happens inside the lock and outside it -/
def lsCallCl (E : Env) (ix : Index) (fuel i : Nat) (o : LsCall) (K : Except PyErr LsOut → Cl (Nat × KOp) Nat LsOut ρ) :
    Cl (Nat × KOp) Nat LsOut ρ :=
  match o with
  | .op o => .call fuel (i, o) fun r => match r with
    | .ok n => clAfter K (.ok (.pos n))
    | .error e => clAfter K (.error e)
  | .keys => .free (LsCall.keys.run E fuel ix) (clAfter K)

def lsCl (E : Env) (ix : Index) (fuel i : Nat) : LsScript ρ → Cl (Nat × KOp) Nat LsOut ρ
  | .ret r => .ret r
  | .raise e => .raise e
  | .call o k => lsCallCl E ix fuel i o fun r => lsCl E ix fuel i (k r)

theorem lsCl_prog {bodies : Nat × KOp → Prog Nat} {ok : KOp → Prop} (i : Nat)
    (hb : ∀ o, ok o → bodies (i, o) = KOp.body E ix o) (sc : LsScript ρ) (h : sc.Uses ok) :
    (lsCl E ix fuel i sc).prog ix.name bodies = sc.run E fuel ix := by
  induction sc with
  | ret r => rfl
  | raise e => rfl
  | call o k ih =>
    cases o with
    | keys =>
      simp only [lsCl, lsCallCl, Cl.prog, LsScript.run]
      congr 1; funext r
      rw [clAfter_prog]
      congr 1; funext r
      exact ih r (h r)
    | op o =>
      simp only [lsCl, lsCallCl, Cl.prog, LsScript.run, LsCall.run, hb o h.1, ← KOp.run_eq]
      rw [try_bind]
      congr 1; funext r
      cases r with
      | ok n =>
        show (clAfter _ _).prog ix.name bodies = Prog.bind (Prog.attempt (.ret (LsOut.pos n))) _
        rw [clAfter_prog]
        exact congrArg (fun f => afterCall f _) (funext fun r => ih r (h.2 r))
      | error e =>
        have := ih (.error e) (h.2 _)
        cases e <;> simp only [clAfter_prog, afterCall, isOverflow] <;> first | rfl | exact this

open Classical in
/-- processes that add keys -/
noncomputable def lsSetup (E : Env) (ix : Index) (hok : NamesOK E ix.name) (keys0 U : List Str) (hU : UniverseOK E U)
    (hnb : NoBlanks U) : Setup E (Nat × KOp) Nat where
  name := ix.name
  namesOK := hok
  X := lockNames ix.name
  lockX := fun _ h => h
  bodies := fun c => if AddOK E U c.2 then KOp.body E ix c.2 else .stuck
  who := Prod.fst
  adm := fun H => ∃ keys, Legal (texts H) keys0 keys
  J := fun H s => ∃ keys, IxRep E s ix keys ∧ Legal (texts H) keys0 keys ∧ keys ⊆ U
  stable := fun H s s' ⟨keys, h1, h2⟩ hr => ⟨keys, h1.rely (offX_lock _) hr, h2⟩
  rel := fun _ _ _ _ => True
  rel_X := fun _ _ _ _ _ => trivial
  rel_trans := fun _ _ _ _ _ _ _ => trivial
  ever := Grow E ix U
  ever_X := fun _ _ hr => grow_X (offX_lock _) hr
  ever_trans := fun _ _ _ h1 h2 => h1.trans h2
  body := fun c H s w ⟨keys, h1, h2, h3⟩ => by
    by_cases ho : AddOK E U c.2
    · rw [if_pos ho]
      have hbody := lrg_mono (lrg_body w h1 hok (offX_lock _) hU h3 ho.1) (Q := fun r s' =>
          ∃ keys, IxRep E s' ix keys ∧ Legal (texts (H ++ [(c, r)])) keys0 keys ∧ keys ⊆ U) (by
        intro r s' hr
        refine ⟨_, hr.2, ?_, ixDo_sub h3 ho.1⟩
        rw [texts, List.map_append, hr.1]
        exact legal_append h2 _)
      obtain ⟨i, o⟩ := c
      obtain ⟨ho1, k, eo, rfl⟩ := ho
      have hgrow := grow_indexAdd (U := U) w h1 hok (offX_lock _) h3 hnb ho1.hashed ho1.nonempty ho1.mem (fun hn => by
          have h4 := nodup_sub_length (l := k.text :: keys) (List.nodup_cons.2 ⟨hn, h1.nodup⟩)
            (List.cons_subset.2 ⟨ho1.mem, h3⟩)
          have := hU.size
          simp only [List.length_cons] at h4
          omega) (fun k' hk' => hU.inj k' (h3 hk') _ ho1.mem) eo
      exact rg_mono (fun _ _ h => h) (fun _ _ h => ⟨h.1, fun _ _ => trivial, h.2⟩) (fun _ _ h => h.1) (rg_and hbody hgrow)
    · rw [if_neg ho]; trivial
  adm_of := fun H s ⟨keys, _, h2, _⟩ => ⟨keys, h2⟩
  adm_prefix := fun H H' ⟨keys, h⟩ => by
    rw [texts, List.map_append] at h
    exact legal_prefix h

theorem lsSeen_snoc {v v1 v2 : List Str} {calls : List (LsCall × Except PyErr LsOut)} {o : LsCall} {r : Except PyErr LsOut}
    (h : LsSeen v calls v1) (hs : LsStep v1 o r v2) : LsSeen v (calls ++ [(o, r)]) v2 := by
  induction calls generalizing v with
  | nil => cases h; exact ⟨v2, hs, rfl⟩
  | cons x t ih =>
    obtain ⟨o', r'⟩ := x
    obtain ⟨w, h1, h2⟩ := h
    exact ⟨w, h1, ih h2⟩

/-- how a process ends: it made calls with the outcomes they should have, and what it has seen is there -/
def LsEnd (E : Env) (ix : Index) (keys0 U : List Str) (sc : LsScript ρ) (r : ρ) (s : Store) : Prop :=
  ∃ calls v, sc.Follows calls r ∧ LsSeen keys0 calls v ∧ HasSeen E ix U s v

/-- a process, whatever the others do -/
theorem ls_crg {hok : NamesOK E ix.name} {hU : UniverseOK E U} {hnb : NoBlanks U} (hf : fuel + 256 ^ 5 < 256 ^ 8) (i : Nat)
    (sc0 sc : LsScript ρ) (h L : Hist (Nat × KOp) Nat) (calls : List (LsCall × Except PyErr LsOut)) (v : List Str) (s : Store)
    (w : s.WF) (huse : sc.Uses (AddOK E U)) (hseen : LsSeen keys0 calls v) (hv : HasSeen E ix U s v)
    (hfol : ∀ t r, sc.Follows t r → sc0.Follows (calls ++ t) r) :
    CRG (lsSetup E ix hok keys0 U hU hnb) (fun _ _ => True) (fun _ _ => False) (fun _ _ => none) i
      (fun _ _ r s => LsEnd E ix keys0 U sc0 r s) (lsCl E ix fuel i sc) h L s := by
  induction sc generalizing h L calls v s with
  | ret r => exact fun s' hr => ⟨calls, v, by simpa using hfol [] r rfl, hseen, hv.grow hr.2.2⟩
  | raise e => trivial
  | call o k ih =>
    have fol : ∀ x t r, (k x).Follows t r → sc0.Follows ((calls ++ [(o, x)]) ++ t) r := fun x t r ht => by
      have := hfol ((o, x) :: t) r ⟨rfl, ht⟩
      simpa using this
    cases o with
    | keys =>
      refine rg_mono (R := RGrow E ix U) (G := Still) (Q := fun r s' => ∃ l, r = .ok (.keys l) ∧ s'.WF ∧ ListIs E ix U v 0 (.ok l) s')
        (fun a b hr => ⟨hr.1.1, hr.2.2⟩) (fun a b hg => by rw [hg]; exact gLock_refl _) ?_ ?_
      · rintro r s1 ⟨l, rfl, w1, v', p1, k1, hl⟩
        refine crg_after fun _ => ih (.ok (.keys l)) h L _ v' s1 w1 (huse _) (lsSeen_snoc (o := .keys) (r := .ok (.keys l)) hseen ⟨p1, l, rfl, ?_⟩) k1 (fol _)
        rw [List.drop_zero] at hl
        rcases hl with hl | ⟨b, hb, hl⟩
        · injection hl with hl; exact Or.inl hl
        · injection hl with hl; exact Or.inr ⟨b, hb, hl⟩
      · refine rgw_bind w (rg_update hok w hv) ?_ ?_
        · rintro l s1 w1 ⟨v', p1, k1, hl⟩
          exact fun s2 r2 => ⟨l, rfl, r2.1, v', p1, k1.grow r2.2, hl⟩
        · rintro e s1 ⟨_, _, _, hl | ⟨_, _, hl⟩⟩ <;> cases hl
    | op o =>
      obtain ⟨⟨hko, key, eo, rfl⟩, huse⟩ := huse
      refine ⟨rfl, hf, fun r s1 H hr hg ha he hL hd hJ => ⟨trivial, fun _ hx => hx.elim, fun _ => ?_⟩⟩
      obtain ⟨keys, hrep, hleg, hsub⟩ := hJ
      have k1 := knows_of_rep hrep hsub
      have p1 := (hv.grow hg).prefix_rep hrep
      rw [texts, List.map_append] at hleg
      obtain ⟨m, _, h1, h2⟩ := legal_snoc hleg
      simp only [KOp.text, ixDo, ixAdd] at h1 h2
      cases hp : position key.text m with
      | some n =>
        rw [hp] at h1 h2
        simp only at h1 h2
        subst h2
        cases eo with
        | true =>
          simp only [if_true] at h1
          subst h1
          exact crg_after fun _ => ih (.ok (.pos n)) _ _ _ keys s1 hr.1 (huse _)
            (lsSeen_snoc hseen ⟨p1, Or.inl ⟨n, rfl, position_some hp⟩⟩) k1 (fol _)
        | false =>
          simp only [Bool.false_eq_true, if_false] at h1
          subst h1
          exact crg_after fun _ => ih (.error .fileExists) _ _ _ keys s1 hr.1 (huse _)
            (lsSeen_snoc hseen ⟨p1, Or.inr ⟨rfl, rfl, List.mem_of_getElem? (position_some hp)⟩⟩) k1 (fol _)
      | none =>
        rw [hp] at h1 h2
        simp only at h1 h2
        subst h2; subst h1
        exact crg_after fun _ => ih (.ok (.pos m.length)) _ _ _ _ s1 hr.1 (huse _)
          (lsSeen_snoc hseen ⟨p1, Or.inl ⟨m.length, rfl, by simp⟩⟩) k1 (fol _)

/-- all processes -/
theorem lsClients (hok : NamesOK E ix.name) (hU : UniverseOK E U) (hnb : NoBlanks U) {s : Store} (w : s.WF)
    (hrep : IxRep E s ix keys0) (h0 : keys0 ⊆ U) {fl : Nat} (hc : LockClean s ix.name fl) (hfl : fl < 256 ^ 5)
    (hf : fuel + 256 ^ 5 < 256 ^ 8) (scripts : List (LsScript ρ)) (hs : ∀ sc ∈ scripts, sc.Uses (AddOK E U)) (sched : List Nat)
    (hq : CodeQuietRun E ix.name sched (scripts.map (LsScript.run E fuel ix)) s) :
    (∀ (i : Nat) sc r, scripts[i]? = some sc →
      (interleave E sched (scripts.map (LsScript.run E fuel ix)) s).1[i]? = some (.ret r) →
      LsEnd E ix keys0 U sc r (interleave E sched (scripts.map (LsScript.run E fuel ix)) s).2) ∧
    ((∀ q ∈ (interleave E sched (scripts.map (LsScript.run E fuel ix)) s).1, ∃ a, q = .ret a) →
      ∃ keys, keys ⊆ U ∧ IxRep E (interleave E sched (scripts.map (LsScript.run E fuel ix)) s).2 ix keys) := by
  let S := lsSetup E ix hok keys0 U hU hnb
  let cls := scripts.mapIdx fun i sc => lsCl E ix fuel i sc
  have hprog : cls.map (Cl.prog S.name S.bodies) = scripts.map (LsScript.run E fuel ix) := by
    have : cls.map (Cl.prog S.name S.bodies) = scripts.mapIdx fun i sc => (lsCl E ix fuel i sc).prog S.name S.bodies := by
      apply List.ext_getElem?
      intro i
      simp only [cls, List.getElem?_map, List.getElem?_mapIdx, Option.map_map]
      rfl
    rw [this]
    exact mapIdx_eq_map _ _ _ fun i sc hi => lsCl_prog i (fun o ho => if_pos ho) sc (hs sc (List.mem_of_getElem? hi))
  have : Inhabited (Nat × KOp) := ⟨(0, .del (.str []))⟩
  let Q : Nat → Hist (Nat × KOp) Nat → Hist (Nat × KOp) Nat → ρ → Store → Prop := fun i _ _ r s =>
    ∀ sc, scripts[i]? = some sc → LsEnd E ix keys0 U sc r s
  rw [← hprog] at hq
  obtain ⟨H, _, _, _, _, hown, hJ, _⟩ := clients (D := fun _ _ => True) (P := fun _ _ _ => False)
    (ex := fun _ _ => none) (M := fun _ => False) (Q := Q) S
    ⟨fun _ _ _ h => h.elim, fun _ h => h.elim, fun _ _ _ _ _ _ _ h => h.elim, fun _ _ _ _ _ _ h => h.elim⟩ w hc hfl
    ⟨keys0, hrep, rfl, h0⟩ (fun _ => trivial) (fun _ h => h.elim) cls (by
      intro i c hi
      simp only [cls, List.getElem?_mapIdx] at hi
      cases hsc : scripts[i]? with
      | none => rw [hsc] at hi; simp at hi
      | some sc =>
        rw [hsc] at hi
        simp only [Option.map_some, Option.some.injEq] at hi
        subst hi
        have := ls_crg (hok := hok) (keys0 := keys0) (hU := hU) (hnb := hnb) hf i sc sc [] [] [] keys0 s w
          (hs sc (List.mem_of_getElem? hsc)) rfl (knows_of_rep hrep h0) (fun t r ht => ht)
        have e : Q i = fun _ _ r s => LsEnd E ix keys0 U sc r s := by
          funext h _ r s
          simp only [Q, hsc, Option.some.injEq, forall_eq']
        rw [e]
        exact this) sched hq
  rw [hprog] at hown hJ
  refine ⟨fun i sc r h1 h2 => ?_, fun hret => ?_⟩
  · obtain ⟨_, _, _, hq'⟩ := hown i r h2
    exact hq' sc h1
  · obtain ⟨⟨keys, h1, _, h3⟩, _⟩ := hJ hret
    exact ⟨keys, h3, h1⟩

end Verif.Lemmas
