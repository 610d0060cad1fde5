import Verif.Lemmas.TwoStepLock
import Verif.Lemmas.Linear
/-!
# Concurrent calls on a `TagIndex`, with creation in two steps
-/
namespace Verif.Lemmas
open Verif Verif.Model Verif.Spec
variable {E : Env} {α β γ ρ : Type}

/-! ## the bodies keep to the rules -/

section bodies
variable {A U : Str → Prop} {K : Nat → Prop}

theorem openable_key (name : Str) (n : Nat) : Openable name (keyAddr name n) := .inr (addr_key name n ▸ not_lockNames rfl)
theorem openable_hash (E : Env) (name : Str) (b : Bytes) : Openable name (hashAddr E name b) := .inr (addr_hash E name b ▸ not_lockNames rfl)
theorem notCount_key (name : Str) (n : Nat) : NotCount name (keyAddr name n) := by
  rw [NotCount, addr_key, addr_count]
  exact fun e => nomatch (addr_injective e)
theorem notCount_hash (E : Env) (name : Str) (b : Bytes) : NotCount name (hashAddr E name b) := by
  rw [NotCount, addr_hash, addr_count]
  exact fun e => nomatch (addr_injective e)

theorem keeps_attach {a : Str} (hA : A a) : Keeps A U (fun K' h => K' h ∧ ∀ x, K x → K' x) K (attach a) :=
  ⟨.inl hA, fun r => by cases r with
    | ok h => exact ⟨.inr rfl, fun x hx => .inl hx⟩
    | error e => trivial⟩

theorem keeps_read {h : Nat} (hK : K h) : Keeps A U (fun K' _ => ∀ x, K x → K' x) K (read h) :=
  ⟨hK, fun r => by cases r with
    | ok h => exact fun x hx => hx
    | error e => trivial⟩

theorem keeps_write {h : Nat} {b : Bytes} (hK : K h) : Keeps A U (fun K' _ => ∀ x, K x → K' x) K (write h b) :=
  ⟨hK, fun r => by cases r with
    | ok h => exact fun x hx => hx
    | error e => trivial⟩

theorem keeps_unlink {a : Str} (hU : U a) : Keeps A U (fun K' _ => ∀ x, K x → K' x) K (unlink a) :=
  ⟨hU, fun r => by cases r with
    | ok h => exact fun x hx => hx
    | error e => trivial⟩

theorem keeps_deleteBlock {a : Str} (hA : A a) (hU : U a) (m : Bool) : Keeps A U (fun K' _ => ∀ x, K x → K' x) K (deleteBlock a m) := by
  have hb : Keeps A U (fun K' _ => ∀ x, K x → K' x) K ((attach a).bind fun _ => unlink a) :=
    keeps_bind (keeps_attach (K := K) hA) fun K1 h _ h1 => keeps_mono (fun _ _ _ g1 g2 x hx => g1 x (g2 x (h1.2 x hx))) (fun _ h => h) (keeps_unlink (K := K1) hU)
  have hatt : Keeps A U (fun K' _ => ∀ x, K x → K' x) K ((attach a).bind fun _ => unlink a).attempt :=
    keeps_catch (keeps_bind hb fun K' a _ hq => hq) fun K' e h => h
  refine keeps_bind hatt fun K1 r _ h1 => ?_
  cases r with
  | ok u => exact h1
  | error e =>
    cases e
    case fileExists => cases m <;> first | trivial | exact h1
    all_goals trivial

theorem keeps_intBytes (n m : Nat) : Keeps A U (fun K' _ => ∀ x, K x → K' x) K (intBytes n m) := by
  unfold intBytes
  split
  · exact fun x hx => hx
  · trivial

/-- a program after another, as far as the blocks that may be used are concerned -/
theorem keeps_then {Q : (Nat → Prop) → α → Prop} {f : α → Prog β} {p : Prog α} (h : Keeps A U Q K p)
    (hf : ∀ K' a, (∀ x, K x → K' x) → Q K' a → Keeps A U (fun K'' _ => ∀ x, K' x → K'' x) K' (f a)) :
    Keeps A U (fun K' _ => ∀ x, K x → K' x) K (p.bind f) :=
  keeps_bind h fun K' a h1 h2 => keeps_mono (fun _ _ _ g1 g2 x hx => g1 x (g2 x (h1 x hx))) (fun _ h => h) (hf K' a h1 h2)

theorem keeps_check {ix : Index} (raw : Bytes) (hA : A (hashAddr E ix.name raw)) : Keeps A U (fun K' _ => ∀ x, K x → K' x) K (check E ix raw) := by
  refine keeps_then (keeps_existsBlock _) fun K1 b h1 _ => ?_
  cases b with
  | true =>
    refine keeps_then (keeps_attach hA) fun K2 h _ hh => ?_
    exact keeps_then (keeps_read hh.1) fun K3 b _ _ => fun x hx => hx
  | false => exact fun x hx => hx

variable {ix : Index}

theorem keeps_indexAdd (key : Key) (eo : Bool) (hm : K ix.memory) :
    Keeps (Openable ix.name) (NotCount ix.name) (fun K' _ => ∀ x, K x → K' x) K (indexAdd_ E ix key eo) := by
  refine keeps_then (keeps_check _ (openable_hash ..)) fun K1 r h1 _ => ?_
  cases r with
  | some i => cases eo <;> first | trivial | exact fun x hx => hx
  | none =>
    refine keeps_then (keeps_then (keeps_read (h1 _ hm)) fun K' b _ _ => fun x hx => hx) fun K2 n h2 _ => ?_
    refine keeps_then (keeps_intBytes ..) fun K3 nb h3 _ => ?_
    refine keeps_then (keeps_write (h3 _ (h2 _ (h1 _ hm)))) fun K4 _ h4 _ => ?_
    refine keeps_then (keeps_openBlock (openable_key ..) true true fun _ => notCount_key _ _) fun K5 kh h5 hk => ?_
    refine keeps_then (keeps_write hk.1) fun K6 _ h6 _ => ?_
    refine keeps_then (keeps_intBytes ..) fun K7 pb h7 _ => ?_
    refine keeps_then (keeps_openBlock (openable_hash ..) true false fun h => nomatch h) fun K8 nh h8 hn => ?_
    exact keeps_then (keeps_write hn.1) fun K9 _ h9 _ => fun x hx => hx

theorem keeps_indexDel (key : Key) (hm : K ix.memory) :
    Keeps (Openable ix.name) (NotCount ix.name) (fun K' _ => ∀ x, K x → K' x) K (indexDel_ E ix key) := by
  refine keeps_then (keeps_check _ (openable_hash ..)) fun K1 r h1 _ => ?_
  cases r with
  | none => trivial
  | some found =>
    refine keeps_then (keeps_then (keeps_read (h1 _ hm)) fun K' b _ _ => fun x hx => hx) fun K2 n h2 _ => ?_
    have hm2 := h2 _ (h1 _ hm)
    have tail : ∀ K', (∀ x, K2 x → K' x) → Keeps (Openable ix.name) (NotCount ix.name) (fun K'' _ => ∀ x, K' x → K'' x) K'
        ((deleteBlock (hashAddr E ix.name (key.hashed E))).bind fun _ => (intBytes 8 (n - 1)).bind fun nb =>
          (write ix.memory nb).bind fun _ => pure (f := Prog) (found, n)) := by
      intro K' hK'
      refine keeps_then (keeps_deleteBlock (openable_hash ..) (notCount_hash _ _ _) false) fun K3 _ h3 _ => ?_
      refine keeps_then (keeps_intBytes ..) fun K4 nb h4 _ => ?_
      exact keeps_then (keeps_write (h4 _ (h3 _ (hK' _ hm2)))) fun K5 _ h5 _ => fun x hx => hx
    by_cases hf : found + 1 ≠ n
    · rw [if_pos hf]
      refine keeps_then (keeps_attach (openable_key ..)) fun K3 lh h3 hl => ?_
      refine keeps_then (keeps_read hl.1) fun K4 lastkey h4 _ => ?_
      refine keeps_then (keeps_openBlock (openable_key ..) true true fun _ => notCount_key _ _) fun K5 mh h5 hmh => ?_
      refine keeps_then (keeps_write hmh.1) fun K6 _ h6 _ => ?_
      refine keeps_then (keeps_attach (openable_hash ..)) fun K7 nh h7 hnh => ?_
      refine keeps_then (keeps_intBytes ..) fun K8 fb h8 _ => ?_
      refine keeps_then (keeps_write (h8 _ hnh.1)) fun K9 _ h9 _ => ?_
      refine keeps_then (keeps_unlink (notCount_key _ _)) fun K10 _ h10 _ => ?_
      exact tail K10 fun x hx => h10 x (h9 x (h8 x (h7 x (h6 x (h5 x (h4 x (h3 x hx)))))))
    · rw [if_neg hf]
      exact keeps_then (keeps_deleteBlock (openable_key ..) (notCount_key _ _) false) fun K9 _ h9 _ => tail K9 h9

theorem keeps_body (o : KOp) (hm : K ix.memory) :
    Keeps (Openable ix.name) (NotCount ix.name) (fun _ _ => True) K (KOp.body E ix o) := by
  cases o with
  | add k eo => exact keeps_mono (fun _ _ _ _ _ => trivial) (fun _ h => h) (keeps_indexAdd k eo hm)
  | del k => exact keeps_bind (keeps_indexDel k hm) fun _ _ _ _ => trivial

end bodies

/-! ## prefixes of schedules -/

theorem begun_mem {ps : List (Proc α)} {s : Store} {sched : List Nat} : ∀ i ∈ begun E sched ps s, i ∈ sched := by
  induction sched generalizing ps s with
  | nil => exact fun i h => h
  | cons j t ih =>
    intro i hi
    simp only [begun] at hi
    split at hi
    · exact List.mem_cons_of_mem _ (ih i hi)
    · split at hi
      · exact List.mem_cons_of_mem _ (ih i hi)
      · split at hi
        · rcases List.mem_cons.1 hi with rfl | hi
          · exact List.mem_cons_self ..
          · exact List.mem_cons_of_mem _ (ih i hi)
        · exact List.mem_cons_of_mem _ (ih i hi)

theorem begun_append (a b : List Nat) (ps : List (Proc α)) (s : Store) :
    begun E (a ++ b) ps s = begun E a ps s ++ begun E b (interleave2 E a ps s).1 (interleave2 E a ps s).2 := by
  induction a generalizing ps s with
  | nil => rfl
  | cons j t ih =>
    simp only [List.cons_append, begun, interleave2]
    cases hj : ps[j]? with
    | none => exact ih _ _
    | some p =>
      cases hst : p.step E s with
      | none => simp only [hst]; exact ih _ _
      | some x =>
        obtain ⟨p', s'⟩ := x
        simp only [hst]
        cases p with
        | run q => simp only [List.cons_append, ih]
        | sizing h z k => exact ih _ _
        | mapping h k => exact ih _ _

theorem unnoticed_prefix {a b : List Nat} {ps : List (Proc α)} {s : Store} (h : Unnoticed E (a ++ b) ps s) : Unnoticed E a ps s := by
  induction a generalizing ps s with
  | nil => trivial
  | cons j t ih =>
    obtain ⟨h1, h2⟩ := h
    refine ⟨h1, ?_⟩
    cases hj : ps[j]? with
    | none => simp only [hj] at h2; exact ih h2
    | some p =>
      simp only [hj] at h2
      cases hst : p.step E s with
      | none => simp only [hst] at h2; simp only [hst]; exact ih h2
      | some x => simp only [hst] at h2; simp only [hst]; exact ih h2

/-! ## the calls, one after the other -/

/-- `Linearised` (Verif/Lemmas/Linear.lean), of a run with creation in two steps -/
structure Linearised2 (E : Env) (fuel : Nat) (ix : Index) (keys0 : List Str) (scripts : List (IxScript ρ)) (sched : List Nat)
    (s : Store) (H : List (Nat × KOp × Except PyErr Nat)) (keys : List Str) : Prop where
  legal : Legal (allCalls H) keys0 keys
  clients : ∀ e ∈ H, e.1 < scripts.length
  own : ∀ (i : Nat) (sc : IxScript ρ) (r : ρ), scripts[i]? = some sc →
    (interleave2 E sched (scripts.map fun sc => .run (sc.prog E fuel ix)) s).1[i]? = some (.run (.ret r)) → sc.Follows (ofClient i H) r
  order : ∀ a b, sched = a ++ b → ∃ Ha Hb, H = Ha ++ Hb ∧ (∀ e ∈ Ha, e.1 ∈ a) ∧
    ∀ i r, (interleave2 E a (scripts.map fun sc => .run (sc.prog E fuel ix)) s).1[i]? = some (.run (.ret r)) → ∀ e ∈ Hb, e.1 ≠ i

theorem index_unnoticed {ix : Index} (hok : NamesOK E ix.name) {s : Store} (w : s.WF) {keys0 : List Str} (h : IxRep E s ix keys0)
    {fl : Nat} (hc : LockClean s ix.name fl) (hfl : fl < 256 ^ 5) {U : List Str} (hU : UniverseOK E U) (hk0 : keys0 ⊆ U)
    {fuel : Nat} (hf : fuel + 256 ^ 5 < 256 ^ 8) (scripts : List (IxScript ρ)) (hs : ∀ sc ∈ scripts, sc.Uses (KeyOpOK E U))
    (hcount : (s.names (countAddr ix.name)).isSome = true) (hfull : ∀ n h, s.names n = some h → s.segs h ≠ []) (sched : List Nat)
    (hq : CodeQuietRun E ix.name (begun E sched ((scripts.map (IxScript.prog E fuel ix)).map .run) s) (scripts.map (IxScript.prog E fuel ix)) s) :
    Unnoticed E sched ((scripts.map (IxScript.prog E fuel ix)).map .run) s ∧
      ∀ p ∈ scripts.map (IxScript.prog E fuel ix), Handles (fun x => x = ix.memory) p := by
  let S := ixSetup E ix hok (lockNames ix.name) (fun _ h => h) (offX_lock _) keys0 U hU
  let cls := scripts.mapIdx fun i sc => scriptCl fuel i sc
  have hprog : cls.map (Cl.prog S.name S.bodies) = scripts.map (IxScript.prog E fuel ix) := by
    have : cls.map (Cl.prog S.name S.bodies) = scripts.mapIdx fun i sc => (scriptCl fuel i sc).prog S.name S.bodies := by
      apply List.ext_getElem?
      intro i
      simp only [cls, List.getElem?_map, List.getElem?_mapIdx, Option.map_map]
      rfl
    rw [this]
    exact mapIdx_eq_map _ _ _ fun i sc hi => scriptCl_prog (fun c hc => if_pos hc) fuel i sc (hs sc (List.mem_of_getElem? hi))
  have : Inhabited (Nat × KOp) := ⟨(0, .del (.str []))⟩
  let Q : Nat → Hist (Nat × KOp) Nat → Hist (Nat × KOp) Nat → ρ → Store → Prop := fun i h _ r _ =>
    ∀ sc, scripts[i]? = some sc → sc.Follows (h.map fun x => (x.1.2, x.2)) r
  have nof : ∀ (i : Nat) (sc : IxScript ρ), Cl.NoFree (scriptCl fuel i sc) := by
    intro i sc
    induction sc with
    | ret r => trivial
    | raise e => trivial
    | call o k ih => exact fun r => ih r
  rw [← hprog] at hq ⊢
  refine clients_unnoticed (D := fun _ _ => True) (P := fun _ _ _ => False)
    (ex := fun _ _ => none) (M := fun _ => False) (Q := Q) S
    ⟨fun _ _ _ h => h.elim, fun _ h => h.elim, fun _ _ _ _ _ _ _ h => h.elim, fun _ _ _ _ _ _ h => h.elim⟩ w hc hfl ⟨keys0, h, rfl, hk0⟩
    (fun _ => trivial) (fun _ h => h.elim) cls ?_ ?_ ?_ ?_ hcount hfull sched hq
  · intro i c hi
    simp only [cls, List.getElem?_mapIdx] at hi
    cases hsc : scripts[i]? with
    | none => rw [hsc] at hi; simp at hi
    | some sc =>
      rw [hsc] at hi
      simp only [Option.map_some, Option.some.injEq] at hi
      subst hi
      have := scriptCl_crg (hok := hok) (hl := fun _ h => h) (hX := offX_lock _) (keys0 := keys0) (hU := hU)
        hf i sc sc [] [] s (fun t r ht => ht)
      have e : Q i = fun h _ r (_ : Store) => sc.Follows (h.map fun x => (x.1.2, x.2)) r := by
        funext h _ r _
        simp only [Q, hsc, Option.some.injEq, forall_eq']
      rw [e]
      exact this
  · intro c hc
    obtain ⟨i, sc, _, rfl⟩ : ∃ i sc, scripts[i]? = some sc ∧ scriptCl fuel i sc = c := by
      obtain ⟨i, hi⟩ := List.mem_iff_getElem?.1 hc
      simp only [cls, List.getElem?_mapIdx] at hi
      cases hsc : scripts[i]? with
      | none => rw [hsc] at hi; simp at hi
      | some sc => rw [hsc] at hi; exact ⟨i, sc, hsc, Option.some.inj hi⟩
    exact nof i sc
  · rintro x rfl
    exact w.lt h.mem
  · intro c
    simp only [S, ixSetup]
    split
    · exact keeps_body c.2 rfl
    · trivial

theorem linear2 {ix : Index} (hok : NamesOK E ix.name) {s : Store} (w : s.WF) {keys0 : List Str} (h : IxRep E s ix keys0)
    {fl : Nat} (hc : LockClean s ix.name fl) (hfl : fl < 256 ^ 5) {U : List Str} (hU : UniverseOK E U) (hk0 : keys0 ⊆ U)
    {fuel : Nat} (hf : fuel + 256 ^ 5 < 256 ^ 8) (scripts : List (IxScript ρ)) (hs : ∀ sc ∈ scripts, sc.Uses (KeyOpOK E U))
    (hcount : (s.names (countAddr ix.name)).isSome = true) (hfull : ∀ n h, s.names n = some h → s.segs h ≠ []) (sched : List Nat)
    (hq : CodeQuietRun E ix.name (begun E sched (scripts.map fun sc => .run (sc.prog E fuel ix)) s) (scripts.map (IxScript.prog E fuel ix)) s) :
    ∃ H keys, Linearised2 E fuel ix keys0 scripts sched s H keys ∧
      ((∀ p ∈ (interleave2 E sched (scripts.map fun sc => .run (sc.prog E fuel ix)) s).1, ∃ a, p = .run (.ret a)) →
        IxRep E (interleave2 E sched (scripts.map fun sc => .run (sc.prog E fuel ix)) s).2 ix keys) := by
  have hmap : (scripts.map fun sc => Proc.run (sc.prog E fuel ix)) = (scripts.map (IxScript.prog E fuel ix)).map .run := by
    rw [List.map_map]; rfl
  have hov : ((scripts.map (IxScript.prog E fuel ix)).map Proc.run).map overall = scripts.map (IxScript.prog E fuel ix) := by
    rw [List.map_map]
    exact (List.map_congr_left fun p _ => rfl).trans (List.map_id _)
  rw [hmap] at hq ⊢
  obtain ⟨hu, hh⟩ := index_unnoticed hok w h hc hfl hU hk0 hf scripts hs hcount hfull sched hq
  have hT := two_start (ps := scripts.map (IxScript.prog E fuel ix)) w.lt (K := fun x => x = ix.memory) (by rintro x rfl; exact w.lt h.mem) hh
  have whole : ∀ a, Unnoticed E a ((scripts.map (IxScript.prog E fuel ix)).map .run) s → ∃ s0,
      interleave E (begun E a ((scripts.map (IxScript.prog E fuel ix)).map .run) s) (scripts.map (IxScript.prog E fuel ix)) s =
        ((interleave2 E a ((scripts.map (IxScript.prog E fuel ix)).map .run) s).1.map overall, s0) ∧
      SameButHalf (interleave2 E a ((scripts.map (IxScript.prog E fuel ix)).map .run) s).1
        (interleave2 E a ((scripts.map (IxScript.prog E fuel ix)).map .run) s).2 s0 := by
    intro a ha
    obtain ⟨s0, e, H⟩ := two_interleave (E := E) hT a ha
    rw [hov] at e
    exact ⟨s0, e, H.same⟩
  obtain ⟨H, keys, hl, hrep⟩ := linear hok w h hc hfl hU hk0 hf scripts hs _ hq
  obtain ⟨s0, e0, hsame⟩ := whole sched hu
  refine ⟨H, keys, ⟨hl.legal, hl.clients, ?_, ?_⟩, ?_⟩
  · intro i sc r hi hr
    rw [hmap] at hr
    refine hl.own i sc r hi ?_
    rw [e0, List.getElem?_map, hr]
    rfl
  · intro a b hab
    subst hab
    obtain ⟨Ha, Hb, g1, g2, g3⟩ := hl.order _ _ (begun_append a b _ _)
    refine ⟨Ha, Hb, g1, fun e he => begun_mem _ (g2 e he), fun i r hr => ?_⟩
    rw [hmap] at hr
    obtain ⟨s1, e1, _⟩ := whole a (unnoticed_prefix hu)
    refine g3 i r ?_
    rw [e1, List.getElem?_map, hr]
    rfl
  · intro hret
    have hfin := hrep (by
      rw [e0]
      intro p hp
      obtain ⟨q, hq, rfl⟩ := List.mem_map.1 hp
      obtain ⟨a, rfl⟩ := hret q hq
      exact ⟨a, rfl⟩)
    rw [e0] at hfin
    have : s0 = (interleave2 E sched ((scripts.map (IxScript.prog E fuel ix)).map .run) s).2 := by
      have hseg : s0.segs = _ := funext fun x => hsame.rest x fun i z k e => by
        obtain ⟨a, e'⟩ := hret _ (List.mem_of_getElem? e)
        cases e'
      have h1 := hsame.names
      have h2 := hsame.next
      cases s0
      cases hx : (interleave2 E sched ((scripts.map (IxScript.prog E fuel ix)).map .run) s).2
      simp_all
    rw [← this]
    exact hfin

end Verif.Lemmas
