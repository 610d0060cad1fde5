import Verif.Lemmas.ClaimRun
import Verif.Model.Sections
import Verif.Spec.Sections
/-!
# Processes that claim a key in order to use others, as clients of the lock of the index
-/
namespace Verif.Lemmas
open Verif Verif.Model Verif.Spec
variable {E : Env} {κ τ α β γ V ρ : Type}

/-! ## calls with a note -/

/-- a history without the notes -/
def untag (H : Hist (κ × τ) α) : Hist κ α := H.map fun x => (x.1.1, x.2)

theorem untag_append (H H' : Hist (κ × τ) α) : untag (H ++ H') = untag H ++ untag H' := List.map_append ..

/-- clients whose calls carry notes that the programs do not see -/
def Setup.tagged (S : Setup E κ α) (τ : Type) : Setup E (κ × τ) α where
  name := S.name
  namesOK := S.namesOK
  X := S.X
  lockX := S.lockX
  bodies := fun c => S.bodies c.1
  who := fun c => S.who c.1
  adm := fun H => S.adm (untag H)
  J := fun H s => S.J (untag H) s
  stable := fun H s s' h hr => S.stable _ s s' h hr
  rel := fun i h => S.rel i (untag h)
  rel_X := fun i h => S.rel_X i (untag h)
  rel_trans := fun i h => S.rel_trans i (untag h)
  ever := S.ever
  ever_X := S.ever_X
  ever_trans := S.ever_trans
  body := fun c H s w h => by
    have hu : ∀ j, untag (H.filter fun x => S.who x.1.1 == j) = (untag H).filter fun x => S.who x.1 == j := fun j => by
      rw [untag, untag, List.filter_map]; rfl
    simp only [hu]
    rw [show (fun r s' => S.J (untag (H ++ [(c, r)])) s') = fun r s' => S.J (untag H ++ [(c.1, r)]) s' from by
      funext r s'; rw [untag_append]; rfl]
    exact S.body c.1 (untag H) s w h
  adm_of := fun H s h => S.adm_of _ s h
  adm_prefix := fun H H' h => S.adm_prefix _ (untag H') (by rw [← untag_append]; exact h)

/-- a client, without the notes -/
def untagCl : Cl (κ × τ) α β ρ → Cl κ α β ρ
  | .ret r => .ret r
  | .raise e => .raise e
  | .call fuel c k => .call fuel c.1 fun r => untagCl (k r)
  | .free p k => .free p fun r => untagCl (k r)

theorem untagCl_prog (name : Str) (bodies : κ → Prog α) (c : Cl (κ × τ) α β ρ) :
    (untagCl c).prog name bodies = c.prog name fun c => bodies c.1 := by
  induction c with
  | ret r => rfl
  | raise e => rfl
  | call fuel c k ih => simp only [untagCl, Cl.prog, ih]
  | free p k ih => simp only [untagCl, Cl.prog, ih]

/-- a call on a notepad, with what it sets as note -/
def tcallCl (E : Env) (c : Codec V) (isNone : V → Bool) (p : Pad) (fuel i : Nat) (o : PadCall V)
    (K : Except PyErr (PadOut V) → Cl ((Nat × KOp) × Option V) Nat (PadOut V) ρ) : Cl ((Nat × KOp) × Option V) Nat (PadOut V) ρ :=
  match o with
  | .get k => .free ((PadCall.get k).run E c isNone p) (clAfter K)
  | .keys => .free (PadCall.keys.run E c isNone p) (clAfter K)
  | .set k v eo => .call fuel ((i, .add k eo), some v) fun r => match r with
    | .ok _ => .free ((memorize c v (padAddr p.pre k.text) eo).bind fun _ => .ret .done) fun r => clAfter K (setErr r)
    | .error e => clAfter K (setErr (.error e))
  | .del k => .free ((deleteBlock (padAddr p.pre k.text)).bind fun _ => .ret .done) fun r => match r with
    | .ok _ => .call fuel ((i, .del k), none) fun r => match r with
      | .ok _ => clAfter K (.ok .done)
      | .error e => clAfter K (delErr (.error e))
    | .error e => clAfter K (delErr (.error e))

def tclaimCl (E : Env) (c : Codec V) (isNone : V → Bool) (p : Pad) (fuel i : Nat) :
    PadScript V ρ → Cl ((Nat × KOp) × Option V) Nat (PadOut V) ρ
  | .ret r => .ret r
  | .raise e => .raise e
  | .call o k => tcallCl E c isNone p fuel i o fun r => tclaimCl E c isNone p fuel i (k r)

variable {c : Codec V} {isNone : V → Bool} {p : Pad} {ix : Index} {fuel : Nat} {guard : Str → Option Str}

theorem untagCl_after (K : Except PyErr β → Cl (κ × τ) Nat β ρ) (r : Except PyErr β) :
    untagCl (clAfter K r) = clAfter (fun r => untagCl (K r)) r := by
  unfold clAfter
  split <;> rfl

theorem untagCl_call (i : Nat) (o : PadCall V) (K : Except PyErr (PadOut V) → Cl ((Nat × KOp) × Option V) Nat (PadOut V) ρ) :
    untagCl (tcallCl E c isNone p fuel i o K) = callCl E c isNone p fuel i o fun r => untagCl (K r) := by
  cases o with
  | get k => simp only [tcallCl, callCl, untagCl]; congr 1; funext r; exact untagCl_after _ _
  | keys => simp only [tcallCl, callCl, untagCl]; congr 1; funext r; exact untagCl_after _ _
  | set k v eo =>
    simp only [tcallCl, callCl, untagCl]
    congr 1; funext r
    cases r with
    | error e => exact untagCl_after _ _
    | ok n => simp only [untagCl]; congr 1; funext r; exact untagCl_after _ _
  | del k =>
    simp only [tcallCl, callCl, untagCl]
    congr 1; funext r
    cases r with
    | error e => exact untagCl_after _ _
    | ok n =>
      simp only [untagCl]; congr 1; funext r
      cases r <;> exact untagCl_after _ _

theorem tclaimCl_prog {bodies : Nat × KOp → Prog Nat} {ok : Key → Prop} {good : V → Prop} (hp : p.index = .tag ix)
    (hm : p.mode = .sliding fuel) (i : Nat) (hr : ∀ k, ok k → ¬ indexWord <+: k.text)
    (hb : ∀ o : KOp, ok o.key → bodies (i, o) = KOp.body E ix o)
    (sc : PadScript V ρ) (held : Str → Prop) (h : sc.PlaysBy guard ok good held) :
    (tclaimCl E c isNone p fuel i sc).prog ix.name (fun c => bodies c.1) = sc.run E c isNone p := by
  induction sc generalizing held with
  | ret r => rfl
  | raise e => rfl
  | call o k ih =>
    simp only [tclaimCl, PadScript.run]
    rw [← untagCl_prog, untagCl_call, callCl_prog hp hm]
    · congr 2; funext r
      rw [untagCl_prog]
      cases o with
      | get key => exact ih r _ (h r)
      | keys => exact ih r _ (h r)
      | set key v eo =>
        cases eo with
        | true => exact ih r _ (h.2.2.2 r)
        | false =>
          cases r with
          | error e => exact ih _ _ (h.2.2.2 e)
          | ok x => exact ih _ _ (h.2.2.1 x)
      | del key => exact ih r _ (h.2.2 r)
    · rintro key v eo rfl
      cases eo with
      | true => exact ⟨not_reserved (hr _ h.1), hb _ h.1⟩
      | false => exact ⟨not_reserved (hr _ h.1), hb _ h.1⟩
    · rintro key rfl
      exact ⟨not_reservedExact (hr _ h.1), hb _ h.1⟩

/-! ## histories -/

abbrev THist (V : Type) := Hist ((Nat × KOp) × Option V) Nat

/-- a client's calls -/
def mineT (i : Nat) (H : THist V) : THist V := H.filter fun x => x.1.1.1 == i

theorem untag_mineT (i : Nat) (H : THist V) : untag (mineT i H) = mine i (untag H) := by
  unfold untag mineT mine
  rw [List.filter_map]
  rfl

/-- the guarded values, after one more call -/
def regStep (guard : Str → Option Str) (R : Str → Option V) (x : ((Nat × KOp) × Option V) × Except PyErr Nat) : Str → Option V :=
  match x.1.1.2, x.1.2 with
  | .add k true, some v => if (guard k.text).isSome then ownPut R k.text (some v) else R
  | _, _ => R

/-- the guarded values -/
def regs (guard : Str → Option Str) (R : Str → Option V) (H : THist V) : Str → Option V := H.foldl (regStep guard) R

theorem regs_snoc (R : Str → Option V) (H : THist V) (x : ((Nat × KOp) × Option V) × Except PyErr Nat) :
    regs guard R (H ++ [x]) = regStep guard (regs guard R H) x := by
  unfold regs; rw [List.foldl_append]; rfl

/-- what a call on the index does with keys -/
def sectEv (guard : Str → Option Str) (R : Str → Option V) (x : ((Nat × KOp) × Option V) × Except PyErr Nat) :
    Option (Nat × Str × Sect V) := match x with
  | (((i, .add k false), _), .ok _) => some (i, k.text, .won R)
  | (((i, .add k false), _), .error _) => some (i, k.text, .lost)
  | (((i, .add k true), some v), _) => if (guard k.text).isSome then some (i, k.text, .put v) else none
  | (((_, .add _ true), none), _) => none
  | (((i, .del k), _), _) => some (i, k.text, .gave)

def sectsIn (guard : Str → Option Str) : (Str → Option V) → THist V → List (Nat × Str × Sect V)
  | _, [] => []
  | R, x :: t => (sectEv guard R x).toList ++ sectsIn guard (regStep guard R x) t

theorem sectsIn_append (R : Str → Option V) (H H' : THist V) :
    sectsIn guard R (H ++ H') = sectsIn guard R H ++ sectsIn guard (regs guard R H) H' := by
  induction H generalizing R with
  | nil => rfl
  | cons x t ih => simp only [List.cons_append, sectsIn, ih, List.append_assoc]; rfl

theorem sectsIn_snoc (R : Str → Option V) (H : THist V) (x : ((Nat × KOp) × Option V) × Except PyErr Nat) :
    sectsIn guard R (H ++ [x]) = sectsIn guard R H ++ (sectEv guard (regs guard R H) x).toList := by
  rw [sectsIn_append]; simp [sectsIn]

theorem sectEv_who {R : Str → Option V} {x : ((Nat × KOp) × Option V) × Except PyErr Nat} {e : Nat × Str × Sect V}
    (h : sectEv guard R x = some e) : e.1 = x.1.1.1 := by
  unfold sectEv at h
  split at h
  · injection h with h; rw [← h]
  · injection h with h; rw [← h]
  · split at h
    · injection h with h; rw [← h]
    · cases h
  · cases h
  · injection h with h; rw [← h]

theorem mem_sectsIn {R : Str → Option V} {H : THist V} {e : Nat × Str × Sect V} (h : e ∈ sectsIn guard R H) :
    ∃ x ∈ H, x.1.1.1 = e.1 := by
  induction H generalizing R with
  | nil => simp [sectsIn] at h
  | cons x t ih =>
    rw [sectsIn, List.mem_append] at h
    rcases h with h | h
    · exact ⟨x, List.mem_cons_self .., (sectEv_who (Option.mem_toList.1 h)).symm⟩
    · obtain ⟨y, hy, e⟩ := ih h
      exact ⟨y, List.mem_cons_of_mem _ hy, e⟩

theorem mineT_append (i : Nat) (H H' : THist V) : mineT i (H ++ H') = mineT i H ++ mineT i H' := List.filter_append ..

theorem mineT_nil {i : Nat} {H t : THist V} (h : mineT i (H ++ t) = mineT i H) : mineT i t = [] := by
  rw [mineT_append] at h
  have := congrArg List.length h
  rw [List.length_append] at this
  exact List.eq_nil_of_length_eq_zero (by omega)

theorem sectsOf_append (i : Nat) (a b : List (Nat × Str × Sect V)) : sectsOf i (a ++ b) = sectsOf i a ++ sectsOf i b := by
  unfold sectsOf; rw [List.filter_append, List.map_append]

theorem sectsOf_stay {i : Nat} {R : Str → Option V} {L H : THist V} (hL : L <+: H) (h : mineT i H = mineT i L) :
    sectsOf i (sectsIn guard R H) = sectsOf i (sectsIn guard R L) := by
  obtain ⟨t, rfl⟩ := hL
  have ht := mineT_nil h
  rw [sectsIn_append, sectsOf_append]
  have : sectsOf i (sectsIn guard (regs guard R L) t) = [] := by
    unfold sectsOf
    rw [List.map_eq_nil_iff, List.filter_eq_nil_iff]
    intro e he hi
    obtain ⟨x, hx, hxe⟩ := mem_sectsIn he
    have : x ∈ mineT i t := List.mem_filter.2 ⟨hx, by rw [hxe]; exact hi⟩
    rw [ht] at this
    simp at this
  rw [this, List.append_nil]

/-- a client's calls are within the rules, and set values that can be encoded -/
structure Rules (guard : Str → Option Str) (c : Codec V) (h : THist V) : Prop where
  disc : Disc guard (untag h)
  tags : ∀ x ∈ h, ∀ v, x.1.2 = some v → ∃ b, c.encode v = .ok b

theorem rules_nil : Rules guard c [] := ⟨disc_nil, by simp⟩

theorem rules_snoc {h : THist V} (hr : Rules guard c h) {x : ((Nat × KOp) × Option V) × Except PyErr Nat}
    (hx : obeys guard (hasKey (untag h)) x.1.1.2) (hv : ∀ v, x.1.2 = some v → ∃ b, c.encode v = .ok b) :
    Rules guard c (h ++ [x]) := by
  refine ⟨?_, fun y hy => ?_⟩
  · rw [untag_append]; exact disc_snoc hr.disc hx
  · rw [List.mem_append, List.mem_singleton] at hy
    rcases hy with hy | rfl
    · exact hr.tags y hy
    · exact hv

theorem all_disc {H : THist V} (hd : ∀ i, Rules guard c (mineT i H)) (i : Nat) : Disc guard (mine i (untag H)) := by
  rw [← untag_mineT]; exact (hd i).disc

theorem regStep_cases (R : Str → Option V) (i : Nat) (o : KOp) (t : Option V) (r : Except PyErr Nat) :
    (∃ k v, o = .add k true ∧ t = some v ∧ regStep guard R (((i, o), t), r) = ownPut R k.text (some v)) ∨
      regStep guard R (((i, o), t), r) = R := by
  cases o with
  | del k => exact Or.inr rfl
  | add k eo =>
    cases eo with
    | false => exact Or.inr rfl
    | true =>
      cases t with
      | none => exact Or.inr rfl
      | some v =>
        simp only [regStep]
        split
        · exact Or.inl ⟨k, v, rfl, rfl, rfl⟩
        · exact Or.inr rfl

/-- guarded values are always there, and can be encoded -/
theorem regs_some {R : Str → Option V} {k : Str} (h0 : ∃ v b, R k = some v ∧ c.encode v = .ok b) {H : THist V}
    (hd : ∀ i, Rules guard c (mineT i H)) : ∃ v b, regs guard R H k = some v ∧ c.encode v = .ok b := by
  have ht : ∀ x ∈ H, ∀ v, x.1.2 = some v → ∃ b, c.encode v = .ok b := fun x hx =>
    (hd x.1.1.1).tags x (List.mem_filter.2 ⟨hx, by simp⟩)
  clear hd
  induction H using List.reverseRecOn with
  | nil => exact h0
  | append_singleton H x ih =>
    obtain ⟨v, b, h1, h2⟩ := ih fun y hy => ht y (List.mem_append_left _ hy)
    rw [regs_snoc]
    have hx := ht x (by simp)
    obtain ⟨⟨⟨i, o⟩, t⟩, r⟩ := x
    rcases regStep_cases (guard := guard) (regs guard R H) i o t r with ⟨k', v', rfl, rfl, hs⟩ | hs
    · rw [hs]
      unfold ownPut
      split
      · obtain ⟨b', hb'⟩ := hx v' rfl
        exact ⟨v', b', rfl, hb'⟩
      · exact ⟨v, b, h1, h2⟩
    · rw [hs]
      exact ⟨v, b, h1, h2⟩

/-- what changes a guarded value is a call of who has the guard -/
theorem regStep_other {keys0 : List Str} (h0 : keys0.Nodup) (hg : ∀ k m, guard k = some m → k ∈ keys0) {H : THist V}
    {x : ((Nat × KOp) × Option V) × Except PyErr Nat} (hl : ∃ keys, Legal (texts (untag H)) keys0 keys)
    (hd : ∀ i, Disc guard (mine i (untag (H ++ [x])))) {r m : Str} (hr : guard r = some m) (R : Str → Option V)
    (hm : hasKey (mine x.1.1.1 (untag H)) m = false) : regStep guard R x r = R r := by
  obtain ⟨⟨⟨i, o⟩, t⟩, res⟩ := x
  obtain ⟨keys, hl⟩ := hl
  have hd' : ∀ j, Disc guard (mine j (untag H)) := fun j => by
    have := hd j
    rw [untag_append] at this
    unfold mine at this
    rw [List.filter_append] at this
    exact disc_pre this
  obtain ⟨T, st⟩ := story h0 hg hl hd'
  have hob : obeys guard (hasKey (mine i (untag H))) o := by
    have := hd i
    rw [untag_append] at this
    have e : mine i (untag H ++ untag [(((i, o), t), res)]) = mine i (untag H) ++ [((i, o), res)] := by
      show mine i (untag H ++ [((i, o), res)]) = _
      rw [mine_snoc, if_pos rfl]
    rw [e] at this
    exact disc_last this
  rcases regStep_cases (guard := guard) R i o t res with ⟨k, v, rfl, rfl, hs⟩ | hs
  · rw [hs]
    unfold ownPut
    split
    · rename_i hrk
      exfalso
      rcases hob with hob | ⟨m', hm', hob⟩
      · have h1 := (st.holder k.text i).2 hob
        rw [st.before _ (hrk ▸ hg r m hr)] at h1
        cases h1
      · rw [← hrk, hr] at hm'
        injection hm' with hm'
        subst hm'
        simp only at hm
        rw [hm] at hob
        cases hob
    · rfl
  · rw [hs]

/-- guarded values do not change while a client that has the guard makes no call -/
theorem regs_stay {keys0 : List Str} (h0 : keys0.Nodup) (hg : ∀ k m, guard k = some m → k ∈ keys0) {L H : THist V} {i : Nat}
    (hL : L <+: H) (he : mineT i H = mineT i L) (hl : ∃ keys, Legal (texts (untag H)) keys0 keys)
    (hd : ∀ i, Disc guard (mine i (untag H))) {r m : Str} (hr : guard r = some m) (R : Str → Option V)
    (hm : hasKey (untag (mineT i L)) m = true) : regs guard R H r = regs guard R L r := by
  obtain ⟨t, rfl⟩ := hL
  induction t using List.reverseRecOn with
  | nil => rw [List.append_nil]
  | append_singleton t x ih =>
    rw [← List.append_assoc] at he hl hd ⊢
    have hnil : mineT i (t ++ [x]) = [] := mineT_nil (by rw [← List.append_assoc]; exact he)
    rw [mineT_append, List.append_eq_nil_iff] at hnil
    have he' : mineT i (L ++ t) = mineT i L := by rw [mineT_append, hnil.1, List.append_nil]
    have hl' : ∃ keys, Legal (texts (untag (L ++ t))) keys0 keys := by
      obtain ⟨keys, hl⟩ := hl
      rw [untag_append, texts, List.map_append] at hl
      exact legal_prefix hl
    have hd' : ∀ j, Disc guard (mine j (untag (L ++ t))) := fun j => by
      have := hd j
      rw [untag_append] at this
      unfold mine at this
      rw [List.filter_append] at this
      exact disc_pre this
    rw [regs_snoc, regStep_other h0 hg hl' hd hr, ih he' hl' hd']
    -- the caller is another client
    obtain ⟨keys, hl''⟩ := hl'
    obtain ⟨T, st⟩ := story h0 hg hl'' hd'
    have hi : T m = .by i := (st.holder m i).2 (by rw [← untag_mineT, he']; exact hm)
    by_contra hc
    have := (st.holder m x.1.1.1).2 (by simpa using hc)
    rw [hi] at this
    injection this with this
    have hx : x ∈ mineT i [x] := List.mem_filter.2 ⟨by simp, by simp [this]⟩
    rw [hnil.2] at hx
    simp at hx

/-! ## the story of all calls -/

theorem legalClaims_split {T T2 : Str → Holder} {a b : List (Nat × Str × Grab)} (h : LegalClaims T (a ++ b) T2) :
    ∃ T1, LegalClaims T a T1 ∧ LegalClaims T1 b T2 := by
  induction a generalizing T with
  | nil => exact ⟨T, rfl, h⟩
  | cons e t ih =>
    obtain ⟨i, k, g⟩ := e
    cases g <;> (obtain ⟨T1, h1, h2⟩ := ih h.2; exact ⟨T1, ⟨h.1, h1⟩, h2⟩)

theorem legalClaims_fun {T T1 T2 : Str → Holder} {a : List (Nat × Str × Grab)} (h1 : LegalClaims T a T1)
    (h2 : LegalClaims T a T2) : T1 = T2 := by
  induction a generalizing T with
  | nil => exact Eq.trans h1 (Eq.symm h2)
  | cons e t ih =>
    obtain ⟨i, k, g⟩ := e
    cases g <;> exact ih h1.2 h2.2

theorem legalSects_append {T T1 T2 : Str → Holder} {R R1 R2 : Str → Option V} {a b : List (Nat × Str × Sect V)}
    (h1 : LegalSects guard T R a T1 R1) (h2 : LegalSects guard T1 R1 b T2 R2) : LegalSects guard T R (a ++ b) T2 R2 := by
  induction a generalizing T R with
  | nil => obtain ⟨rfl, rfl⟩ := h1; exact h2
  | cons e t ih =>
    obtain ⟨i, k, g⟩ := e
    cases g with
    | won sees => exact ⟨h1.1, h1.2.1, ih h1.2.2⟩
    | lost => exact ⟨h1.1, ih h1.2⟩
    | put v => exact ⟨h1.1, ih h1.2⟩
    | gave => exact ⟨h1.1, ih h1.2⟩

theorem eventsIn_snoc (H : Hist (Nat × KOp) Nat) (i : Nat) (o : KOp) (r : Except PyErr Nat) :
    eventsIn (H ++ [((i, o), r)]) = eventsIn H ++ ((ixGrab (o, r)).map fun g => (i, g)).toList := by
  unfold eventsIn
  rw [List.filterMap_append]
  cases hx : ixGrab (o, r) <;> simp [hx]

theorem sect_story {keys0 keys : List Str} (h0 : keys0.Nodup) (hg : ∀ k m, guard k = some m → k ∈ keys0) (R : Str → Option V)
    {H : THist V} (hl : Legal (texts (untag H)) keys0 keys) (hd : ∀ i, Disc guard (mine i (untag H))) :
    ∃ T, Story keys0 (untag H) keys T ∧ LegalSects guard (atFirst keys0) R (sectsIn guard R H) T (regs guard R H) := by
  induction H using List.reverseRecOn generalizing keys with
  | nil =>
    obtain ⟨T, st⟩ := story h0 hg hl hd
    exact ⟨T, st, st.claims, rfl⟩
  | append_singleton H x ih =>
    obtain ⟨⟨⟨i, o⟩, t⟩, r⟩ := x
    obtain ⟨T', st'⟩ := story h0 hg hl hd
    have hl1 := hl
    rw [untag_append, texts, List.map_append] at hl1
    obtain ⟨ks, l1, -, -⟩ := legal_snoc hl1
    have hd' : ∀ j, Disc guard (mine j (untag H)) := fun j => by
      have := hd j
      rw [untag_append] at this
      unfold mine at this
      rw [List.filter_append] at this
      exact disc_pre this
    obtain ⟨T, st, hs⟩ := ih l1 hd'
    have hob : obeys guard (hasKey (mine i (untag H))) o := by
      have := hd i
      rw [untag_append] at this
      have e : mine i (untag H ++ untag [(((i, o), t), r)]) = mine i (untag H) ++ [((i, o), r)] := by
        show mine i (untag H ++ [((i, o), r)]) = _
        rw [mine_snoc, if_pos rfl]
      rw [e] at this
      exact disc_last this
    refine ⟨T', st', ?_⟩
    have hc := st'.claims
    have e : eventsIn (untag (H ++ [(((i, o), t), r)])) = eventsIn (untag H) ++ ((ixGrab (o, r)).map fun g => (i, g)).toList := by
      rw [untag_append]; exact eventsIn_snoc _ _ _ _
    rw [e] at hc
    obtain ⟨T1, c1, c2⟩ := legalClaims_split hc
    have := legalClaims_fun c1 st.claims
    subst this
    rw [sectsIn_snoc, regs_snoc]
    refine legalSects_append hs ?_
    cases o with
    | add k eo =>
      cases eo with
      | false =>
        cases r with
        | ok n => exact ⟨c2.1, fun _ _ => rfl, c2.2, rfl⟩
        | error e => exact ⟨c2.1, c2.2, rfl⟩
      | true =>
        have c2 : T' = T1 := c2
        cases t with
        | none => exact ⟨c2, rfl⟩
        | some v =>
          simp only [sectEv, regStep]
          split
          · rename_i hgs
            obtain ⟨m, hm⟩ := Option.isSome_iff_exists.1 hgs
            refine ⟨⟨m, hm, ?_⟩, c2, rfl⟩
            rcases hob with hob | ⟨m', hm', hob⟩
            · have h1 := (st.holder k.text i).2 hob
              rw [st.before _ (hg _ _ hm)] at h1
              cases h1
            · rw [hm] at hm'
              injection hm' with hm'
              rw [hm']; exact (st.holder m' i).2 hob
          · exact ⟨c2, rfl⟩
    | del k => exact ⟨c2.1, c2.2, rfl⟩

end Verif.Lemmas
