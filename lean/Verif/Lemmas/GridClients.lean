import Verif.Lemmas.RGWide
import Verif.Lemmas.Grid
import Verif.Spec.GridClients
/-!
# Processes that share a GridPaper, as clients of the lock of its index
-/
namespace Verif.Lemmas
open Verif Verif.Model Verif.Spec
variable {E : Env} {α β ρ : Type} {c : Codec ArrMeta} {nbytes : Str → List Nat → Nat}

/-! ## the programs -/

/-- a call inside the lock of the index: the client, the key, the metadata to store -/
abbrev GpLab := Nat × Key × ArrMeta

/-- a call on a GridPaper, as what happens inside the lock of its index and outside it -/
def gridCallCl (E : Env) (c : Codec ArrMeta) (nbytes : Str → List Nat → Nat) (g : Grid) (fuel i : Nat) (o : GpCall)
    (K : Except PyErr GpOut → Cl GpLab Nat GpOut ρ) : Cl GpLab Nat GpOut ρ :=
  match o with
  | .get k => .free ((GpCall.get k).run E c nbytes g) (clAfter K)
  | .keys => .free (GpCall.keys.run E c nbytes g) (clAfter K)
  | .set k a => .free ((memorizeArray a (padAddr g.pre k.text) true).bind fun _ => .ret .done) fun r => match r with
    | .ok _ => .call fuel (i, k, metaOf g.pre k.text a) fun r => match r with
      | .ok _ => clAfter K (.ok .done)
      | .error e => clAfter K (.error e)
    | .error e => clAfter K (setErr (.error e))

/-- a process as client `i` -/
def gridCl (E : Env) (c : Codec ArrMeta) (nbytes : Str → List Nat → Nat) (g : Grid) (fuel i : Nat) :
    GpScript ρ → Cl GpLab Nat GpOut ρ
  | .ret r => .ret r
  | .raise e => .raise e
  | .call o k => gridCallCl E c nbytes g fuel i o fun r => gridCl E c nbytes g fuel i (k r)

/-- `memorize_array` returns the metadata of the array, if it returns -/
theorem memorizeArray_gives (a : Arr) (addr : Str) (eo : Bool) : memorizeArray a addr eo =
    (memorizeArray a addr eo).bind fun _ => .ret ⟨addr, a.dtype, a.shape, a.data.length⟩ := by
  show (openBlock addr a.data.length eo false).bind _ = Prog.bind ((openBlock addr a.data.length eo false).bind _) _
  rw [prog_bind_assoc]
  congr 1; funext b
  show (read b).bind _ = Prog.bind ((read b).bind _) _
  rw [prog_bind_assoc]
  congr 1; funext buf
  split
  · rfl
  · split
    · rfl
    · show (writeFront b a.data).bind _ = Prog.bind ((writeFront b a.data).bind _) _
      rw [prog_bind_assoc]
      rfl

variable {g : Grid} {ix : Index} {fuel : Nat}

theorem gridCallCl_prog {bodies : GpLab → Prog Nat} (hp : g.index = ix) (hm : g.mode = .sliding fuel) (i : Nat)
    (o : GpCall) (K : Except PyErr GpOut → Cl GpLab Nat GpOut ρ)
    (hset : ∀ k a, o = .set k a → reserved k = false ∧
      bodies (i, k, metaOf g.pre k.text a) = metaBody E c ix k (metaOf g.pre k.text a)) :
    (gridCallCl E c nbytes g fuel i o K).prog ix.name bodies =
      (o.run E c nbytes g).attempt.bind (afterCall fun r => (K r).prog ix.name bodies) := by
  cases o with
  | get k =>
    simp only [gridCallCl, Cl.prog]
    congr 1; funext r
    exact clAfter_prog _ _ _ _
  | keys =>
    simp only [gridCallCl, Cl.prog]
    congr 1; funext r
    exact clAfter_prog _ _ _ _
  | set k a =>
    obtain ⟨h1, h2⟩ := hset k a rfl
    simp only [gridCallCl, Cl.prog, GpCall.run, gridSet, h1, Bool.false_eq_true, if_false]
    show _ = ((Prog.bind (Prog.attempt (memorizeArray a (padAddr g.pre k.text) true)) _).bind _).attempt.bind _
    rw [try_then, try_try]
    conv_rhs => rw [memorizeArray_gives]
    rw [try_bind, try_bind]
    congr 1; funext r
    cases r with
    | error e => cases e <;> simp only [clAfter_prog, setErr] <;> rfl
    | ok m =>
      show (Cl.call fuel (i, k, metaOf g.pre k.text a) _).prog ix.name bodies = _
      simp only [Cl.prog, h2]
      show _ = ((Prog.bind (metaAdd E c g.mode g.index k (some (metaOf g.pre k.text a)) true) fun _ => .ret ()).bind
        fun _ => .ret GpOut.done).attempt.bind _
      rw [try_bind, try_bind, hp, hm]
      show _ = Prog.bind (Prog.attempt (withLock (.sliding fuel) ix.name (metaBody E c ix k (metaOf g.pre k.text a)))) _
      congr 1; funext r
      cases r with
      | ok n => exact clAfter_prog _ _ _ _
      | error e => cases e <;> simp only [clAfter_prog, afterCall, isOverflow] <;> rfl

theorem gridCl_prog {bodies : GpLab → Prog Nat} {rd : Key → Prop} {ok : Key → Arr → Prop} (hp : g.index = ix) (hm : g.mode = .sliding fuel)
    (i : Nat) (hr : ∀ k a, ok k a → ¬ indexWord <+: k.text)
    (hb : ∀ k a, ok k a → bodies (i, k, metaOf g.pre k.text a) = metaBody E c ix k (metaOf g.pre k.text a))
    (sc : GpScript ρ) (h : sc.Uses rd ok) : (gridCl E c nbytes g fuel i sc).prog ix.name bodies = sc.run E c nbytes g := by
  induction sc with
  | ret r => rfl
  | raise e => rfl
  | call o k ih =>
    simp only [gridCl, GpScript.run]
    rw [gridCallCl_prog hp hm]
    · congr 2; funext r
      cases o with
      | get key => exact ih r (h.2 r)
      | set key a => exact ih r (h.2 r)
      | keys => exact ih r (h r)
    · rintro key a rfl
      exact ⟨not_reserved (hr _ _ h.1), hb _ _ h.1⟩

/-! ## histories -/

/-- the bytes a codec makes of an object -/
def encOf (c : Codec ArrMeta) (m : ArrMeta) : Option Bytes := match c.encode m with
  | .ok b => some b
  | .error _ => none

/-- the keys listed after the calls -/
def gKeys (keys0 : List Str) (H : Hist GpLab Nat) : List Str := H.foldl (fun ks x => (ixAdd ks x.1.2.1.text true).2) keys0

/-- the values stored after the calls -/
def gVals (c : Codec ArrMeta) (f0 : Str → Option Bytes) (H : Hist GpLab Nat) : Str → Option Bytes :=
  H.foldl (fun f x => upd f x.1.2.1.text (encOf c x.1.2.2)) f0

theorem gKeys_snoc (keys0 : List Str) (H : Hist GpLab Nat) (x : GpLab × Except PyErr Nat) :
    gKeys keys0 (H ++ [x]) = (ixAdd (gKeys keys0 H) x.1.2.1.text true).2 := by simp [gKeys]

theorem gVals_snoc (f0 : Str → Option Bytes) (H : Hist GpLab Nat) (x : GpLab × Except PyErr Nat) :
    gVals c f0 (H ++ [x]) = upd (gVals c f0 H) x.1.2.1.text (encOf c x.1.2.2) := by simp [gVals]

theorem mem_added {keys : List Str} {k k' : Str} : k' ∈ (ixAdd keys k true).2 ↔ k' = k ∨ k' ∈ keys := by
  unfold ixAdd
  cases hp : position k keys with
  | none => simp [or_comm]
  | some i =>
    simp only [if_true]
    exact ⟨Or.inr, fun h => h.elim (fun e => e ▸ List.mem_of_getElem? (position_some hp)) id⟩

/-- a call that may be made: by the owner of the key -/
structure GpOK (E : Env) (c : Codec ArrMeta) (U : List Str) (owner : Str → Option Nat) (x : GpLab) : Prop where
  hashed : x.2.1.hashed E = E.utf8 x.2.1.text
  mem : x.2.1.text ∈ U
  own : owner x.2.1.text = some x.1
  enc : ∃ b, c.encode x.2.2 = .ok b ∧ b ≠ []

/-- the keys a process may rely on: its own, and nobody's -/
def readable (U : List Str) (owner : Str → Option Nat) (i : Nat) (k : Str) : Prop := k ∈ U ∧ (owner k = some i ∨ owner k = none)

variable {U : List Str} {owner : Str → Option Nat} {keys0 : List Str} {f0 : Str → Option Bytes}

/-- what happens to a key is the doing of its owner -/
theorem gHist_own {H : Hist GpLab Nat} (hH : ∀ x ∈ H, GpOK E c U owner x.1) {i : Nat} {k : Str} (hk : readable U owner i k) :
    (k ∈ gKeys keys0 H ↔ k ∈ gKeys keys0 (H.filter fun x => x.1.1 == i)) ∧
      gVals c f0 H k = gVals c f0 (H.filter fun x => x.1.1 == i) k := by
  induction H using List.reverseRecOn with
  | nil => exact ⟨Iff.rfl, rfl⟩
  | append_singleton H x ih =>
    obtain ⟨h1, h2⟩ := ih fun y hy => hH y (List.mem_append_left _ hy)
    have hx := hH x (by simp)
    rw [List.filter_append, gKeys_snoc, gVals_snoc, mem_added]
    by_cases hi : x.1.1 = i
    · have : [x].filter (fun x => x.1.1 == i) = [x] := by simp [hi]
      rw [this, gKeys_snoc, gVals_snoc, mem_added, h1]
      refine ⟨Iff.rfl, ?_⟩
      unfold upd; split
      · rfl
      · exact h2
    · have : [x].filter (fun x => x.1.1 == i) = [] := by simp [hi]
      have hne : k ≠ x.1.2.1.text := by
        intro e
        have ho := hx.own
        rw [← e] at ho
        rcases hk.2 with h | h
        · rw [h] at ho; injection ho with ho; exact hi ho.symm
        · rw [h] at ho; cases ho
      rw [this, List.append_nil]
      exact ⟨by simp [hne, h1], by rw [upd, if_neg hne]; exact h2⟩

theorem gKeys_sub {H : Hist GpLab Nat} (hH : ∀ x ∈ H, GpOK E c U owner x.1) (h0 : keys0 ⊆ U) : gKeys keys0 H ⊆ U := by
  induction H using List.reverseRecOn with
  | nil => exact h0
  | append_singleton H x ih =>
    intro k hk
    rw [gKeys_snoc, mem_added] at hk
    rcases hk with rfl | hk
    · exact (hH x (by simp)).mem
    · exact ih (fun y hy => hH y (List.mem_append_left _ hy)) hk

/-- keys that are not in play keep what they had -/
theorem gVals_out {H : Hist GpLab Nat} (hH : ∀ x ∈ H, GpOK E c U owner x.1) {k : Str} (hk : k ∉ U) :
    gVals c f0 H k = f0 k := by
  induction H using List.reverseRecOn with
  | nil => rfl
  | append_singleton H x ih =>
    rw [gVals_snoc, upd, if_neg fun (e : k = _) => hk (e ▸ (hH x (by simp)).mem)]
    exact ih fun y hy => hH y (List.mem_append_left _ hy)

theorem gVals_ne {H : Hist GpLab Nat} (hH : ∀ x ∈ H, GpOK E c U owner x.1) (h0 : ∀ k b, f0 k = some b → b ≠ []) :
    ∀ k b, gVals c f0 H k = some b → b ≠ [] := by
  induction H using List.reverseRecOn with
  | nil => exact h0
  | append_singleton H x ih =>
    intro k b hb
    rw [gVals_snoc, upd] at hb
    split at hb
    · obtain ⟨b', h1, h2⟩ := (hH x (by simp)).enc
      simp only [encOf, h1, Option.some.injEq] at hb
      rw [← hb]; exact h2
    · exact ih (fun y hy => hH y (List.mem_append_left _ hy)) k b hb

/-! ## the setting -/

/-- the blocks of the arrays that somebody may set -/
def gManaged (pre : Str) (U : List Str) (owner : Str → Option Nat) (x : Str) : Prop :=
  ∃ k i, k ∈ U ∧ owner k = some i ∧ x = padAddr pre k

/-- the blocks of a client's arrays -/
def gOwned (pre : Str) (U : List Str) (owner : Str → Option Nat) (i : Nat) (x : Str) : Prop :=
  ∃ k, k ∈ U ∧ owner k = some i ∧ x = padAddr pre k

/-- a block that nobody sets -/
def gStill (pre : Str) (U : List Str) (owner : Str → Option Nat) (x : Str) : Prop :=
  ∃ k, ¬ indexWord <+: k ∧ (k ∈ U → owner k = none) ∧ x = padAddr pre k

/-- the block has the same contents -/
def SameAt (s s' : Store) (x : Str) : Prop := s'.names x = s.names x ∧ s'.content x = s.content x

/-- what client `i` may rely on outside the lock: its keys and nobody's stay where they are -/
def gRel (E : Env) (ix : Index) (pre : Str) (U : List Str) (owner : Str → Option Nat) (i : Nat) (s s' : Store) : Prop :=
  ∀ k, readable U owner i k →
    (∀ n, n < 256 ^ 8 → s.content (hashAddr E ix.name (E.utf8 k)) = some (toLE 8 n) →
      SameAt s s' (hashAddr E ix.name (E.utf8 k)) ∧ SameAt s s' (valAddr ix.name n)) ∧
    (s.content (hashAddr E ix.name (E.utf8 k)) = none → s'.content (hashAddr E ix.name (E.utf8 k)) = none) ∧
    (owner k = none → SameAt s s' (padAddr pre k))

theorem gRel_trans {pre : Str} {i : Nat} {a b d : Store} (h1 : gRel E ix pre U owner i a b) (h2 : gRel E ix pre U owner i b d) :
    gRel E ix pre U owner i a d := by
  intro k hk
  obtain ⟨p1, p2, p3⟩ := h1 k hk
  obtain ⟨q1, q2, q3⟩ := h2 k hk
  refine ⟨fun n hn hc => ?_, fun hc => q2 (p2 hc), fun ho => ⟨(q3 ho).1.trans (p3 ho).1, (q3 ho).2.trans (p3 ho).2⟩⟩
  obtain ⟨a1, a2⟩ := p1 n hn hc
  obtain ⟨b1, b2⟩ := q1 n hn (by rw [a1.2]; exact hc)
  exact ⟨⟨b1.1.trans a1.1, b1.2.trans a1.2⟩, ⟨b2.1.trans a2.1, b2.2.trans a2.2⟩⟩

/-- what is true between the calls -/
structure GpJ (E : Env) (c : Codec ArrMeta) (ix : Index) (pre : Str) (U : List Str) (owner : Str → Option Nat)
    (keys0 : List Str) (f0 : Str → Option Bytes) (s0 : Store) (H : Hist GpLab Nat) (s : Store) : Prop where
  rep : MetaRep E s ix (gKeys keys0 H) (gVals c f0 H)
  calls : ∀ x ∈ H, GpOK E c U owner x.1 ∧ ∃ n, x.2 = .ok n
  still : ∀ x, gStill pre U owner x → s.content x = s0.content x

section
variable {pre : Str}

theorem pad_not_meta {name k : Str} (hk : ¬ indexWord <+: k) (hix : name = indexName pre) : ¬ metaNames name (padAddr pre k) := by
  subst hix
  rintro ⟨sl, _, e⟩
  exact slot_ne_pad hk sl e.symm

theorem pad_not_lockName {name k : Str} (hk : ¬ indexWord <+: k) (hix : name = indexName pre) : ¬ lockNames name (padAddr pre k) := by
  subst hix
  rintro ⟨sl, _, e⟩
  exact slot_ne_pad hk sl e.symm

theorem atSlot_meta {name k : Str} {n : Nat} {x : Str} (h : atSlot E name k n x) : metaNames name x := by
  rcases h with rfl | rfl | rfl | rfl
  · exact index_meta (indexNames_mem _)
  · exact index_meta (indexNames_key _ _)
  · exact index_meta (indexNames_hash _ _ _)
  · exact metaNames_val _ _

theorem offM_grid (hU : PlayOK E pre U) (hix : ix.name = indexName pre) :
    OffM ix.name fun x => lockNames ix.name x ∨ gManaged pre U owner x := by
  rintro x hx (h | ⟨k, i, h1, _, rfl⟩)
  · exact meta_not_lock hx h
  · exact pad_not_meta (hU.free k h1) hix hx

theorem still_not_X (hU : PlayOK E pre U) (hix : ix.name = indexName pre) {x : Str} (hx : gStill pre U owner x) :
    ¬ (lockNames ix.name x ∨ gManaged pre U owner x) := by
  obtain ⟨k, h1, h2, rfl⟩ := hx
  rintro (h | ⟨k', i, h3, h4, e⟩)
  · exact pad_not_lockName h1 hix h
  · have := pad_inj e
    subst this
    rw [h2 h3] at h4
    cases h4

theorem nodup_sub_length {l l' : List Str} (h : l.Nodup) (hs : l ⊆ l') : l.length ≤ l'.length := (h.subperm hs).length_le

theorem slot_hash_ne {name : Str} {b : Bytes} {n m : Nat} : hashAddr E name b ≠ valAddr name n ∧ keyAddr name m ≠ valAddr name n ∧
    name ≠ valAddr name n := by
  refine ⟨fun e => val_not_index name n (e ▸ indexNames_hash E name b), fun e => val_not_index name n (e ▸ indexNames_key name m),
    fun e => val_not_index name n ?_⟩
  have := indexNames_mem name
  rw [← e]; exact this

theorem hashAddr_inj {name a b : Str} (h : hashAddr E name (E.utf8 a) = hashAddr E name (E.utf8 b)) :
    E.sha (E.utf8 a) = E.sha (E.utf8 b) := by
  rw [addr_hash, addr_hash] at h
  have := addr_injective h
  injection this

end

open Classical in
/-- clients of the index of a GridPaper -/
noncomputable def gridSetup (c : Codec ArrMeta) (hok : NamesOK E ix.name) {pre : Str} (hU : PlayOK E pre U) (hix : ix.name = indexName pre)
    (owner : Str → Option Nat) (keys0 : List Str) (f0 : Str → Option Bytes) (s0 : Store) (h0 : keys0 ⊆ U) : Setup E GpLab Nat where
  name := ix.name
  namesOK := hok
  X := fun x => lockNames ix.name x ∨ gManaged pre U owner x
  lockX := fun _ h => Or.inl h
  bodies := fun x => if GpOK E c U owner x then metaBody E c ix x.2.1 x.2.2 else .stuck
  who := Prod.fst
  adm := fun H => ∀ x ∈ H, GpOK E c U owner x.1 ∧ ∃ n, x.2 = .ok n
  J := GpJ E c ix pre U owner keys0 f0 s0
  stable := fun H s s' h hr => ⟨h.rep.rely (offM_grid hU hix) hr, h.calls, fun x hx => by
    rw [(hr.2 x (still_not_X hU hix hx)).2]; exact h.still x hx⟩
  rel := fun i _ => gRel E ix pre U owner i
  rel_X := fun i h s s' hr k hk => by
    have hm : ∀ x, metaNames ix.name x → SameAt s s' x := fun x hx => hr.2 x (offM_grid hU hix x hx)
    refine ⟨fun n _ _ => ⟨hm _ (index_meta (indexNames_hash _ _ _)), hm _ (metaNames_val _ _)⟩, fun hc => ?_, fun ho => ?_⟩
    · rw [(hm _ (index_meta (indexNames_hash _ _ _))).2]; exact hc
    · exact hr.2 _ (still_not_X hU hix ⟨k, hU.free k hk.1, fun _ => ho, rfl⟩)
  rel_trans := fun i h a b d => gRel_trans
  ever := fun _ _ => True
  ever_X := fun _ _ _ => trivial
  ever_trans := fun _ _ _ _ _ => trivial
  body := fun x H s w hJ => by
    by_cases ho : GpOK E c U owner x
    · rw [if_pos ho]
      obtain ⟨b, hb1, hb2⟩ := ho.enc
      have hsub := gKeys_sub (fun y hy => (hJ.calls y hy).1) h0
      have hrep := hJ.rep.rep
      have h := wrg_metaBody w hJ.rep hok (offM_grid (owner := owner) hU hix) ho.hashed (hU.nonempty _ ho.mem) (fun hn => by
        have h1 := nodup_sub_length (l := x.2.1.text :: gKeys keys0 H) (List.nodup_cons.2 ⟨hn, hrep.nodup⟩)
          (List.cons_subset.2 ⟨ho.mem, hsub⟩)
        have := hU.univ.size
        simp only [List.length_cons] at h1
        omega) (fun k' hk' => hU.univ.inj k' (hsub hk') _ ho.mem) hb1 hb2
      refine rg_mono (fun _ _ h => h) ?_ ?_ (rg_frame w h)
      · rintro a a' ⟨hg, hf⟩
        have same : ∀ y, ¬ atSlot E ix.name x.2.1.text (metaPlace (gKeys keys0 H) x.2.1.text) y → SameAt a a' y :=
          fun y hy => hg y (not_not.2 hy)
        refine ⟨fun y hy => same y fun hc => offM_grid hU hix y (atSlot_meta hc) (not_not.1 hy), fun j hj k hk => ?_, trivial⟩
        have hne : k ≠ x.2.1.text := by
          rintro rfl
          rcases hk.2 with h | h
          · rw [ho.own] at h; injection h with h; exact hj h.symm
          · rw [ho.own] at h; cases h
        have hhash : ¬ atSlot E ix.name x.2.1.text (metaPlace (gKeys keys0 H) x.2.1.text) (hashAddr E ix.name (E.utf8 k)) := by
          rintro (h | h | h | h)
          · rw [addr_hash] at h; exact hash_ne_mem _ _ h
          · rw [addr_hash] at h; exact (key_ne_hash _ _ _) h.symm
          · exact hne (hU.univ.inj _ hk.1 _ ho.mem (hashAddr_inj h))
          · exact (slot_hash_ne (m := 0)).1 h
        have hold : a.content (hashAddr E ix.name (E.utf8 k)) = s.content (hashAddr E ix.name (E.utf8 k)) :=
          (hf _ fun hc => hc.elim (offM_grid hU hix _ (index_meta (indexNames_hash _ _ _))) fun h => h hhash).2
        refine ⟨fun n hn hc => ⟨same _ hhash, same _ ?_⟩, fun hc => by rw [(same _ hhash).2]; exact hc, fun hn => same _ fun hc =>
          pad_not_meta (hU.free k hk.1) hix (atSlot_meta hc)⟩
        rw [hold] at hc
        have hin : k ∈ gKeys keys0 H := by
          by_contra hnin
          rw [hrep.absent fun k' hk' e => hnin (hU.univ.inj k' (hsub hk') k hk.1 e ▸ hk')] at hc
          cases hc
        obtain ⟨p, hp⟩ := List.mem_iff_getElem?.1 hin
        have hpn : p = n := by
          rw [hrep.hash p k hp] at hc
          injection hc with hc
          exact toLE_inj (by have := lt_of_getElem? hp; have := hrep.bound; omega) hn hc
        subst hpn
        rintro (h | h | h | h)
        · exact (slot_hash_ne (E := E) (b := []) (m := 0)).2.2 h.symm
        · exact (slot_hash_ne (E := E) (b := [])).2.1 h.symm
        · exact (slot_hash_ne (m := 0)).1 h.symm
        · rw [val_eq, metaPlace] at h
          cases hq : position x.2.1.text (gKeys keys0 H) with
          | none => rw [hq] at h; simp at h; have := lt_of_getElem? hp; omega
          | some q =>
            rw [hq] at h
            simp at h
            have := position_some hq
            rw [← h, hp] at this
            injection this with this
            exact hne this
      · rintro r s' ⟨⟨rfl, hm⟩, hs⟩
        refine ⟨?_, ?_, fun y hy => ?_⟩
        · rw [gKeys_snoc, gVals_snoc]
          simpa only [encOf, hb1] using hm
        · intro y hy
          rcases List.mem_append.1 hy with hy | hy
          · exact hJ.calls y hy
          · rw [List.mem_singleton] at hy
            subst hy
            exact ⟨ho, _, rfl⟩
        · rw [← hJ.still y hy]
          refine (hs y fun hc => hc.elim (still_not_X hU hix hy) fun h => h fun hc => ?_).2
          obtain ⟨k, h1, _, rfl⟩ := hy
          exact pad_not_meta h1 hix (atSlot_meta hc)
    · rw [if_neg ho]; trivial
  adm_of := fun H s h => h.calls
  adm_prefix := fun H H' h x hx => h x (List.mem_append_left _ hx)

end Verif.Lemmas
