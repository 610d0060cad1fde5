import Verif.Lemmas.Private
import Verif.Lemmas.GridHist
import Verif.Model.Views
import Verif.Spec.Views
/-!
# Segments that a program does not reach
-/
namespace Verif.Lemmas
open Verif Verif.Model Verif.Spec
variable {α β : Type} {E : Env} {D : Str → Prop} {H : Nat → Prop}

/-- A program that keeps to names in `D`, none of which stands for the segment `h`, and to handles other than `h`, leaves the
segment and the names outside `D` as they are. -/
theorem uses_seg {Q : Except PyErr α → (Nat → Prop) → Prop} {p : Prog α} (hp : Uses D Q p H) {s : Store} {h : Nat}
    (hD : ∀ x, D x → s.names x ≠ some h) (hn : h < s.next) (hH : ¬ H h) :
    (p.run E s).2.segs h = s.segs h ∧ (∀ x, ¬ D x → (p.run E s).2.names x = s.names x) ∧
    (∀ x, D x → (p.run E s).2.names x ≠ some h) ∧ h < (p.run E s).2.next := by
  induction p generalizing s H with
  | ret a => exact ⟨rfl, fun _ _ => rfl, hD, hn⟩
  | raise e => exact ⟨rfl, fun _ _ => rfl, hD, hn⟩
  | stuck => exact ⟨rfl, fun _ _ => rfl, hD, hn⟩
  | op o k ih =>
    have next : ∀ r s' (H' : Nat → Prop), o.step E s = (r, s') → Uses D Q (k r) H' → ¬ H' h →
        s'.segs h = s.segs h → (∀ x, ¬ D x → s'.names x = s.names x) → (∀ x, D x → s'.names x ≠ some h) → h < s'.next →
        ((Prog.op o k).run E s).2.segs h = s.segs h ∧ (∀ x, ¬ D x → ((Prog.op o k).run E s).2.names x = s.names x) ∧
        (∀ x, D x → ((Prog.op o k).run E s).2.names x ≠ some h) ∧ h < ((Prog.op o k).run E s).2.next := by
      intro r s' H' he h1 h2 h3 h4 h5 h6
      have e : (Prog.op o k).run E s = (k r).run E s' := by simp only [Prog.run, he]
      rw [e]
      obtain ⟨a1, a2, a3, a4⟩ := ih _ h1 h5 h6 h2
      exact ⟨a1.trans h3, fun x hx => (a2 x hx).trans (h4 x hx), a3, a4⟩
    cases o with
    | create n z =>
      obtain ⟨hDn, hu⟩ := hp
      have err : ∀ e : PyErr, ¬ plus H (.error e) h := by rintro e (h | h); exacts [hH h, by cases h]
      by_cases hz : z = 0
      · exact next (.error .valueError) s _ (by simp [Op.step, hz]) (hu _) (err _) rfl (fun _ _ => rfl) hD hn
      by_cases hok : E.okName n = false
      · exact next (.error .osError) s _ (by simp [Op.step, hz, hok]) (hu _) (err _) rfl (fun _ _ => rfl) hD hn
      rcases hnn : s.names n with _ | i
      · refine next (.ok s.next) (s.created n z) _ (by simp only [Op.step, if_neg hz, if_neg hok, hnn, Store.created]) (hu _)
          (by rintro (h | h); exacts [hH h, by cases h; exact Nat.lt_irrefl _ hn]) ?_ ?_ ?_ (Nat.lt_succ_of_lt hn)
        · exact if_neg (Nat.ne_of_lt hn)
        · intro x hx
          exact if_neg (by rintro rfl; exact hx hDn)
        · intro x hx
          by_cases hxn : x = n
          · subst hxn; simp only [Store.created, if_true]; intro he; cases he; exact Nat.lt_irrefl _ hn
          · simp only [Store.created, if_neg hxn]; exact hD x hx
      · exact next (.error .fileExists) s _ (by simp only [Op.step, if_neg hz, if_neg hok, hnn]) (hu _) (err _) rfl (fun _ _ => rfl) hD hn
    | attach n =>
      obtain ⟨hDn, hu⟩ := hp
      have err : ∀ e : PyErr, ¬ plus H (.error e) h := by rintro e (h | h); exacts [hH h, by cases h]
      by_cases hok : E.okName n = false
      · exact next (.error .osError) s _ (by simp [Op.step, hok]) (hu _) (err _) rfl (fun _ _ => rfl) hD hn
      rcases hnn : s.names n with _ | i
      · exact next (.error .fileNotFound) s _ (by simp only [Op.step, if_neg hok, hnn]) (hu _) (err _) rfl (fun _ _ => rfl) hD hn
      · exact next (.ok i) s _ (by simp only [Op.step, if_neg hok, hnn]) (hu _)
          (by rintro (h | h); exacts [hH h, by cases h; exact hD n hDn hnn]) rfl (fun _ _ => rfl) hD hn
    | unlink n =>
      obtain ⟨hDn, hu⟩ := hp
      rcases hnn : s.names n with _ | i
      · exact next (.error .fileNotFound) s _ (by simp only [Op.step, hnn]) (hu _) hH rfl (fun _ _ => rfl) hD hn
      · refine next (.ok ()) { s with names := fun x => if x = n then none else s.names x } _ (by simp only [Op.step, hnn]) (hu _) hH rfl ?_ ?_ hn
        · intro x hx
          exact if_neg (by rintro rfl; exact hx hDn)
        · intro x hx
          by_cases hxn : x = n
          · subst hxn; simp only [if_true]; intro he; cases he
          · simp only [if_neg hxn]; exact hD x hx
    | read i => exact next _ s _ rfl (hp.2 _) hH rfl (fun _ _ => rfl) hD hn
    | write i b =>
      obtain ⟨hi, hu⟩ := hp
      have hne : h ≠ i := by rintro rfl; exact hH hi
      by_cases hl : b.length = (s.segs i).length
      · exact next (.ok ()) { s with segs := fun j => if j = i then b else s.segs j } _ (by simp only [Op.step, if_pos hl]) (hu _) hH (if_neg hne) (fun _ _ => rfl) hD hn
      · exact next (.error .valueError) s _ (by simp only [Op.step, if_neg hl]) (hu _) hH rfl (fun _ _ => rfl) hD hn
    | writeFront i b =>
      obtain ⟨hi, hu⟩ := hp
      have hne : h ≠ i := by rintro rfl; exact hH hi
      exact next _ _ _ rfl (hu _) hH (if_neg hne) (fun _ _ => rfl) hD hn

theorem uses_writeFront {h : Nat} {b : Bytes} (hh : H h) : Uses D anyEnd (writeFront h b) H := ⟨hh, fun r => by cases r <;> trivial⟩

theorem uses_memorizeV {M : Type} {c : Codec M} {v : M} {a : Str} {eo : Bool} (ha : D a) : Uses D anyEnd (memorize c v a eo) H := by
  have tail : ∀ H' : Nat → Prop, Uses D anyEnd (do
      let encoded ← Prog.ofExcept (c.encode v)
      let block ← openBlock a encoded.length true true
      write block encoded
      pure a : Prog Str) H' := fun H' =>
    uses_then uses_ofExcept fun _ _ _ => uses_handle (uses_openBlock ha) fun _ _ _ hh => uses_then (uses_write hh) fun _ _ _ => trivial
  unfold memorize
  cases eo with
  | true => simp only [Bool.true_eq_false, if_false]; exact tail _
  | false =>
    simp only [if_true]
    refine uses_then (uses_existsBlock ha) fun b H1 _ => ?_
    cases b
    · exact tail _
    · trivial

theorem uses_memorizeArray {ar : Arr} {a : Str} {eo : Bool} (ha : D a) : Uses D anyEnd (memorizeArray ar a eo) H := by
  unfold memorizeArray
  refine uses_handle (uses_openBlock ha) fun i H1 _ hi => uses_then (uses_read hi) fun buf H2 s2 => ?_
  split
  · trivial
  split
  · trivial
  exact uses_then (uses_writeFront (s2 _ hi)) fun _ _ _ => trivial

section
variable {name : Str} (hD : ∀ sl : Slot, D (sl.addr name)) {ix : Index} (hn : ix.name = name)
include hD hn

theorem uses_metaAdd {M : Type} {c : Codec M} (hm : H ix.memory) (mode : LockMode) (key : Key) (value : Option M) (eo : Bool) :
    Uses D anyEnd (metaAdd E c mode ix key value eo) H := by
  have hv : ∀ n, D (valAddr ix.name n) := fun n => by rw [hn, addr_val]; exact hD _
  unfold metaAdd
  rw [hn]
  refine uses_withLock hD mode fun H' hs => uses_then (uses_indexAdd_ hD hn (hs _ hm) key eo) fun w H1 _ => ?_
  cases value with
  | none => trivial
  | some v => exact uses_then (uses_memorizeV (by rw [← hn]; exact hv _)) fun _ _ _ => trivial

theorem uses_metaDel (hm : H ix.memory) (mode : LockMode) (key : Key) : Uses D anyEnd (metaDel E mode ix key) H := by
  have hv : ∀ n, D (valAddr ix.name n) := fun n => by rw [hn, addr_val]; exact hD _
  unfold metaDel
  rw [hn]
  refine uses_withLock hD mode fun H' hs => uses_then (uses_indexDel hD hn (hs _ hm) mode key) fun r H1 _ => ?_
  obtain ⟨found, n⟩ := r
  rw [hn] at hv
  dsimp only
  have h1 : ∀ H2 : Nat → Prop, Uses D anyEnd (if found + 1 = n then pure false else existsBlock (valAddr name (n - 1)) : Prog Bool) H2 := by
    intro H2; split
    · trivial
    · exact uses_existsBlock (hv _)
  refine uses_then (h1 _) fun b H2 _ => ?_
  split
  · exact uses_then (uses_deleteBlock (hv _)) fun _ _ _ => trivial
  · refine uses_then (uses_existsBlock (hv _)) fun b H3 _ => ?_
    cases b
    · trivial
    · exact uses_handle (uses_attach (hv _)) fun vh H4 _ hh => uses_then (uses_read hh) fun vb H5 _ =>
        uses_handle (uses_openBlock (hv _)) fun mh H6 _ hmh => uses_then (uses_write hmh) fun _ H7 _ =>
        uses_then (uses_deleteBlock (hv _)) fun _ _ _ => trivial

theorem uses_indexClose : Uses D anyEnd (indexClose ix) H := by
  subst hn
  have h1 : D ix.name := by have := hD .mem; rwa [← addr_mem] at this
  have h2 : D (countAddr ix.name) := by rw [addr_count]; exact hD _
  unfold indexClose
  refine uses_then (uses_unlink h1) fun _ _ _ => uses_then (uses_existsBlock h2) fun b _ _ => ?_
  cases b
  · trivial
  · exact uses_handle (uses_attach h2) fun _ _ _ _ => uses_unlink h2

end

/-- the segment `h` is the block `b` of the key `k` -/
structure HoldsBlock (pre k : Str) (h : Nat) (b : Block) (s : Store) : Prop where
  lt : h < s.next
  bytes : s.segs h = b.bytes
  name : ∀ x, s.names x = some h ↔ (b.held = true ∧ x = padAddr pre k)

variable {pre k : Str} {h : Nat} {b : Block} {s : Store}

/-- the names other than the block's -/
def Off (b : Block) (pre k : Str) (x : Str) : Prop := ¬ (b.held = true ∧ x = padAddr pre k)

theorem HoldsBlock.quiet (hh : HoldsBlock pre k h b s) {p : Prog α}
    (hp : Uses (Off b pre k) anyEnd p H) (hH : ¬ H h) : HoldsBlock pre k h b (p.run E s).2 := by
  obtain ⟨h1, h2, h3, h4⟩ := uses_seg (E := E) hp (fun x hx he => hx ((hh.name x).1 he)) hh.lt hH
  refine ⟨h4, h1.trans hh.bytes, fun x => ?_⟩
  by_cases hx : b.held = true ∧ x = padAddr pre k
  · rw [h2 x (fun hn => hn hx)]; exact hh.name x
  · exact ⟨fun he => absurd he (h3 x hx), fun he => absurd he hx⟩

/-- the block when the key is deleted -/
theorem HoldsBlock.unlinked (hh : HoldsBlock pre k h b s) : HoldsBlock pre k h ⟨false, b.bytes⟩ (s.unlinked (padAddr pre k)) := by
  refine ⟨hh.lt, hh.bytes, fun x => ?_⟩
  simp only [Bool.false_eq_true, false_and, iff_false, Store.unlinked]
  split
  · simp
  · rename_i hx
    intro he
    exact hx ((hh.name x).1 he).2

section
variable {name : Str} (hD : ∀ sl : Slot, D (sl.addr name)) {g : Grid} (hn : g.index.name = name)
include hD hn

theorem uses_gridSet {c : Codec ArrMeta} (hm : H g.index.memory) (key : Key) (a : Arr) (eo : Bool) (hp : D (padAddr g.pre key.text)) :
    Uses D anyEnd (gridSet E c g key a eo) H := by
  unfold gridSet
  split
  · trivial
  refine uses_try (uses_memorizeArray hp) fun r H1 h1 => ?_
  rcases r with e | m
  · cases e <;> trivial
  · exact uses_then (uses_metaAdd hD hn (h1 _ hm) _ _ _ _) fun _ _ _ => trivial

theorem uses_gridDel (hm : H g.index.memory) (key : Key) (hp : D (padAddr g.pre key.text)) :
    Uses D anyEnd (gridDel E g key) H := by
  unfold gridDel
  split
  · trivial
  refine uses_try (uses_then (uses_deleteBlock hp) fun _ H1 h1 =>
    uses_then (uses_metaDel hD hn (h1 _ hm) _ _) fun _ _ _ => trivial) fun r H1 h1 => ?_
  rcases r with e | m
  · cases e <;> trivial
  · trivial

end

theorem uses_gridInit {pre : Str} (hD : D (indexName pre)) (cr : Bool) (mode : LockMode) : Uses D anyEnd (gridInit pre cr mode) H := by
  unfold gridInit metaIndexInit tagIndexInit
  refine uses_then (uses_then ?_ fun ix H1 _ => ?_) fun _ _ _ => trivial
  · cases cr
    · simp only [if_true]
      refine uses_then (uses_existsBlock hD) fun b _ _ => ?_
      cases b
      · trivial
      · exact uses_handle (uses_attach hD) fun _ _ _ _ => trivial
    · simp only [Bool.true_eq_false, if_false]
      exact uses_handle (uses_create hD) fun _ _ _ _ => trivial
  · cases cr
    · trivial
    · exact uses_handle (uses_attach hD) fun _ _ _ _ => trivial

section
variable {c : Codec ArrMeta} {nbytes : Str → List Nat → Nat} {U : Str → Prop} (hU : KeysOK E pre U) {g : Grid} (hg : g.pre = pre)
  (hgi : g.index.name = indexName pre)

/-- where the block's holder may go -/
theorem elsewhere_slot (hk : ¬ indexWord <+: k) (sl : Slot) : Off b pre k (sl.addr (indexName pre)) :=
  fun h => slot_ne_pad hk sl h.2

include hU hg hgi

/-- `del gp[key]` -/
theorem HoldsBlock.gridDel (hk : U k) (hh : HoldsBlock pre k h b s) (hm : g.index.memory ≠ h) (key : Key) :
    HoldsBlock pre k h (if key.text = k then ⟨false, b.bytes⟩ else b) ((gridDel E g key).run E s).2 := by
  have hfree := hU.free _ hk
  by_cases hkk : key.text = k
  · rw [if_pos hkk]
    cases hb : b.held with
    | false =>
      have hb' : (⟨false, b.bytes⟩ : Block) = b := by cases b; simp only at hb; rw [hb]
      rw [hb']
      exact hh.quiet (uses_gridDel (D := Off b pre k) (H := fun i => i = g.index.memory) (elsewhere_slot hfree) hgi rfl key (fun h => by rw [hb] at h; cases h.1))
        (fun he => hm he.symm)
    | true =>
      have hn : s.names (padAddr g.pre key.text) = some h := (hh.name _).2 ⟨hb, by rw [hg, hkk]⟩
      have hokp : E.okName (padAddr g.pre key.text) = true := by rw [hg, hkk]; exact hU.ok _ hk
      have h1 := hh.unlinked
      have h2 := h1.quiet (E := E)
        (uses_metaDel (E := E) (H := fun i => i = g.index.memory) (elsewhere_slot (b := ⟨false, b.bytes⟩) hfree) hgi rfl g.mode key) (fun he => hm he.symm)
      have e : ((Model.gridDel E g key).run E s).2 = ((metaDel E g.mode g.index key).run E (s.unlinked (padAddr pre k))).2 := by
        unfold Model.gridDel
        rw [not_reservedExact (by rw [hkk]; exact hfree)]
        simp only [Bool.false_eq_true, if_false]
        rw [run_bind, run_attempt, run_bind, run_deleteBlock hokp hn, andThen_ok, run_bind, hg, hkk]
        rcases (metaDel E g.mode g.index key).run E (s.unlinked (padAddr pre k)) with ⟨o, s'⟩
        cases o with
        | ok _ => rfl
        | err e => cases e <;> rfl
        | stuck => rfl
      rw [e]
      exact h2
  · rw [if_neg hkk]
    exact hh.quiet (uses_gridDel (D := Off b pre k) (H := fun i => i = g.index.memory) (elsewhere_slot hfree) hgi rfl key
      (fun h => hkk (pad_inj (by rw [hg] at h; exact h.2)))) (fun he => hm he.symm)

/-- deleting several keys -/
theorem HoldsBlock.gridDelAll (hk : U k) (hm : g.index.memory ≠ h) (l : List Str) (hh : HoldsBlock pre k h b s) :
    ∃ b', b'.bytes = b.bytes ∧ HoldsBlock pre k h b' ((gridDelAll E g l).run E s).2 := by
  induction l generalizing s b with
  | nil => exact ⟨b, rfl, hh⟩
  | cons x t ih =>
    have h1 := hh.gridDel hU hg hgi hk hm (.str x)
    rw [Model.gridDelAll, run_bind]
    rcases hr : (Model.gridDel E g (.str x)).run E s with ⟨o, s1⟩
    rw [hr] at h1
    have hb : (if (Key.str x).text = k then (⟨false, b.bytes⟩ : Block) else b).bytes = b.bytes := by split <;> rfl
    cases o with
    | ok _ =>
      obtain ⟨b', e, h2⟩ := ih h1
      exact ⟨b', e.trans hb, h2⟩
    | err e => exact ⟨_, hb, h1⟩
    | stuck => exact ⟨_, hb, h1⟩

/-- `gp[key] = a` -/
theorem HoldsBlock.gridSet (hk : U k) (w : s.WF) (hh : HoldsBlock pre k h b s) (hm : g.index.memory ≠ h) {key : Key} {a : Arr}
    (ha : ArrOK c nbytes pre key.text a) :
    HoldsBlock pre k h (if key.text = k ∧ b.held = true ∧ a.data.length ≤ b.bytes.length then ⟨true, a.data ++ b.bytes.drop a.data.length⟩
      else b) ((gridSet E c g key a true).run E s).2 := by
  have hfree := hU.free _ hk
  by_cases hkk : key.text = k ∧ b.held = true
  · obtain ⟨hkk, hb⟩ := hkk
    have hn : s.names (padAddr g.pre key.text) = some h := (hh.name _).2 ⟨hb, by rw [hg, hkk]⟩
    have hokp : E.okName (padAddr g.pre key.text) = true := by rw [hg, hkk]; exact hU.ok _ hk
    have hc : s.content (padAddr g.pre key.text) = some b.bytes := by
      simp only [Store.content, hn, Option.map_some, hh.bytes]
    have hz : a.data.length ≠ 0 := by simpa using ha.data
    unfold Model.gridSet
    rw [not_reserved (by rw [hkk]; exact hfree)]
    simp only [Bool.false_eq_true, if_false]
    by_cases hfit : a.data.length ≤ b.bytes.length
    · rw [if_pos ⟨hkk, hb, hfit⟩]
      have e1 : (memorizeArray a (padAddr g.pre key.text) true).run E s = (.ok ⟨padAddr g.pre key.text, a.dtype, a.shape, a.data.length⟩,
          s.wrote h (a.data ++ b.bytes.drop a.data.length)) := by
        rw [memorizeArray, run_bind, run_openBlock_attach hz hokp hn, andThen_ok, run_bind, run_read, andThen_ok, hh.bytes,
          if_neg (by omega), if_neg ha.dim, run_bind, run_writeFront, hh.bytes]
        rfl
      have h1 : HoldsBlock pre k h ⟨true, a.data ++ b.bytes.drop a.data.length⟩ (s.wrote h (a.data ++ b.bytes.drop a.data.length)) := by
        refine ⟨hh.lt, by simp [Store.wrote], fun x => ?_⟩
        have := hh.name x
        rw [hb] at this
        exact this
      have h2 := h1.quiet (E := E)
        (uses_metaAdd (E := E) (H := fun i => i = g.index.memory) (c := c) (elsewhere_slot hfree) hgi rfl g.mode key
          (some ⟨padAddr g.pre key.text, a.dtype, a.shape, a.data.length⟩) true) (fun he => hm he.symm)
      rw [run_bind, run_attempt, e1, asValue_ok, andThen_ok]
      simp only []
      rw [run_bind]
      rcases hr : (metaAdd E c g.mode g.index key (some ⟨padAddr g.pre key.text, a.dtype, a.shape, a.data.length⟩) true).run E
        (s.wrote h (a.data ++ b.bytes.drop a.data.length)) with ⟨o, s'⟩
      rw [hr] at h2
      cases o <;> exact h2
    · rw [if_neg (fun h => hfit h.2.2), run_bind, run_attempt, run_memorizeArray_big (a := a) hokp ha.data hc (by omega)]
      exact hh
  · rw [if_neg (fun h => hkk ⟨h.1, h.2.1⟩)]
    exact hh.quiet (uses_gridSet (D := Off b pre k) (H := fun i => i = g.index.memory) (elsewhere_slot hfree) hgi rfl key a true
      (fun h => hkk ⟨pad_inj (by rw [hg] at h; exact h.2), h.1⟩)) (fun he => hm he.symm)

end

section
variable {c : Codec ArrMeta} {nbytes : Str → List Nat → Nat} {U : Str → Prop} {noLock : Bool} {cl : List Grid} {st : GridState Arr} {t : Nat}

/-- one call on the GridPaper -/
theorem stepGrid_block (hU : KeysOK E pre U) (hok : NamesOK E (indexName pre)) (w : s.WF)
    (hr : GridStRep E c nbytes pre U noLock s cl st t) (op : GridOp) (hop : GridOpOK E c nbytes pre U noLock op) (hk : U k)
    (hh : HoldsBlock pre k h b s) : HoldsBlock pre k h (blockNext (fun a : Arr => a.data) k st b op.call) (stepGrid E c nbytes pre cl s op).2.2 := by
  obtain ⟨n, map⟩ := st
  obtain ⟨hn, h2⟩ := hr
  simp only at hn h2
  subst hn
  have hfree := hU.free _ hk
  cases map with
  | none =>
    simp only at h2
    obtain ⟨rfl, hno⟩ := h2
    have hi : ¬ (b.held = true ∧ indexName pre = padAddr pre k) := by
      have := elsewhere_slot (pre := pre) (b := b) hfree .mem
      rwa [← addr_mem] at this
    cases op with
    | create mode => exact hh.quiet (H := fun _ => False) (uses_gridInit hi true mode) id
    | join mode => exact hh.quiet (H := fun _ => False) (uses_gridInit hi false mode) id
    | _ =>
      simp only [stepGrid, GridOp.call, GridCall.client?, List.getElem?_nil, blockNext, GridState.has,
        List.length_nil, Nat.not_lt_zero, decide_false, Bool.false_eq_true, if_false]
      exact hh
  | some m =>
    obtain ⟨ix, keys, f, fl, hrep, hfl, hcl⟩ := h2
    have hok' : NamesOK E ix.name := by rw [hrep.name]; exact hok
    have hi : ¬ (b.held = true ∧ indexName pre = padAddr pre k) := by
      have := elsewhere_slot (pre := pre) (b := b) hfree .mem
      rwa [← addr_mem] at this
    have hmem : ix.memory ≠ h := by
      intro he
      have h1 := hrep.rep.rep.mem
      rw [he, hrep.name] at h1
      exact hi ((hh.name _).1 h1)
    have gone : ∀ (op : GridOp) (n : Nat), op.call.client? = some n → ¬ n < cl.length →
        stepGrid E c nbytes pre cl s op = (.noClient, cl, s) →
        HoldsBlock pre k h (blockNext (fun a : Arr => a.data) k ⟨cl.length, some m⟩ b op.call) (stepGrid E c nbytes pre cl s op).2.2 := by
      intro op n h1 h2 h3
      have hh' : GridState.has (⟨cl.length, some m⟩ : GridState Arr) op.call = false := by simp [GridState.has, h1, h2]
      rw [h3]
      simp only [blockNext, hh', Bool.false_eq_true, if_false]
      exact hh
    cases op with
    | create mode => exact hh.quiet (H := fun _ => False) (uses_gridInit hi true mode) id
    | join mode => exact hh.quiet (H := fun _ => False) (uses_gridInit hi false mode) id
    | set n key a =>
      by_cases hn : n < cl.length
      · obtain ⟨hg, hgi, hm, _⟩ := hcl cl[n] (List.getElem_mem hn)
        simp only [stepGrid, GridOp.call, GridCall.client?, List.getElem?_eq_getElem hn, gridCall, blockNext,
          GridState.has, hn, decide_true, if_true]
        exact hh.gridSet hU hg (by rw [hgi]; exact hrep.name) hk w (by rw [hgi]; exact hmem) hop.2.2
      · exact gone _ n rfl hn (by
          simp only [stepGrid, GridOp.call, GridCall.client?, List.getElem?_eq_none (Nat.not_lt.1 hn)])
    | get n key =>
      by_cases hn : n < cl.length
      · obtain ⟨hg, hgi, hm, _⟩ := hcl cl[n] (List.getElem_mem hn)
        have e := run_gridGet hU hok hrep hgi hop.1 hop.2
        simp only [stepGrid, GridOp.call, GridCall.client?, List.getElem?_eq_getElem hn, gridCall, e, blockNext,
          GridState.has, hn, decide_true, if_true]
        exact hh
      · exact gone _ n rfl hn (by
          simp only [stepGrid, GridOp.call, GridCall.client?, List.getElem?_eq_none (Nat.not_lt.1 hn)])
    | getD n key d =>
      by_cases hn : n < cl.length
      · obtain ⟨hg, hgi, hm, _⟩ := hcl cl[n] (List.getElem_mem hn)
        have e := run_gridGetD hU hok hrep hgi hop.1 hop.2 d
        simp only [stepGrid, GridOp.call, GridCall.client?, List.getElem?_eq_getElem hn, gridCall, e, blockNext,
          GridState.has, hn, decide_true, if_true]
        exact hh
      · exact gone _ n rfl hn (by
          simp only [stepGrid, GridOp.call, GridCall.client?, List.getElem?_eq_none (Nat.not_lt.1 hn)])
    | del n key =>
      by_cases hn : n < cl.length
      · obtain ⟨hg, hgi, hm, _⟩ := hcl cl[n] (List.getElem_mem hn)
        simp only [stepGrid, GridOp.call, GridCall.client?, List.getElem?_eq_getElem hn, gridCall, blockNext,
          GridState.has, hn, decide_true, if_true]
        exact hh.gridDel hU hg (by rw [hgi]; exact hrep.name) hk (by rw [hgi]; exact hmem) key
      · exact gone _ n rfl hn (by
          simp only [stepGrid, GridOp.call, GridCall.client?, List.getElem?_eq_none (Nat.not_lt.1 hn)])
    | keys n =>
      by_cases hn : n < cl.length
      · obtain ⟨hg, hgi, hm, _⟩ := hcl cl[n] (List.getElem_mem hn)
        have e := run_indexUpdate hrep.rep.rep hok'
        simp only [stepGrid, GridOp.call, GridCall.client?, List.getElem?_eq_getElem hn, gridCall, hgi, e, blockNext,
          GridState.has, hn, decide_true, if_true]
        exact hh
      · exact gone _ n rfl hn (by
          simp only [stepGrid, GridOp.call, GridCall.client?, List.getElem?_eq_none (Nat.not_lt.1 hn)])
    | close n =>
      by_cases hn : n < cl.length
      · obtain ⟨hg, hgi, hm, hfake⟩ := hcl cl[n] (List.getElem_mem hn)
        obtain ⟨s', e, w', hno, _⟩ := run_gridClose hU hok hg hgi (hfake hop) w hrep
        have hn' : cl[n].index.name = indexName pre := by rw [hgi]; exact hrep.name
        have hm' : cl[n].index.memory ≠ h := by rw [hgi]; exact hmem
        obtain ⟨b', hb', h'⟩ : ∃ b', b'.bytes = b.bytes ∧ HoldsBlock pre k h b' s' := by
          have e2 := e
          rw [gridClose, hgi, run_bind, run_indexUpdate hrep.rep.rep hok', andThen_ok, run_bind] at e2
          obtain ⟨b', hb', h1⟩ := hh.gridDelAll (E := E) hU hg hn' hk hm' keys
          rcases hr : (gridDelAll E cl[n] keys).run E s with ⟨o, s1⟩
          rw [hr] at h1 e2
          cases o with
          | ok _ =>
            have h3 := h1.quiet (E := E) (H := fun _ => False) (uses_indexClose (elsewhere_slot hfree) hrep.name) id
            rw [show (indexClose ix).run E s1 = (.ok (), s') from e2] at h3
            exact ⟨b', hb', h3⟩
          | err x => simp at e2
          | stuck => simp at e2
        simp only [stepGrid, GridOp.call, GridCall.client?, List.getElem?_eq_getElem hn, gridCall, e, blockNext,
          GridState.has, hn, decide_true, if_true]
        have hoff : b'.held = false := by
          cases hb : b'.held with
          | false => rfl
          | true =>
            have h4 := content_none.1 (hno (padAddr pre k) (gridTouch_pad hU hk))
            rw [(h'.name _).2 ⟨hb, rfl⟩] at h4
            cases h4
        have : b' = ⟨false, b.bytes⟩ := by cases b'; simp only at hb' hoff; rw [hb', hoff]
        rw [← this]
        exact h'
      · exact gone _ n rfl hn (by
          simp only [stepGrid, GridOp.call, GridCall.client?, List.getElem?_eq_none (Nat.not_lt.1 hn)])

/-- a history of calls on the GridPaper -/
theorem playGrid_block (hU : KeysOK E pre U) (hok : NamesOK E (indexName pre)) (hk : U k) (ops : List GridOp)
    (hops : ∀ o ∈ ops, GridOpOK E c nbytes pre U noLock o) {cl : List Grid} {s : Store} (w : s.WF) {st : GridState Arr} {t : Nat}
    {b : Block} (hr : GridStRep E c nbytes pre U noLock s cl st t) (ht : 2 * (t + ops.length) + 2 < 256 ^ 5)
    (hh : HoldsBlock pre k h b s) :
    HoldsBlock pre k h (blockEnd (fun a : Arr => a.data) k st b (ops.map GridOp.call)) (playGrid E c nbytes pre ops cl s).2.2 := by
  induction ops generalizing cl s st t b with
  | nil => exact hh
  | cons op ops ih =>
    simp only [List.length_cons] at ht
    have h1 := stepGrid_block hU hok w hr op (hops _ List.mem_cons_self) hk hh
    obtain ⟨_, w', hr', _⟩ := stepGrid_spec hU hok w hr (by omega) op (hops _ List.mem_cons_self)
    exact ih (fun o ho => hops o (List.mem_cons_of_mem _ ho)) w' hr' (by omega) h1

/-- `gp.__getitem__(key, copy=False)` of a key there is -/
theorem run_gridView (hU : KeysOK E pre U) (hok : NamesOK E (indexName pre)) {ix : Index} {m : Str → Option (Arr × Nat)}
    {keys : List Str} {f : Str → Option Bytes} {fl : Nat} (hr : GridRep E c nbytes pre U s ix m keys f fl) {g : Grid}
    (hgi : g.index = ix) {key : Key} (hk : key.hashed E = E.utf8 key.text) (hUk : U key.text) (w : s.WF) {a : Arr} {room : Nat}
    (hmk : m key.text = some (a, room)) :
    ∃ h rest, (gridView E c nbytes g key).run E s = (.ok ⟨h, a.dtype, a.shape⟩, s) ∧
      HoldsBlock pre key.text h ⟨true, a.data ++ rest⟩ s ∧ a.data.length + rest.length = room := by
  have hokn : NamesOK E ix.name := by rw [hr.name]; exact hok
  have hokp : E.okName (padAddr pre key.text) = true := hU.ok _ hUk
  obtain ⟨i, hi⟩ := List.mem_iff_getElem?.1 ((hr.live key.text).2 (by rw [hmk]; simp))
  obtain ⟨b, hb, hdec⟩ := hr.info _ _ _ hmk
  obtain ⟨rest, hr1, hr2⟩ := hr.val _ _ _ hmk
  obtain ⟨j, hj, hjs⟩ := names_of_content hr1
  refine ⟨j, rest, ?_, ⟨w.lt hj, hjs, fun x => ⟨fun hx => ⟨rfl, w.inj hx hj⟩, fun hx => by rw [hx.2]; exact hj⟩⟩, hr2⟩
  unfold gridView
  rw [run_bind, run_attempt, run_bind, hgi, run_metaGet hr.rep hokn hk hi, hb, andThen_ok, rememberView, run_bind, hdec,
    run_ofExcept_ok, andThen_ok, run_bind]
  have hsz : nbytes (metaOf pre key.text a).dtype (metaOf pre key.text a).shape = a.data.length := hr.size _ _ _ hmk
  rw [run_attach (n := (metaOf pre key.text a).name) hokp hj, andThen_ok, run_bind, run_read, andThen_ok, hjs,
    if_neg (by rw [hsz, List.length_append]; omega)]
  rfl

theorem run_gridView_absent (hU : KeysOK E pre U) (hok : NamesOK E (indexName pre)) {ix : Index} {m : Str → Option (Arr × Nat)}
    {keys : List Str} {f : Str → Option Bytes} {fl : Nat} (hr : GridRep E c nbytes pre U s ix m keys f fl) {g : Grid}
    (hgi : g.index = ix) {key : Key} (hk : key.hashed E = E.utf8 key.text) (hUk : U key.text) (hmk : m key.text = none) :
    (gridView E c nbytes g key).run E s = (.err .keyError, s) := by
  have hokn : NamesOK E ix.name := by rw [hr.name]; exact hok
  have habs : ∀ k' ∈ keys, E.sha (E.utf8 k') ≠ E.sha (E.utf8 key.text) := fun k' hk' he =>
    (hr.live _).1 (hU.inj _ _ (hr.used k' hk') hUk he ▸ hk') hmk
  unfold gridView
  rw [run_bind, run_attempt, run_bind, hgi, run_metaGet_absent hr.rep hokn hk habs]
  rfl

/-- writing to the front of a key's block -/
theorem GridRep.poke {ix : Index} {m : Str → Option (Arr × Nat)}
    {keys : List Str} {f : Str → Option Bytes} {fl : Nat} (hr : GridRep E c nbytes pre U s ix m keys f fl) (hU : KeysOK E pre U)
    (hk : U k) {a : Arr} {room : Nat} (hmk : m k = some (a, room)) {data rest : Bytes} (hd : data.length = a.data.length)
    (hl : data.length + rest.length = room) {s' : Store} (e : Eff s s' (padAddr pre k) (some (data ++ rest))) :
    GridRep E c nbytes pre U s' ix (upd m k (some (⟨a.dtype, a.shape, data⟩, room))) keys f fl := by
  have hfree := hU.free _ hk
  have h1 : MetaRep E s' ix keys f := hr.rep.same (e.sameOff (P := fun x => x = padAddr pre k) rfl)
    (fun sl _ => by rw [hr.name]; exact slot_ne_pad hfree sl)
  have hc1 : LockClean s' (indexName pre) fl := hr.lock.same
    ((e.sameOff (P := fun x => x = padAddr pre k) rfl).mono
      (fun x hx hl => by obtain ⟨sl, _, he⟩ := hl; exact slot_ne_pad hfree sl (he.symm.trans hx)))
  have hcont : ∀ x, x ≠ k → s'.content (padAddr pre x) = s.content (padAddr pre x) := fun x hx => by
    rw [e.content, if_neg (fun he => hx (pad_inj he))]
  have old : ∀ {x a' room'}, x ≠ k → upd m k (some (⟨a.dtype, a.shape, data⟩, room)) x = some (a', room') → m x = some (a', room') :=
    fun hx h => by rwa [upd, if_neg hx] at h
  have new : ∀ {x a' room'}, x = k → upd m k (some (⟨a.dtype, a.shape, data⟩, room)) x = some (a', room') →
      a' = ⟨a.dtype, a.shape, data⟩ ∧ room' = room := fun hx h => by
    rw [upd, if_pos hx] at h; cases h; exact ⟨rfl, rfl⟩
  refine ⟨hr.name, h1, hc1, ?_, ?_, ?_, ?_, ?_, hr.used, hr.coded⟩
  · intro x
    rw [hr.live x, upd]
    by_cases hx : x = k
    · subst hx; simp [hmk]
    · simp [hx]
  · intro x a' room' h
    by_cases hx : x = k
    · obtain ⟨rfl, rfl⟩ := new hx h
      subst hx
      obtain ⟨b, hb1, hb2⟩ := hr.info _ _ _ hmk
      refine ⟨b, hb1, ?_⟩
      rw [hb2]
      simp [metaOf, hd]
    · exact hr.info _ _ _ (old hx h)
  · intro x a' room' h
    by_cases hx : x = k
    · obtain ⟨rfl, rfl⟩ := new hx h
      subst hx
      exact ⟨rest, by rw [e.content, if_pos rfl], hl⟩
    · rw [hcont x hx]
      exact hr.val _ _ _ (old hx h)
  · intro x a' room' h
    by_cases hx : x = k
    · obtain ⟨rfl, rfl⟩ := new hx h
      simp only [hd]
      exact hr.size _ _ _ hmk
    · exact hr.size _ _ _ (old hx h)
  · intro x hxf h
    by_cases hx : x = k
    · rw [upd, if_pos hx] at h; cases h
    · rw [hcont x hx]
      rw [upd, if_neg hx] at h
      exact hr.noval x hxf h

end
end Verif.Lemmas
