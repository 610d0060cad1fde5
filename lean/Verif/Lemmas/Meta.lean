import Verif.Lemmas.Blocked
import Verif.Lemmas.Pad
/-! # MetaTagIndex: a TagIndex whose keys carry values -/
namespace Verif.Lemmas
open Verif Verif.Model Verif.Spec
variable {M : Type} {E : Env} {c : Codec M}

/-- the store holds an index object `ix` listing `keys`, the key `k` carrying the bytes `f k`, if any -/
structure MetaRep (E : Env) (s : Store) (ix : Index) (keys : List Str) (f : Str → Option Bytes) : Prop where
  rep : IxRep E s ix keys
  val : ∀ i k, keys[i]? = some k → s.content (valAddr ix.name i) = f k
  noval : ∀ i, keys.length ≤ i → s.content (valAddr ix.name i) = none

/-- the addresses of an index and its values, without the lock's -/
def metaNames (name x : Str) : Prop := ∃ sl : Slot, sl.isLock = false ∧ x = sl.addr name

theorem meta_not_lock {name x : Str} (h : metaNames name x) : ¬ lockNames name x := by
  obtain ⟨sl, h1, rfl⟩ := h
  exact not_lockNames h1

theorem index_meta {name x : Str} (h : indexNames name x) : metaNames name x := by
  obtain ⟨sl, h1, rfl⟩ := h
  exact ⟨sl, by cases sl <;> simp_all [Slot.isIndex, Slot.isLock], rfl⟩

theorem metaNames_val (name : Str) (i : Nat) : metaNames name (valAddr name i) := ⟨.val i, rfl, addr_val _ _⟩

theorem val_not_index (name : Str) (i : Nat) : ¬ indexNames name (valAddr name i) := by
  rintro ⟨sl, h1, h2⟩
  rw [addr_val, addr_inj] at h2
  subst h2
  simp [Slot.isIndex] at h1

theorem val_eq {name : Str} {i j : Nat} : valAddr name i = valAddr name j ↔ i = j := by
  rw [addr_val, addr_val, addr_inj]; simp

theorem MetaRep.same {s s' : Store} {ix : Index} {keys : List Str} {f : Str → Option Bytes} (h : MetaRep E s ix keys f)
    {P : Str → Prop} (hs : SameOff P s s') (hP : ∀ sl : Slot, sl.isLock = false → ¬ P (sl.addr ix.name)) :
    MetaRep E s' ix keys f := by
  refine ⟨h.rep.same hs fun sl hsl => hP sl (by cases sl <;> simp_all [Slot.isIndex, Slot.isLock]), ?_, ?_⟩
  · intro i k hi
    rw [(hs _ (by rw [addr_val]; exact hP (.val i) rfl)).2]; exact h.val i k hi
  · intro i hi
    rw [(hs _ (by rw [addr_val]; exact hP (.val i) rfl)).2]; exact h.noval i hi

theorem MetaRep.sameLock {s s' : Store} {ix : Index} {keys : List Str} {f : Str → Option Bytes}
    (h : MetaRep E s ix keys f) (hs : SameOff (lockNames ix.name) s s') : MetaRep E s' ix keys f :=
  h.same hs fun _ hsl => not_lockNames hsl

theorem lt_of_getElem? {α : Type} {l : List α} {i : Nat} {a : α} (h : l[i]? = some a) : i < l.length := by
  by_contra hc
  rw [List.getElem?_eq_none (by omega)] at h; simp at h

/-- the value of a key is replaced -/
theorem MetaRep.stored {s s' : Store} {ix : Index} {keys : List Str} {f : Str → Option Bytes} (h : MetaRep E s ix keys f)
    {i : Nat} {k : Str} (hi : keys[i]? = some k) {o : Option Bytes} (hf : Eff s s' (valAddr ix.name i) o) :
    MetaRep E s' ix keys (upd f k o) := by
  have li := lt_of_getElem? hi
  refine ⟨h.rep.same (hf.sameOff (P := fun x => x = valAddr ix.name i) rfl) ?_, ?_, ?_⟩
  · intro sl hsl he
    exact val_not_index ix.name i (he ▸ ⟨sl, hsl, rfl⟩)
  · intro j k' hj
    rw [hf.content, upd]
    by_cases hij : j = i
    · subst hij
      rw [hi] at hj
      injection hj with hj
      rw [if_pos rfl, if_pos hj.symm]
    · rw [if_neg (by rw [val_eq]; exact hij), if_neg, h.val j k' hj]
      rintro rfl
      exact hij (h.rep.sha_inj hj hi rfl)
  · intro j hj
    rw [hf.content, if_neg (by rw [val_eq]; omega)]
    exact h.noval j hj

/-- a key is listed without a value -/
theorem MetaRep.listed {s s' : Store} {ix : Index} {keys : List Str} {f : Str → Option Bytes} (h : MetaRep E s ix keys f)
    {k : Str} (hr : IxRep E s' ix (keys ++ [k])) (hs : SameOff (indexNames ix.name) s s') :
    MetaRep E s' ix (keys ++ [k]) (upd f k none) := by
  have hnd := hr.nodup
  refine ⟨hr, ?_, ?_⟩
  · intro i k' hi
    rw [(hs _ (val_not_index _ i)).2, upd]
    by_cases hl : i < keys.length
    · rw [List.getElem?_append_left hl] at hi
      rw [if_neg, h.val i k' hi]
      rintro rfl
      have := List.mem_of_getElem? hi
      rw [List.nodup_append] at hnd
      exact hnd.2.2 _ this _ List.mem_cons_self rfl
    · rw [List.getElem?_append_right (by omega)] at hi
      have : k' = k := by
        have := List.mem_of_getElem? hi
        simpa using this
      rw [if_pos this]
      exact h.noval i (by omega)
  · intro i hi
    rw [List.length_append, List.length_singleton] at hi
    rw [(hs _ (val_not_index _ i)).2]
    exact h.noval i (by omega)

/-- what the values are after an add -/
def valAdd (keys : List Str) (f : Str → Option Bytes) (k : Str) (eo : Bool) : Option Bytes → Str → Option Bytes
  | o => match position k keys, eo, o with
    | none, _, o => upd f k o
    | some _, true, some b => upd f k (some b)
    | some _, _, _ => f

theorem upd_upd {V : Type} (m : Str → Option V) (k : Str) (a b : Option V) : upd (upd m k a) k b = upd m k b := by
  funext x; unfold upd; split <;> rfl

/-- `value`, if any, is encoded as `o`, which is not empty -/
def Encodes (c : Codec M) : Option M → Option Bytes → Prop
  | none, o => o = none
  | some v, o => ∃ b, o = some b ∧ c.encode v = .ok b ∧ b ≠ []

theorem run_metaAdd {s : Store} (w : s.WF) {ix : Index} {keys : List Str} {f : Str → Option Bytes} {fl : Nat}
    {mode : LockMode} (h : MetaRep E s ix keys f) (hc : LockClean s ix.name fl) (hb : fl + 1 < 256 ^ 5)
    (hok : NamesOK E ix.name) (hm : mode.Runs) {key : Key} (hk : key.hashed E = E.utf8 key.text) (hne : key.text ≠ [])
    (hlen : keys.length + 1 < 256 ^ 8)
    (hinj : ∀ k' ∈ keys, E.sha (E.utf8 k') = E.sha (E.utf8 key.text) → k' = key.text) (eo : Bool)
    {value : Option M} {o : Option Bytes} (hv : Encodes c value o) :
    ∃ s' fl' r, (metaAdd E c mode ix key value eo).run E s = (r, s') ∧ toExcept r = some (ixAdd keys key.text eo).1 ∧
      s'.WF ∧ MetaRep E s' ix (ixAdd keys key.text eo).2 (valAdd keys f key.text eo o) ∧ LockClean s' ix.name fl' ∧
      fl' ≤ fl + 1 ∧ SameOff (fun x => metaNames ix.name x ∨ lockNames ix.name x) s s' := by
  obtain ⟨r, s1, s2, s3, fl', e, hr, w3, hc3, hfl, hs1, ⟨hr', hrep, hs2⟩, hs3⟩ := run_withLock w hok hm hc hb
    (body := do
      let w ← indexAdd_ E ix key eo
      match value with
      | some v => do
        let _ ← memorize c v (valAddr ix.name w) true
        pure w
      | none => pure w)
    (fun r s1 s2 => toExcept r = some (ixAdd keys key.text eo).1 ∧
      MetaRep E s2 ix (ixAdd keys key.text eo).2 (valAdd keys f key.text eo o) ∧ SameOff (metaNames ix.name) s1 s2) (by
      intro s1 w1 hs1
      have h1 := h.sameLock hs1
      unfold ixAdd valAdd
      cases hp : position key.text keys with
      | some i =>
        have hi := position_some hp
        have li := lt_of_getElem? hi
        have ea := run_indexAddOld h1.rep hok hk hi eo
        cases eo with
        | false =>
          refine ⟨.err .fileExists, s1, ?_, by simp, w1, SameOff.refl _ _, rfl, ?_, SameOff.refl _ _⟩
          · rw [run_bind, ea]; rfl
          · cases o <;> exact h1
        | true =>
          cases value with
          | none =>
            have : o = none := hv
            subst this
            refine ⟨.ok i, s1, ?_, by simp, w1, SameOff.refl _ _, rfl, h1, SameOff.refl _ _⟩
            rw [run_bind, ea]; rfl
          | some v =>
            obtain ⟨b, rfl, henc, hbn⟩ := hv
            obtain ⟨s2, e2, f2⟩ := run_memorize (E := E) (c := c) w1 (v := v) (a := valAddr ix.name i) (existsOk := true)
              (hok.val _ (by omega)) henc hbn (Or.inl rfl)
            have hs2 : SameOff (metaNames ix.name) s1 s2 := f2.sameOff (metaNames_val _ _)
            refine ⟨.ok i, s2, ?_, by simp, f2.wf, hs2.mono fun _ => meta_not_lock, rfl, h1.stored hi f2, hs2⟩
            rw [run_bind, ea]
            simp only [if_true, andThen_ok]
            rw [run_bind, e2]; rfl
      | none =>
        rw [position_none] at hp
        obtain ⟨s2, e2, w2, h2, hs2⟩ := run_indexAddNew w1 h1.rep hok hk hne hlen
          (fun k' hk' he => hp (hinj k' hk' he ▸ hk')) eo
        have h2' := h1.listed h2 hs2
        have hs2' : SameOff (metaNames ix.name) s1 s2 := hs2.mono fun _ => index_meta
        cases value with
        | none =>
          have : o = none := hv
          subst this
          refine ⟨.ok keys.length, s2, ?_, by simp, w2, hs2'.mono fun _ => meta_not_lock, rfl, h2', hs2'⟩
          rw [run_bind, e2]; rfl
        | some v =>
          obtain ⟨b, rfl, henc, hbn⟩ := hv
          obtain ⟨s3, e3, f3⟩ := run_memorize (E := E) (c := c) w2 (v := v) (a := valAddr ix.name keys.length)
            (existsOk := true) (hok.val _ (by omega)) henc hbn (Or.inl rfl)
          have hs3 : SameOff (metaNames ix.name) s2 s3 := f3.sameOff (metaNames_val _ _)
          have h3 := h2'.stored (i := keys.length) (k := key.text) (by simp) f3
          rw [upd_upd] at h3
          refine ⟨.ok keys.length, s3, ?_, by simp, f3.wf, (hs2'.trans hs3).mono fun _ => meta_not_lock, rfl, h3,
            hs2'.trans hs3⟩
          rw [run_bind, e2, andThen_ok]
          simp only []
          rw [run_bind, e3]; rfl)
  refine ⟨s3, fl', r, e, hr', w3, hrep.sameLock hs3, hc3, hfl, ?_⟩
  exact ((hs1.mono fun x => Or.inr).trans (hs2.mono fun x => Or.inl)).trans (hs3.mono fun x => Or.inr)

theorem run_metaGet {s : Store} {ix : Index} {keys : List Str} {f : Str → Option Bytes} (h : MetaRep E s ix keys f)
    (hok : NamesOK E ix.name) {key : Key} (hk : key.hashed E = E.utf8 key.text) {i : Nat}
    (hi : keys[i]? = some key.text) : (metaGet E ix key).run E s =
      (match f key.text with | some b => .ok b | none => .err .fileNotFound, s) := by
  have hv := h.val i _ hi
  have hb := h.rep.bound
  have li := lt_of_getElem? hi
  rw [metaGet, run_bind, hk, run_check_some h.rep hok hi, andThen_ok]
  simp only []
  cases hf : f key.text with
  | none =>
    rw [hf] at hv
    rw [run_bind, run_attach_none (hok.val _ (by omega)) (content_none.1 hv)]; rfl
  | some b =>
    rw [hf] at hv
    obtain ⟨j, hj, hjs⟩ := names_of_content hv
    rw [run_bind, run_attach (hok.val _ (by omega)) hj, andThen_ok, run_read, hjs]

theorem run_metaGet_absent {s : Store} {ix : Index} {keys : List Str} {f : Str → Option Bytes} (h : MetaRep E s ix keys f)
    (hok : NamesOK E ix.name) {key : Key} (hk : key.hashed E = E.utf8 key.text)
    (habs : ∀ k' ∈ keys, E.sha (E.utf8 k') ≠ E.sha (E.utf8 key.text)) :
    (metaGet E ix key).run E s = (.err .keyError, s) := by
  rw [metaGet, run_bind, hk, run_check_none hok (h.rep.absent habs)]; rfl

/-- the values after the blocks have been shuffled by a removal -/
theorem MetaRep.removed {s s' : Store} {ix : Index} {keys : List Str} {f : Str → Option Bytes} (h : MetaRep E s ix keys f)
    {i : Nat} (li : i < keys.length) (hr : IxRep E s' ix (swapRemove keys i))
    (hc : ∀ j, s'.content (valAddr ix.name j) = if j = keys.length - 1 then none
      else if j = i then s.content (valAddr ix.name (keys.length - 1)) else s.content (valAddr ix.name j)) :
    MetaRep E s' ix (swapRemove keys i) f := by
  refine ⟨hr, ?_, ?_⟩
  · intro j k hj
    rw [getElem?_swapRemove li] at hj
    by_cases hjl : j < keys.length - 1
    · rw [if_pos hjl] at hj
      rw [hc, if_neg (by omega)]
      by_cases hji : j = i
      · rw [if_pos hji] at hj; rw [if_pos hji]; exact h.val _ k hj
      · rw [if_neg hji] at hj; rw [if_neg hji]; exact h.val _ k hj
    · rw [if_neg hjl] at hj; simp at hj
  · intro j hj
    rw [length_swapRemove li] at hj
    rw [hc]
    by_cases hjl : j = keys.length - 1
    · rw [if_pos hjl]
    · rw [if_neg hjl, if_neg (by omega)]; exact h.noval j (by omega)

/-- removal without a lock. If neither the key nor the last key carries a value, the key is removed and then
`FileNotFoundError` is raised (`delete_block`'s `missing_ok` has no effect) -/
theorem run_metaDel_fake {s : Store} (w : s.WF) {ix : Index} {keys : List Str} {f : Str → Option Bytes}
    (h : MetaRep E s ix keys f) (hok : NamesOK E ix.name) {key : Key} (hk : key.hashed E = E.utf8 key.text) {i : Nat}
    (hi : keys[i]? = some key.text) (hnz : ∀ k b, f k = some b → b ≠ []) {l : Str} (hl : keys[keys.length - 1]? = some l) :
    ∃ s', (metaDel E .fake ix key).run E s =
        (if f key.text = none ∧ f l = none then .err .fileNotFound else .ok i, s') ∧ s'.WF ∧
      MetaRep E s' ix (swapRemove keys i) f ∧ SameOff (metaNames ix.name) s s' := by
  have hb := h.rep.bound
  have li := lt_of_getElem? hi
  obtain ⟨s1, e1, w1, h1, hs1⟩ := run_indexDelSome w h.rep hok hk hi
  have hs1' : SameOff (metaNames ix.name) s s1 := hs1.mono fun _ => index_meta
  have hv1 : ∀ j, s1.content (valAddr ix.name j) = s.content (valAddr ix.name j) := fun j => (hs1 _ (val_not_index _ j)).2
  have hvi := h.val i _ hi
  have hvl := h.val _ _ hl
  have hrun : ∀ r, (do
      let lastVal ← (if i + 1 = keys.length then pure false else existsBlock (valAddr ix.name (keys.length - 1)))
      if lastVal = false then
        deleteBlock (valAddr ix.name i) true
      else do
        if ← existsBlock (valAddr ix.name (keys.length - 1)) then do
          let vh ← attach (valAddr ix.name (keys.length - 1))
          let vb ← read vh
          let mh ← openBlock (valAddr ix.name i) vb.length true true
          write mh vb
          deleteBlock (valAddr ix.name (keys.length - 1))
      pure i : Prog Nat).run E s1 = r → (metaDel E .fake ix key).run E s = r := by
    intro r hr
    rw [metaDel, withLock, run_bind, indexDel, withLock, e1, andThen_ok]
    exact hr
  -- the block of the key, if any, is deleted
  have drop : ∀ lv : Bool, lv = false → (f l = none ∨ i + 1 = keys.length) →
      ∃ s', (do
        if lv = false then
          deleteBlock (valAddr ix.name i) true
        else do
          if ← existsBlock (valAddr ix.name (keys.length - 1)) then do
            let vh ← attach (valAddr ix.name (keys.length - 1))
            let vb ← read vh
            let mh ← openBlock (valAddr ix.name i) vb.length true true
            write mh vb
            deleteBlock (valAddr ix.name (keys.length - 1))
        pure i : Prog Nat).run E s1 = (if f key.text = none ∧ f l = none then .err .fileNotFound else .ok i, s') ∧ s'.WF ∧
      MetaRep E s' ix (swapRemove keys i) f ∧ SameOff (metaNames ix.name) s s' := by
    intro lv hlv hcase
    subst hlv
    simp only [if_true]
    have hfl : f key.text = none → f l = none := by
      intro hf
      rcases hcase with h | h
      · exact h
      · have : keys.length - 1 = i := by omega
        rw [this, hi] at hl
        injection hl with hl
        rw [← hl]; exact hf
    have hshift : ∀ s2 : Store, (∀ j, s2.content (valAddr ix.name j) =
        if j = i then none else s1.content (valAddr ix.name j)) →
        ∀ j, s2.content (valAddr ix.name j) = if j = keys.length - 1 then none
          else if j = i then s.content (valAddr ix.name (keys.length - 1)) else s.content (valAddr ix.name j) := by
      intro s2 h2 j
      rw [h2, hv1]
      by_cases hjl : j = keys.length - 1
      · rw [if_pos hjl]
        by_cases hji : j = i
        · rw [if_pos hji]
        · rw [if_neg hji, hjl, hvl]
          rcases hcase with h | h
          · exact h
          · omega
      · rw [if_neg hjl]
        by_cases hji : j = i
        · rw [if_pos hji, if_pos hji, hvl]
          rcases hcase with h | h
          · exact h.symm
          · omega
        · rw [if_neg hji, if_neg hji]
    cases hf : f key.text with
    | none =>
      rw [if_pos ⟨rfl, hfl hf⟩]
      have hn : s1.content (valAddr ix.name i) = none := by rw [hv1, hvi, hf]
      refine ⟨s1, ?_, w1, h.removed li h1 (hshift s1 fun j => ?_), hs1'⟩
      · rw [run_bind, run_deleteBlock_none (hok.val _ (by omega)) (content_none.1 hn)]; rfl
      · by_cases hji : j = i
        · rw [if_pos hji, hji]; exact hn
        · rw [if_neg hji]
    | some b =>
      rw [if_neg (by simp)]
      have hn : s1.content (valAddr ix.name i) = some b := by rw [hv1, hvi, hf]
      obtain ⟨j, hj, _⟩ := names_of_content hn
      have f2 := eff_unlinked w1 (valAddr ix.name i)
      refine ⟨_, ?_, f2.wf, h.removed li (h1.same (f2.sameOff (P := fun x => x = valAddr ix.name i) rfl) ?_)
        (hshift _ fun j => ?_), hs1'.trans (f2.sameOff (metaNames_val _ _))⟩
      · rw [run_bind, run_deleteBlock (hok.val _ (by omega)) hj]; rfl
      · intro sl hsl he
        exact val_not_index ix.name i (he ▸ ⟨sl, hsl, rfl⟩)
      · rw [f2.content]
        by_cases hji : j = i
        · rw [if_pos (by rw [hji]), if_pos hji]
        · rw [if_neg (by rw [val_eq]; exact hji), if_neg hji]
  by_cases hlast : i + 1 = keys.length
  · obtain ⟨s', e', r⟩ := drop false rfl (Or.inr hlast)
    refine ⟨s', hrun _ ?_, r⟩
    rw [if_pos hlast, run_bind, run_pure, andThen_ok]
    exact e'
  · cases hfl : f l with
    | none =>
      obtain ⟨s', e', r⟩ := drop false rfl (Or.inl hfl)
      rw [hfl] at e'
      refine ⟨s', hrun _ ?_, r⟩
      have hn : s1.names (valAddr ix.name (keys.length - 1)) = none := by
        rw [← content_none, hv1, hvl, hfl]
      rw [if_neg hlast, run_bind, run_existsBlock _ (hok.val _ (by omega)), andThen_ok, hn]
      exact e'
    | some b =>
      rw [if_neg (by simp)]
      have hn : s1.content (valAddr ix.name (keys.length - 1)) = some b := by rw [hv1, hvl, hfl]
      obtain ⟨j, hj, hjs⟩ := names_of_content hn
      obtain ⟨mi, s2', s2, e2, e2', n2, f2, _⟩ := run_put (E := E) (a := valAddr ix.name i) (b := b) w1 (hnz _ _ hfl)
        (hok.val _ (by omega))
      have hj2 : s2.names (valAddr ix.name (keys.length - 1)) = some j := by
        rw [f2.names _ (by rw [Ne, val_eq]; omega)]; exact hj
      have f3 := eff_unlinked f2.wf (valAddr ix.name (keys.length - 1))
      refine ⟨_, hrun _ ?_, f3.wf, h.removed li ?_ ?_, (hs1'.trans (f2.sameOff (metaNames_val _ _))).trans
        (f3.sameOff (metaNames_val _ _))⟩
      · rw [if_neg hlast, run_bind, run_existsBlock _ (hok.val _ (by omega)), andThen_ok, hj]
        simp only [Option.isSome_some, Bool.true_eq_false, if_false]
        rw [run_bind, run_existsBlock _ (hok.val _ (by omega)), andThen_ok, hj]
        simp only [Option.isSome_some, if_true]
        rw [run_bind, run_attach (hok.val _ (by omega)) hj, andThen_ok, run_bind, run_read, andThen_ok, hjs, run_bind, e2,
          andThen_ok, run_bind, e2', andThen_ok, run_bind, run_deleteBlock (hok.val _ (by omega)) hj2]
        rfl
      · refine (h1.same (f2.sameOff (P := fun x => x = valAddr ix.name i) rfl) ?_).same
          (f3.sameOff (P := fun x => x = valAddr ix.name (keys.length - 1)) rfl) ?_ <;>
        · intro sl hsl he
          exact val_not_index ix.name _ ⟨sl, hsl, he.symm⟩
      · intro j
        rw [f3.content, f2.content, hv1]
        simp only [val_eq]
        rw [hvl, hfl]

theorem run_metaDel_absent {s : Store} {ix : Index} {keys : List Str} {f : Str → Option Bytes} (h : MetaRep E s ix keys f)
    (hok : NamesOK E ix.name) {key : Key} (hk : key.hashed E = E.utf8 key.text)
    (habs : ∀ k' ∈ keys, E.sha (E.utf8 k') ≠ E.sha (E.utf8 key.text)) :
    (metaDel E .fake ix key).run E s = (.err .keyError, s) := by
  rw [metaDel, withLock, run_bind, indexDel, withLock, run_indexDelNone h.rep hok hk habs]; rfl

theorem run_metaIndexInit_create {s : Store} (w : s.WF) {name : Str} (hno : ∀ sl : Slot, s.content (sl.addr name) = none)
    (hok : NamesOK E name) : ∃ ix s', (metaIndexInit name true).run E s = (.ok ix, s') ∧ ix.name = name ∧ s'.WF ∧
      MetaRep E s' ix [] (fun _ => none) ∧ LockClean s' name 0 ∧
      SameOff (fun x => metaNames name x ∨ lockNames name x) s s' := by
  obtain ⟨ix, s', e', hname, w', h', hc', hs'⟩ := run_tagIndexInit_create (E := E) w (fun sl _ => hno sl) hok
  subst hname
  refine ⟨ix, s', ?_, rfl, w', ⟨h', by simp, ?_⟩, hc', hs'.mono fun x hx => hx.imp index_meta id⟩
  · rw [metaIndexInit, run_bind, e', andThen_ok]
    simp only [if_true]
    rw [run_bind, run_attach hok.mem h'.mem]; rfl
  · intro i _
    rw [(hs' _ ?_).2, addr_val]
    · exact hno _
    · rintro (h | ⟨sl, h1, h2⟩)
      · exact val_not_index _ _ h
      · rw [addr_val, addr_inj] at h2
        subst h2
        simp [Slot.isLock] at h1

theorem run_metaIndexInit_attach {s : Store} {ix : Index} {keys : List Str} (h : IxRep E s ix keys)
    (hok : NamesOK E ix.name) : (metaIndexInit ix.name false).run E s = (.ok ix, s) := by
  rw [metaIndexInit, run_bind, run_tagIndexInit_attach h hok]; rfl

/-- removal with the default lock never ends -/
theorem run_metaDel_sliding {s : Store} (w : s.WF) {ix : Index} {fl : Nat} (hok : NamesOK E ix.name)
    (hc : LockClean s ix.name fl) (hb : fl + 2 < 256 ^ 5) (fuel : Nat) (key : Key) :
    ∃ s', (metaDel E (.sliding fuel) ix key).run E s = (.stuck, s') ∧ s'.WF ∧ SameOff (lockNames ix.name) s s' ∧
      (0 < fuel → ∃ n, Blocked s' ix.name fl n ∧ n ≤ fl + 3) :=
  run_withLock_twice w hok hc hb fuel (indexDel_ E ix key) _

end Verif.Lemmas
