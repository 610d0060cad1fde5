import Verif.Lemmas.Meta
import Verif.Spec.MetaIndex
/-! # Histories of a MetaTagIndex -/
namespace Verif.Lemmas
open Verif Verif.Model Verif.Spec
variable {E : Env} {M : Type} {c : Codec M}

/-- calls on a MetaTagIndex by clients with locks of these kinds -/
inductive MetaOp (M : Type) where
  | add (mode : LockMode) (key : Key) (v : Option M) (existsOk : Bool)
  | get (key : Key)
  | del (mode : LockMode) (key : Key)
  | items
  | keys
  | values

/-- the call by the text of its key -/
def MetaOp.call : MetaOp M → MetaCall M
  | .add _ k v eo => .add k.text v eo
  | .get k => .get k.text
  | .del _ k => .del k.text
  | .items => .items
  | .keys => .keys
  | .values => .values

/-- an outcome as an answer -/
def answer {α : Type} (f : Except PyErr α → MetaAnswer M) (o : Outcome α) : MetaAnswer M :=
  match toExcept o with
  | some r => f r
  | none => .broken

def okList {α : Type} (f : α → MetaAnswer M) : Except PyErr α → MetaAnswer M
  | .ok a => f a
  | .error _ => .broken

/-- the call on the model -/
def runMeta (E : Env) (c : Codec M) (ix : Index) (s : Store) : MetaOp M → MetaAnswer M × Store
  | .add mode k v eo => (answer .position ((metaAdd E c mode ix k v eo).run E s).1, ((metaAdd E c mode ix k v eo).run E s).2)
  | .get k => (answer .raw ((metaGet E ix k).run E s).1, ((metaGet E ix k).run E s).2)
  | .del mode k => (answer .position ((metaDel E mode ix k).run E s).1, ((metaDel E mode ix k).run E s).2)
  | .items => (answer (okList .items) ((metaItems E c ix).run E s).1, ((metaItems E c ix).run E s).2)
  | .keys => (answer (okList .keys) ((metaKeys E ix).run E s).1, ((metaKeys E ix).run E s).2)
  | .values => (answer (okList .values) ((metaValues c ix).run E s).1, ((metaValues c ix).run E s).2)

def playMeta (E : Env) (c : Codec M) (ix : Index) : List (MetaOp M) → Store → List (MetaAnswer M) × Store
  | [], s => ([], s)
  | o :: t, s => ((runMeta E c ix s o).1 :: (playMeta E c ix t (runMeta E c ix s o).2).1,
      (playMeta E c ix t (runMeta E c ix s o).2).2)

/-- keys that can be stored, metadata that survive the codec, removals without a lock -/
def MetaOpOK (E : Env) (c : Codec M) (enc : M → Bytes) (U : Str → Prop) : MetaOp M → Prop
  | .add mode k v _ => mode.Runs ∧ k.hashed E = E.utf8 k.text ∧ k.text ≠ [] ∧ U k.text ∧
      ∀ x, v = some x → c.encode x = .ok (enc x) ∧ enc x ≠ [] ∧ c.decode (enc x) = .ok x
  | .get k => k.hashed E = E.utf8 k.text ∧ U k.text
  | .del mode k => mode = .fake ∧ k.hashed E = E.utf8 k.text ∧ U k.text
  | _ => True

/-- the memory holds the state -/
structure MetaHolds (E : Env) (c : Codec M) (enc : M → Bytes) (U : Str → Prop) (s : Store) (ix : Index) (st : MetaState M)
    (fl : Nat) : Prop where
  wf : s.WF
  rep : MetaRep E s ix st.keys fun k => (st.val k).map enc
  lock : LockClean s ix.name fl
  used : ∀ k ∈ st.keys, U k
  coded : ∀ k v, st.val k = some v → enc v ≠ [] ∧ c.decode (enc v) = .ok v

theorem MetaHolds.encoded {enc : M → Bytes} {U : Str → Prop} {s : Store} {ix : Index} {st : MetaState M} {fl : Nat}
    (h : MetaHolds E c enc U s ix st fl) {k : Str} {b : Bytes} (hb : (st.val k).map enc = some b) : b ≠ [] := by
  cases hv : st.val k with
  | none => rw [hv] at hb; simp at hb
  | some v => rw [hv] at hb; injection hb with hb; rw [← hb]; exact (h.coded k v hv).1

theorem run_enumerateSlots {β : Type} {load : Nat → Prog β} {s : Store} {l : List β} {i : Nat}
    (h : ∀ j x, l[j]? = some x → (load (i + j)).run E s = (.ok x, s)) :
    (enumerateSlots load i l.length).run E s = (.ok l, s) := by
  induction l generalizing i with
  | nil => rfl
  | cons x t ih =>
    simp only [List.length_cons]
    rw [enumerateSlots, run_bind, show (load i).run E s = (.ok x, s) from h 0 x rfl, andThen_ok, run_bind, ih fun j y hj => by
      have := h (j + 1) y (by simpa using hj)
      rwa [show i + (j + 1) = i + 1 + j by omega] at this]
    rfl

theorem run_loadKey {s : Store} {ix : Index} {i : Nat} {k : Str} (hok : E.okName (keyAddr ix.name i) = true)
    (h : s.content (keyAddr ix.name i) = some (E.utf8 k)) : (loadKey E ix i).run E s = (.ok k, s) := by
  obtain ⟨j, hj, hsj⟩ := names_of_content h
  rw [loadKey, run_bind, run_attach hok hj, andThen_ok, run_bind, run_read, andThen_ok, hsj, decodeUtf8, E.utf8_roundtrip]
  rfl

theorem run_loadVal {enc : M → Bytes} {s : Store} {ix : Index} {i : Nat} {o : Option M}
    (hok : E.okName (valAddr ix.name i) = true) (hc : ∀ v, o = some v → c.decode (enc v) = .ok v)
    (h : s.content (valAddr ix.name i) = o.map enc) : (loadVal c ix i).run E s = (.ok o, s) := by
  cases o with
  | none =>
    rw [loadVal, run_bind, run_attempt, remember, run_bind, fetchBlockBytes, run_bind, run_attach_none hok (content_none.1 h)]
    rfl
  | some v =>
    obtain ⟨j, hj, hsj⟩ := names_of_content h
    rw [loadVal, run_bind, run_attempt, remember, run_bind, fetchBlockBytes, run_bind, run_attach hok hj, andThen_ok, run_read, andThen_ok, hsj,
      hc v rfl]
    rfl

section
variable {enc : M → Bytes} {U : Str → Prop} {s : Store} {ix : Index} {st : MetaState M} {fl : Nat}
  (hinj : ∀ a b, U a → U b → E.sha (E.utf8 a) = E.sha (E.utf8 b) → a = b) (hok : NamesOK E ix.name)

include hok in
theorem MetaHolds.listing {β : Type} (h : MetaHolds E c enc U s ix st fl) (load : Nat → Prog β) (g : Str → β)
    (hl : ∀ i k, st.keys[i]? = some k → i < 256 ^ 8 → (load i).run E s = (.ok (g k), s)) :
    (do
      let n ← readLength ix
      enumerateSlots load 0 n : Prog (List β)).run E s = (.ok (st.keys.map g), s) := by
  have hb := h.rep.rep.bound
  rw [run_bind, run_readLength h.rep.rep, andThen_ok]
  have := run_enumerateSlots (E := E) (load := load) (s := s) (l := st.keys.map g) (i := 0) (fun j x hj => by
    rw [List.getElem?_map] at hj
    cases hk : st.keys[j]? with
    | none => rw [hk] at hj; simp at hj
    | some k =>
      rw [hk] at hj
      simp only [Option.map_some, Option.some.injEq] at hj
      rw [Nat.zero_add, ← hj]
      exact hl j k hk (by have := lt_of_getElem? hk; omega))
  rwa [List.length_map] at this

include hok in
theorem MetaHolds.loadKey (h : MetaHolds E c enc U s ix st fl) {i : Nat} {k : Str} (hi : st.keys[i]? = some k)
    (hb : i < 256 ^ 8) : (loadKey E ix i).run E s = (.ok k, s) :=
  run_loadKey (hok.key i hb) (h.rep.rep.key i k hi)

include hok in
theorem MetaHolds.loadVal (h : MetaHolds E c enc U s ix st fl) {i : Nat} {k : Str} (hi : st.keys[i]? = some k)
    (hb : i < 256 ^ 8) : (loadVal c ix i).run E s = (.ok (st.val k), s) :=
  run_loadVal (enc := enc) (hok.val i hb) (fun v hv => (h.coded k v hv).2) (h.rep.val i k hi)

theorem mem_iff_position {k : Str} {keys : List Str} : k ∈ keys ↔ ∃ i, position k keys = some i := by
  cases hp : position k keys with
  | none => simp [position_none.1 hp]
  | some i => simp [List.mem_of_getElem? (position_some hp)]

include hinj hok in
/-- one call -/
theorem runMeta_ok (h : MetaHolds E c enc U s ix st fl) (o : MetaOp M) (ho : MetaOpOK E c enc U o)
    (hfl : fl + 1 < 256 ^ 5) (hlen : st.keys.length + 1 < 256 ^ 8) :
    ∃ fl', (runMeta E c ix s o).1 = (metaAnswer enc st o.call).1 ∧
      MetaHolds E c enc U (runMeta E c ix s o).2 ix (metaAnswer enc st o.call).2 fl' ∧ fl' ≤ fl + 1 ∧ (∀ mode k, o = .del mode k → fl' = fl) ∧
      (metaAnswer enc st o.call).2.keys.length ≤ st.keys.length + 1 ∧
      SameOff (fun x => metaNames ix.name x ∨ lockNames ix.name x) s (runMeta E c ix s o).2 := by
  cases o with
  | add mode key v eo =>
    obtain ⟨h1, h2, h3, h4, h5⟩ := ho
    have hE : Encodes c v (v.map enc) := by
      cases v with
      | none => rfl
      | some x => exact ⟨_, rfl, (h5 x rfl).1, (h5 x rfl).2.1⟩
    obtain ⟨s', fl', r, e, hr, w', h', hc', hfl', hs'⟩ := run_metaAdd (c := c) h.wf h.rep h.lock hfl hok h1 h2 h3 hlen
      (fun k' hk' he => hinj _ _ (h.used k' hk') h4 he) eo hE
    have hval : valAdd st.keys (fun k => (st.val k).map enc) key.text eo (v.map enc) =
        fun k => (metaPut st key.text v eo k).map enc := by
      funext x
      unfold valAdd metaPut
      cases hp : position key.text st.keys with
      | none =>
        have : key.text ∉ st.keys := position_none.1 hp
        simp only [upd, if_neg this]
        by_cases hx : x = key.text <;> simp [hx]
      | some i =>
        have : key.text ∈ st.keys := List.mem_of_getElem? (position_some hp)
        simp only [if_pos this]
        cases eo <;> cases v <;> by_cases hx : x = key.text <;> simp [hx, upd]
    rw [hval] at h'
    refine ⟨fl', ?_, ⟨?_, ?_, ?_, ?_, ?_⟩, hfl', (fun _ _ h => by cases h), length_ixAdd _ _ _, ?_⟩
    · simp only [runMeta, e, answer, hr]; rfl
    · simp only [runMeta, e]; exact w'
    · simp only [runMeta, e]; exact h'
    · simp only [runMeta, e]; exact hc'
    · intro k hk
      rcases mem_ixAdd hk with hk | hk
      · exact h.used k hk
      · rw [hk]; exact h4
    · intro k x hx
      simp only [metaAnswer, MetaOp.call, metaPut] at hx
      by_cases hk : k = key.text
      · rw [if_pos hk] at hx
        split at hx
        · split at hx
          · cases v with
            | none => exact h.coded _ x hx
            | some y =>
              have : y = x := by simpa using hx
              exact this ▸ (h5 y rfl).2
          · exact h.coded _ x hx
        · exact (h5 x hx).2
      · rw [if_neg hk] at hx; exact h.coded k x hx
    · simp only [runMeta, e]; exact hs'
  | get key =>
    have e : (metaGet E ix key).run E s =
        (match metaFind enc st key.text with | .ok b => .ok b | .error e => .err e, s) := by
      unfold metaFind
      by_cases hm : key.text ∈ st.keys
      · obtain ⟨i, hi⟩ := List.mem_iff_getElem?.1 hm
        rw [run_metaGet h.rep hok ho.1 hi, if_pos hm]
        cases st.val key.text <;> rfl
      · rw [run_metaGet_absent h.rep hok ho.1 (fun k' hk' he => hm (hinj _ _ (h.used k' hk') ho.2 he ▸ hk')), if_neg hm]
    refine ⟨fl, ?_, ?_, by omega, (fun _ _ h => by cases h), by simp [metaAnswer, MetaOp.call], ?_⟩
    · simp only [runMeta, e, metaAnswer, MetaOp.call]
      cases metaFind enc st key.text <;> rfl
    · simp only [runMeta, e]; exact h
    · simp only [runMeta, e]; exact SameOff.refl _ _
  | del mode key =>
    obtain ⟨h1, h2, h3⟩ := ho
    subst h1
    cases hp : position key.text st.keys with
    | none =>
      have hm := position_none.1 hp
      have e := run_metaDel_absent h.rep hok h2 (fun k' hk' he => hm (hinj _ _ (h.used k' hk') h3 he ▸ hk'))
      refine ⟨fl, ?_, ?_, by omega, fun _ _ _ => rfl, by simp [metaAnswer, MetaOp.call, ixDel, hp], ?_⟩
      · simp only [runMeta, e, metaAnswer, MetaOp.call, hp]; rfl
      · simp only [runMeta, e, metaAnswer, MetaOp.call, ixDel, hp]; exact h
      · simp only [runMeta, e]; exact SameOff.refl _ _
    | some i =>
      have hi := position_some hp
      have li := lt_of_getElem? hi
      have hlast : st.keys[st.keys.length - 1]? = some (st.keys[st.keys.length - 1]'(by omega)) :=
        List.getElem?_eq_getElem _
      obtain ⟨s', e, w', h', hs'⟩ := run_metaDel_fake h.wf h.rep hok h2 hi (fun k b hb => h.encoded hb) hlast
      have hgl : st.keys.getLast? = some (st.keys[st.keys.length - 1]'(by omega)) := by
        rw [List.getLast?_eq_getElem?]; exact hlast
      have hoff : ∀ x, lockNames ix.name x → ¬ metaNames ix.name x := fun x hx hm => meta_not_lock hm hx
      refine ⟨fl, ?_, ⟨?_, ?_, ?_, ?_, ?_⟩, by omega, fun _ _ _ => rfl, ?_, ?_⟩
      · simp only [runMeta, e, metaAnswer, MetaOp.call, hp, hgl, Option.bind_some, Option.map_eq_none_iff]
        split <;> rfl
      · simp only [runMeta, e]; exact w'
      · simp only [runMeta, e, metaAnswer, MetaOp.call, ixDel, hp]; exact h'
      · simp only [runMeta, e]; exact h.lock.same (hs'.mono fun x hx hl => hoff x hl hx)
      · intro k hk
        simp only [metaAnswer, MetaOp.call, ixDel, hp] at hk
        exact h.used k (mem_swapRemove (position_lt hp) hk)
      · exact h.coded
      · have := length_ixDel st.keys key.text
        simp only [metaAnswer, MetaOp.call]
        omega
      · simp only [runMeta, e]; exact hs'.mono fun x hx => Or.inl hx
  | items =>
    have e := h.listing hok (fun i => do
      let k ← loadKey E ix i
      let v ← loadVal c ix i
      pure (k, v)) (fun k => (k, st.val k)) (fun i k hi hb => by
        rw [run_bind, h.loadKey hok hi hb, andThen_ok, run_bind, h.loadVal hok hi hb]; rfl)
    have e' : (metaItems E c ix).run E s = _ := e
    refine ⟨fl, ?_, ?_, by omega, (fun _ _ h => by cases h), by simp [metaAnswer, MetaOp.call], ?_⟩
    · simp only [runMeta, e']; rfl
    · simp only [runMeta, e']; exact h
    · simp only [runMeta, e']; exact SameOff.refl _ _
  | keys =>
    have e := h.listing hok (loadKey E ix) (fun k => k) (fun i k hi hb => h.loadKey hok hi hb)
    have e' : (metaKeys E ix).run E s = _ := e
    refine ⟨fl, ?_, ?_, by omega, (fun _ _ h => by cases h), by simp [metaAnswer, MetaOp.call], ?_⟩
    · simp only [runMeta, e', List.map_id']; rfl
    · simp only [runMeta, e']; exact h
    · simp only [runMeta, e']; exact SameOff.refl _ _
  | values =>
    have e := h.listing hok (loadVal c ix) st.val (fun i k hi hb => h.loadVal hok hi hb)
    have e' : (metaValues c ix).run E s = _ := e
    refine ⟨fl, ?_, ?_, by omega, (fun _ _ h => by cases h), by simp [metaAnswer, MetaOp.call], ?_⟩
    · simp only [runMeta, e']; rfl
    · simp only [runMeta, e']; exact h
    · simp only [runMeta, e']; exact SameOff.refl _ _

include hinj hok in
/-- a history -/
theorem playMeta_ok (ops : List (MetaOp M)) (h : MetaHolds E c enc U s ix st fl) (ho : ∀ o ∈ ops, MetaOpOK E c enc U o)
    (hfl : fl + ops.length < 256 ^ 5) (hlen : st.keys.length + ops.length < 256 ^ 8) :
    ∃ fl', (playMeta E c ix ops s).1 = (metaPlay enc (ops.map MetaOp.call) st).1 ∧
      MetaHolds E c enc U (playMeta E c ix ops s).2 ix (metaPlay enc (ops.map MetaOp.call) st).2 fl' ∧
      SameOff (fun x => metaNames ix.name x ∨ lockNames ix.name x) s (playMeta E c ix ops s).2 := by
  induction ops generalizing s st fl with
  | nil => exact ⟨fl, rfl, h, SameOff.refl _ _⟩
  | cons o t ih =>
    simp only [List.length_cons] at hfl hlen
    obtain ⟨fl1, h1, h2, h3, _, h4, h5⟩ := runMeta_ok hinj hok h o (ho o (by simp)) (by omega) (by omega)
    obtain ⟨fl2, g1, g2, g3⟩ := ih h2 (fun o' ho' => ho o' (by simp [ho'])) (by omega) (by omega)
    refine ⟨fl2, ?_, g2, h5.trans g3⟩
    simp only [playMeta, List.map_cons, metaPlay, h1, g1]

end
end Verif.Lemmas
