import Verif.Lemmas.LockSeq
import Verif.Spec.Index
/-! # A TagIndex represents a list of keys -/
namespace Verif.Lemmas
open Verif Verif.Model Verif.Spec
variable {E : Env}

/-! ## lists -/

theorem position_some {k : Str} {l : List Str} {i : Nat} (h : position k l = some i) : l[i]? = some k := by
  induction l generalizing i with
  | nil => simp [position] at h
  | cons x t ih =>
    simp only [position] at h
    split at h
    · simp at h; subst h; simp [*]
    · cases hp : position k t with
      | none => rw [hp] at h; simp at h
      | some j =>
        rw [hp] at h; simp at h; subst h
        simpa using ih hp

theorem position_none {k : Str} {l : List Str} : position k l = none ↔ k ∉ l := by
  induction l with
  | nil => simp [position]
  | cons x t ih =>
    simp only [position]
    split
    · rename_i h; simp [h]
    · rename_i h
      simp only [Option.map_eq_none_iff, ih, List.mem_cons, not_or]
      exact ⟨fun h' => ⟨fun e => h e.symm, h'⟩, fun h' => h'.2⟩

theorem toLE_inj {w m n : Nat} (hm : m < 256 ^ w) (hn : n < 256 ^ w) (h : toLE w m = toLE w n) : m = n := by
  rw [← fromLE_toLE w m hm, ← fromLE_toLE w n hn, h]

theorem utf8_injective (E : Env) {a b : Str} (h : E.utf8 a = E.utf8 b) : a = b := by
  have h1 := E.utf8_roundtrip a
  rw [h, E.utf8_roundtrip] at h1
  injection h1 with h1
  exact h1.symm

theorem utf8_ne_nil (E : Env) {a : Str} (h : a ≠ []) : E.utf8 a ≠ [] := fun h' =>
  h (utf8_injective E (by rw [h', E.utf8_nil]))

/-! ## the representation -/

/-- the store holds an index object `ix` listing `keys` -/
structure IxRep (E : Env) (s : Store) (ix : Index) (keys : List Str) : Prop where
  mem : s.names ix.name = some ix.memory
  len : s.segs ix.memory = toLE 8 keys.length
  bound : keys.length < 256 ^ 8
  nonempty : ∀ k ∈ keys, k ≠ []
  key : ∀ i k, keys[i]? = some k → s.content (keyAddr ix.name i) = some (E.utf8 k)
  nokey : ∀ i, keys.length ≤ i → s.content (keyAddr ix.name i) = none
  hash : ∀ i k, keys[i]? = some k → s.content (hashAddr E ix.name (E.utf8 k)) = some (toLE 8 i)
  nohash : ∀ h, (∀ k ∈ keys, E.sha (E.utf8 k) ≠ h) → s.content ((Slot.hash h).addr ix.name) = none

/-- a slot of the key list itself -/
def Slot.isIndex : Slot → Bool
  | .mem => true
  | .hash _ => true
  | .key _ => true
  | _ => false

theorem IxRep.same {s s' : Store} {ix : Index} {keys : List Str} (h : IxRep E s ix keys) {P : Str → Prop}
    (hs : SameOff P s s') (hP : ∀ sl : Slot, sl.isIndex = true → ¬ P (sl.addr ix.name)) : IxRep E s' ix keys := by
  have hmem := hs ix.name (by have := hP .mem rfl; rwa [← addr_mem] at this)
  have m1 : s'.names ix.name = some ix.memory := by rw [hmem.1]; exact h.mem
  refine ⟨m1, ?_, h.bound, h.nonempty, ?_, ?_, ?_, ?_⟩
  · have := hmem.2
    rw [content_some m1, content_some h.mem] at this
    injection this with this
    rw [this]; exact h.len
  · intro i k hi
    rw [(hs _ (by rw [addr_key]; exact hP (.key i) rfl)).2]; exact h.key i k hi
  · intro i hi
    rw [(hs _ (by rw [addr_key]; exact hP (.key i) rfl)).2]; exact h.nokey i hi
  · intro i k hi
    rw [(hs _ (by rw [addr_hash]; exact hP (.hash _) rfl)).2]; exact h.hash i k hi
  · intro hh hk
    rw [(hs _ (hP (.hash hh) rfl)).2]; exact h.nohash hh hk

theorem IxRep.sameLock {s s' : Store} {ix : Index} {keys : List Str} (h : IxRep E s ix keys)
    (hs : SameOff (lockNames ix.name) s s') : IxRep E s' ix keys :=
  h.same hs fun sl hsl => not_lockNames (by cases sl <;> simp_all [Slot.isIndex, Slot.isLock])

theorem IxRep.sha_inj {s : Store} {ix : Index} {keys : List Str} (h : IxRep E s ix keys) {i j : Nat} {a b : Str}
    (ha : keys[i]? = some a) (hb : keys[j]? = some b) (he : E.sha (E.utf8 a) = E.sha (E.utf8 b)) : i = j := by
  have h1 := h.hash i a ha
  have h2 := h.hash j b hb
  rw [addr_hash] at h1 h2
  rw [he, h2] at h1
  injection h1 with h1
  have li : i < keys.length := by
    by_contra hc
    rw [List.getElem?_eq_none (by omega)] at ha; simp at ha
  have lj : j < keys.length := by
    by_contra hc
    rw [List.getElem?_eq_none (by omega)] at hb; simp at hb
  have := h.bound
  exact (toLE_inj (by omega) (by omega) h1).symm

theorem IxRep.nodup {s : Store} {ix : Index} {keys : List Str} (h : IxRep E s ix keys) : keys.Nodup := by
  rw [List.Nodup, List.pairwise_iff_getElem]
  intro i j hi hj hij he
  have := h.sha_inj (List.getElem?_eq_getElem hi) (List.getElem?_eq_getElem hj) (by rw [he])
  omega

theorem IxRep.mem_ne_key {ix : Index} (i : Nat) : keyAddr ix.name i ≠ ix.name := by
  rw [addr_key]
  intro h
  have := addr_injective (h.trans (addr_mem ix.name))
  simp at this

theorem run_readLength {s : Store} {ix : Index} {keys : List Str} (h : IxRep E s ix keys) :
    (readLength ix).run E s = (.ok keys.length, s) := by
  rw [readLength, run_bind, run_read, andThen_ok, h.len, fromLE_toLE _ _ h.bound]; rfl

theorem run_check_some {s : Store} {ix : Index} {keys : List Str} (h : IxRep E s ix keys) (hok : NamesOK E ix.name)
    {i : Nat} {k : Str} (hi : keys[i]? = some k) : (check E ix (E.utf8 k)).run E s = (.ok (some i), s) := by
  obtain ⟨j, hj, hsj⟩ := names_of_content (h.hash i k hi)
  have li : i < keys.length := by
    by_contra hc
    rw [List.getElem?_eq_none (by omega)] at hi; simp at hi
  have := h.bound
  rw [check, run_bind, run_existsBlock _ (hok.hash _), andThen_ok, hj]
  simp only [Option.isSome_some, if_true]
  rw [run_bind, run_attach (hok.hash _) hj, andThen_ok, run_bind, run_read, andThen_ok, hsj,
    fromLE_toLE _ _ (by omega)]
  rfl

theorem run_check_none {s : Store} {ix : Index} (hok : NamesOK E ix.name)
    {b : Bytes} (hn : s.content (hashAddr E ix.name b) = none) : (check E ix b).run E s = (.ok none, s) := by
  rw [check, run_bind, run_existsBlock _ (hok.hash _), andThen_ok, content_none.1 hn]
  rfl

theorem IxRep.absent {s : Store} {ix : Index} {keys : List Str} (h : IxRep E s ix keys) {k : Str}
    (hk : ∀ k' ∈ keys, E.sha (E.utf8 k') ≠ E.sha (E.utf8 k)) :
    s.content (hashAddr E ix.name (E.utf8 k)) = none := by
  rw [addr_hash]; exact h.nohash _ hk

/-! ## listing -/

theorem run_loadKey?_some {s : Store} {ix : Index} {i : Nat} {k : Str} (hok : E.okName (keyAddr ix.name i) = true)
    (h : s.content (keyAddr ix.name i) = some (E.utf8 k)) : (loadKey? E ix i).run E s = (.ok (some k), s) := by
  obtain ⟨j, hj, hsj⟩ := names_of_content h
  rw [loadKey?, run_bind, run_attempt, run_attach hok hj, asValue_ok, andThen_ok]
  simp only []
  rw [run_bind, run_read, andThen_ok, run_bind, hsj, decodeUtf8, E.utf8_roundtrip]; rfl

theorem run_loadKey?_none {s : Store} {ix : Index} {i : Nat} (hok : E.okName (keyAddr ix.name i) = true)
    (h : s.content (keyAddr ix.name i) = none) : (loadKey? E ix i).run E s = (.ok none, s) := by
  rw [loadKey?, run_bind, run_attempt, run_attach_none hok (content_none.1 h)]; rfl

theorem run_enumerateKeys {s : Store} {ix : Index} {l : List Str} {i : Nat}
    (hok : ∀ j, i ≤ j → j < i + l.length → E.okName (keyAddr ix.name j) = true)
    (h : ∀ j k, l[j]? = some k → s.content (keyAddr ix.name (i + j)) = some (E.utf8 k)) :
    (enumerateKeys E ix i l.length).run E s = (.ok l, s) := by
  induction l generalizing i with
  | nil => rfl
  | cons k t ih =>
    simp only [List.length_cons]
    rw [enumerateKeys, run_bind, run_loadKey?_some (hok i (by omega) (by simp)) (h 0 k (by simp)), andThen_ok,
      run_bind, ih (fun j h1 h2 => hok j (by omega) (by simp only [List.length_cons]; omega))
        (fun j k' hj => by
          have := h (j + 1) k' (by simpa using hj)
          rwa [show i + (j + 1) = i + 1 + j by omega] at this)]
    rfl

theorem run_indexUpdate {s : Store} {ix : Index} {keys : List Str} (h : IxRep E s ix keys) (hok : NamesOK E ix.name) :
    (indexUpdate E ix).run E s = (.ok keys, s) := by
  have hb := h.bound
  rw [indexUpdate, run_bind, run_readLength h, andThen_ok]
  exact run_enumerateKeys (fun j _ hj => hok.key j (by omega)) (fun j k hj => by
    rw [Nat.zero_add]; exact h.key j k hj)

/-! ## adding -/

/-- everything but the lock's blocks and the values: what adding and removing keys may touch -/
def indexNames (name x : Str) : Prop := ∃ sl : Slot, sl.isIndex = true ∧ x = sl.addr name

theorem indexNames_key (name : Str) (i : Nat) : indexNames name (keyAddr name i) := ⟨.key i, rfl, addr_key _ _⟩
theorem indexNames_hash (E : Env) (name : Str) (b : Bytes) : indexNames name (hashAddr E name b) :=
  ⟨.hash _, rfl, addr_hash _ _ _⟩
theorem indexNames_mem (name : Str) : indexNames name name := ⟨.mem, rfl, addr_mem _⟩

theorem index_not_lock {name x : Str} (h : indexNames name x) : ¬ lockNames name x := by
  obtain ⟨sl, h1, rfl⟩ := h
  exact not_lockNames (by cases sl <;> simp_all [Slot.isIndex, Slot.isLock])

theorem SameOff.offLock {name : Str} {s s' : Store} (h : SameOff (indexNames name) s s') :
    SameOff (fun x => ¬ lockNames name x) s s' := h.mono fun _ => index_not_lock

theorem key_ne_mem (name : Str) (i : Nat) : keyAddr name i ≠ name := fun h => by
  have := addr_injective ((addr_key name i).symm.trans (h.trans (addr_mem name))); simp at this
theorem hash_ne_mem (name : Str) (b : Str) : (Slot.hash b).addr name ≠ name := fun h => by
  have := addr_injective (h.trans (addr_mem name)); simp at this
theorem key_ne_hash (name : Str) (i : Nat) (b : Str) : keyAddr name i ≠ (Slot.hash b).addr name := by
  rw [addr_key, Ne, addr_inj]; simp
theorem key_eq {name : Str} {i j : Nat} : keyAddr name i = keyAddr name j ↔ i = j := by
  rw [addr_key, addr_key, addr_inj]; simp

/-- the representation after a key has been added, from the contents of the index's blocks -/
theorem IxRep.added {s s4 : Store} {ix : Index} {keys : List Str} (h : IxRep E s ix keys) {text : Str} (hne : text ≠ [])
    (hb : keys.length + 1 < 256 ^ 8) (habs : ∀ k' ∈ keys, E.sha (E.utf8 k') ≠ E.sha (E.utf8 text))
    (m4 : s4.names ix.name = some ix.memory)
    (hc0 : ∀ x, indexNames ix.name x → s4.content x =
      if x = hashAddr E ix.name (E.utf8 text) then some (toLE 8 keys.length)
      else if x = keyAddr ix.name keys.length then some (E.utf8 text)
      else if x = ix.name then some (toLE 8 (keys.length + 1)) else s.content x) :
    IxRep E s4 ix (keys ++ [text]) := by
  have hc : ∀ sl : Slot, sl.isIndex = true → s4.content (sl.addr ix.name) =
      if sl.addr ix.name = hashAddr E ix.name (E.utf8 text) then some (toLE 8 keys.length)
      else if sl.addr ix.name = keyAddr ix.name keys.length then some (E.utf8 text)
      else if sl.addr ix.name = ix.name then some (toLE 8 (keys.length + 1)) else s.content (sl.addr ix.name) :=
    fun sl hsl => hc0 _ ⟨sl, hsl, rfl⟩
  have hcm := hc .mem rfl
  rw [← addr_mem] at hcm
  have hck := fun i => hc (.key i) rfl
  simp only [← addr_key] at hck
  have hch := fun b => hc (.hash b) rfl
  have hch' := fun b => hc (.hash (E.sha b)) rfl
  simp only [← addr_hash] at hch'
  refine ⟨m4, ?_, ?_, ?_, ?_, ?_, ?_, ?_⟩
  · have := hcm
    rw [content_some m4, if_neg (by rw [addr_hash]; exact (hash_ne_mem _ _).symm), if_neg (key_ne_mem _ _).symm,
      if_pos rfl] at this
    injection this with this
    rw [this]; simp
  · simpa using hb
  · intro k hk'
    rw [List.mem_append] at hk'
    rcases hk' with hk' | hk'
    · exact h.nonempty k hk'
    · simp at hk'; rw [hk']; exact hne
  · intro i k hi
    rw [hck, if_neg (by rw [addr_hash]; exact key_ne_hash _ _ _), if_neg (key_ne_mem _ _)]
    by_cases hl : i < keys.length
    · rw [if_neg (by rw [key_eq]; omega)]
      exact h.key i k (by rwa [List.getElem?_append_left hl] at hi)
    · rw [List.getElem?_append_right (by omega)] at hi
      by_cases he : i = keys.length
      · subst he; simp at hi; rw [if_pos rfl, hi]
      · rw [List.getElem?_eq_none (by simp; omega)] at hi; simp at hi
  · intro i hi
    simp only [List.length_append, List.length_singleton] at hi
    rw [hck, if_neg (by rw [addr_hash]; exact key_ne_hash _ _ _), if_neg (key_ne_mem _ _),
      if_neg (by rw [key_eq]; omega)]
    exact h.nokey i (by omega)
  · intro i k hi
    by_cases hl : i < keys.length
    · rw [List.getElem?_append_left hl] at hi
      have hmem : k ∈ keys := List.mem_of_getElem? hi
      rw [hch', if_neg (by rw [addr_hash, addr_hash, addr_inj, Slot.hash.injEq]; exact habs k hmem),
        if_neg (by rw [addr_hash]; exact (key_ne_hash _ _ _).symm), if_neg (by rw [addr_hash]; exact hash_ne_mem _ _)]
      exact h.hash i k hi
    · rw [List.getElem?_append_right (by omega)] at hi
      by_cases he : i = keys.length
      · subst he; simp at hi; rw [hch', ← hi, if_pos rfl]
      · rw [List.getElem?_eq_none (by simp; omega)] at hi; simp at hi
  · intro hh hall
    rw [hch, if_neg (by
      rw [addr_hash, addr_inj, Slot.hash.injEq]; exact fun e => hall text (by simp) e.symm),
      if_neg (key_ne_hash _ _ _).symm, if_neg (hash_ne_mem _ _)]
    exact h.nohash hh fun k hk' => hall k (by simp [hk'])

theorem run_indexAddNew {s : Store} (w : s.WF) {ix : Index} {keys : List Str} (h : IxRep E s ix keys)
    (hok : NamesOK E ix.name) {key : Key} (hk : key.hashed E = E.utf8 key.text) (hne : key.text ≠ [])
    (hb : keys.length + 1 < 256 ^ 8) (habs : ∀ k' ∈ keys, E.sha (E.utf8 k') ≠ E.sha (E.utf8 key.text))
    (existsOk : Bool) :
    ∃ s', (indexAdd_ E ix key existsOk).run E s = (.ok keys.length, s') ∧ s'.WF ∧
      IxRep E s' ix (keys ++ [key.text]) ∧ SameOff (indexNames ix.name) s s' := by
  obtain ⟨s1, e1, n1, f1⟩ := run_write_at (E := E) (b := toLE 8 (keys.length + 1)) w h.mem (by rw [h.len]; simp)
  obtain ⟨i2, s2', s2, e2, e2', n2, f2, _⟩ := run_put (E := E) (a := keyAddr ix.name keys.length)
    (b := E.utf8 key.text) f1.wf (utf8_ne_nil E hne) (hok.key _ (by omega))
  have hfree : s2.content (hashAddr E ix.name (E.utf8 key.text)) = none := by
    rw [f2.content, if_neg (by rw [addr_hash]; exact (key_ne_hash _ _ _).symm), f1.content,
      if_neg (by rw [addr_hash]; exact hash_ne_mem _ _)]
    exact h.absent habs
  have f3 := eff_created f2.wf (hashAddr E ix.name (E.utf8 key.text)) 8
  obtain ⟨s4, e4, n4, f4⟩ := run_write_at (E := E) (b := toLE 8 keys.length) f3.wf
    (show (s2.created (hashAddr E ix.name (E.utf8 key.text)) 8).names (hashAddr E ix.name (E.utf8 key.text)) = some s2.next
      by simp) (by simp [Store.created])
  have f34 := f3.trans f4
  have hc : ∀ x, s4.content x = if x = hashAddr E ix.name (E.utf8 key.text) then some (toLE 8 keys.length)
      else if x = keyAddr ix.name keys.length then some (E.utf8 key.text)
      else if x = ix.name then some (toLE 8 (keys.length + 1)) else s.content x := by
    intro x; rw [f34.content, f2.content, f1.content]
  have m4 : s4.names ix.name = some ix.memory := by
    rw [f34.names _ (by rw [addr_hash]; exact (hash_ne_mem _ _).symm), f2.names _ (key_ne_mem _ _).symm]; exact n1
  refine ⟨s4, ?_, f4.wf, h.added hne hb habs m4 (fun x _ => hc x), ((f1.sameOff (indexNames_mem _)).trans
    (f2.sameOff (indexNames_key _ _))).trans (f34.sameOff (indexNames_hash _ _ _))⟩
  · rw [indexAdd_, run_bind, hk, run_check_none hok (h.absent habs), andThen_ok]
    simp only []
    rw [run_bind, run_readLength h, andThen_ok, run_bind, run_intBytes hb, andThen_ok, run_bind, e1, andThen_ok,
      run_bind, e2, andThen_ok, run_bind, e2', andThen_ok, run_bind, run_intBytes (by omega), andThen_ok,
      run_bind, run_openBlock_new (by omega) (hok.hash _) (content_none.1 hfree), andThen_ok, run_bind, e4]
    rfl

theorem run_indexAddOld {s : Store} {ix : Index} {keys : List Str} (h : IxRep E s ix keys)
    (hok : NamesOK E ix.name) {key : Key} (hk : key.hashed E = E.utf8 key.text) {i : Nat}
    (hi : keys[i]? = some key.text) (existsOk : Bool) :
    (indexAdd_ E ix key existsOk).run E s = (if existsOk then .ok i else .err .fileExists, s) := by
  rw [indexAdd_, run_bind, hk, run_check_some h hok hi, andThen_ok]
  cases existsOk <;> rfl

/-! ## removing -/

theorem length_swapRemove {keys : List Str} {i : Nat} (hi : i < keys.length) :
    (swapRemove keys i).length = keys.length - 1 := by
  unfold swapRemove
  cases h : keys.getLast? with
  | none => rw [List.getLast?_eq_none_iff] at h; subst h; simp at hi
  | some l => simp

/-- the list after a removal, entry by entry -/
theorem getElem?_swapRemove {keys : List Str} {i : Nat} (hi : i < keys.length) (j : Nat) :
    (swapRemove keys i)[j]? =
      if j < keys.length - 1 then (if j = i then keys[keys.length - 1]? else keys[j]?) else none := by
  unfold swapRemove
  cases h : keys.getLast? with
  | none => rw [List.getLast?_eq_none_iff] at h; subst h; simp at hi
  | some l =>
    rw [List.getLast?_eq_getElem?] at h
    simp only [h, List.getElem?_dropLast, List.length_set, List.getElem?_set]
    split
    · by_cases hji : i = j
      · subst hji; simp [hi]
      · rw [if_neg hji, if_neg (fun e => hji e.symm)]
    · rfl

/-- the representation after a key has been removed, from the contents of the index's blocks -/
theorem IxRep.removed {s s' : Store} {ix : Index} {keys : List Str} (h : IxRep E s ix keys) {text : Str} {i : Nat}
    (hi : keys[i]? = some text) (m' : s'.names ix.name = some ix.memory)
    (hc0 : ∀ x, indexNames ix.name x → s'.content x = if x = ix.name then some (toLE 8 (keys.length - 1))
        else if x = hashAddr E ix.name (E.utf8 text) then none
        else if x = keyAddr ix.name (keys.length - 1) then none
        else if x = keyAddr ix.name i then (keys[keys.length - 1]?).map E.utf8
        else if (keys[keys.length - 1]?).map (fun l => hashAddr E ix.name (E.utf8 l)) = some x then some (toLE 8 i)
        else s.content x) : IxRep E s' ix (swapRemove keys i) := by
  have hbound := h.bound
  have li : i < keys.length := by
    by_contra hc
    rw [List.getElem?_eq_none (by omega)] at hi; simp at hi
  have hlast : ∃ l, keys[keys.length - 1]? = some l := ⟨_, List.getElem?_eq_getElem (by omega)⟩
  obtain ⟨l, hl⟩ := hlast
  simp only [hl, Option.map_some] at hc0
  refine ⟨m', ?_, ?_, ?_, ?_, ?_, ?_, ?_⟩
  · have := hc0 ix.name (indexNames_mem _)
    rw [content_some m', if_pos rfl] at this
    injection this with this
    rw [this, length_swapRemove li]
  · rw [length_swapRemove li]; omega
  · intro k hk'
    obtain ⟨j, hj⟩ := List.mem_iff_getElem?.1 hk'
    rw [getElem?_swapRemove li] at hj
    split at hj
    · split at hj
      · exact h.nonempty k (List.mem_of_getElem? hj)
      · exact h.nonempty k (List.mem_of_getElem? hj)
    · simp at hj
  · intro j k hj
    rw [getElem?_swapRemove li] at hj
    split at hj
    · rw [hc0 _ (indexNames_key _ _), if_neg (key_ne_mem _ _), if_neg (by rw [addr_hash]; exact key_ne_hash _ _ _),
        if_neg (by rw [key_eq]; omega)]
      split at hj
      · rename_i hji
        subst hji
        rw [hl] at hj
        injection hj with hj
        rw [if_pos rfl, hj]
      · rename_i hji
        rw [if_neg (by rw [key_eq]; exact hji), if_neg (by
          rw [Option.some.injEq, addr_hash]; exact (key_ne_hash _ _ _).symm)]
        exact h.key j k hj
    · simp at hj
  · intro j hj
    rw [length_swapRemove li] at hj
    rw [hc0 _ (indexNames_key _ _), if_neg (key_ne_mem _ _), if_neg (by rw [addr_hash]; exact key_ne_hash _ _ _)]
    by_cases hj' : j = keys.length - 1
    · rw [if_pos (by rw [hj'])]
    · rw [if_neg (by rw [key_eq]; exact hj'), if_neg (by rw [key_eq]; omega), if_neg (by
          rw [Option.some.injEq, addr_hash]; exact (key_ne_hash _ _ _).symm)]
      exact h.nokey j (by omega)
  · intro j k hj
    rw [getElem?_swapRemove li] at hj
    split at hj
    · rename_i hjl
      have hkne : E.sha (E.utf8 k) ≠ E.sha (E.utf8 text) := by
        intro he
        split at hj
        · rename_i hji
          have := h.sha_inj hj hi he
          omega
        · rename_i hji
          exact hji (h.sha_inj hj hi he)
      rw [hc0 _ (indexNames_hash _ _ _), if_neg (by rw [addr_hash]; exact hash_ne_mem _ _), if_neg (by
        rw [addr_hash, addr_hash, addr_inj, Slot.hash.injEq]; exact hkne),
        if_neg (by rw [addr_hash]; exact (key_ne_hash _ _ _).symm),
        if_neg (by rw [addr_hash]; exact (key_ne_hash _ _ _).symm)]
      split at hj
      · rename_i hji
        rw [hl] at hj
        injection hj with hj
        rw [if_pos (by rw [hj]), hji]
      · rename_i hji
        rw [if_neg (by
          rw [Option.some.injEq, addr_hash, addr_hash, addr_inj, Slot.hash.injEq]
          intro he
          have := h.sha_inj hl hj he
          omega)]
        exact h.hash j k hj
    · simp at hj
  · intro hh hall
    rw [hc0 _ ⟨.hash hh, rfl, rfl⟩, if_neg (hash_ne_mem _ _)]
    by_cases hht : hh = E.sha (E.utf8 text)
    · rw [if_pos (by rw [addr_hash, hht])]
    · rw [if_neg (by rw [addr_hash, addr_inj, Slot.hash.injEq]; exact hht), if_neg (key_ne_hash _ _ _).symm,
        if_neg (key_ne_hash _ _ _).symm]
      -- the last key stays unless it is the target
      have hrest : ∀ k ∈ keys, E.sha (E.utf8 k) ≠ hh := by
        intro k hkm he
        obtain ⟨j, hj⟩ := List.mem_iff_getElem?.1 hkm
        have lj : j < keys.length := by
          by_contra hc
          rw [List.getElem?_eq_none (by omega)] at hj; simp at hj
        by_cases hji : j = i
        · subst hji; rw [hj] at hi; injection hi with hi; rw [hi] at he; exact hht he.symm
        · by_cases hjl : j = keys.length - 1
          · -- moved to position i
            have hin : (swapRemove keys i)[i]? = some k := by
              rw [getElem?_swapRemove li, if_pos (by omega), if_pos rfl, ← hjl]; exact hj
            exact hall k (List.mem_of_getElem? hin) he
          · have hin : (swapRemove keys i)[j]? = some k := by
              rw [getElem?_swapRemove li, if_pos (by omega), if_neg hji]; exact hj
            exact hall k (List.mem_of_getElem? hin) he
      rw [if_neg (by
        rw [Option.some.injEq, addr_hash, addr_inj, Slot.hash.injEq]
        exact hrest l (List.mem_of_getElem? hl))]
      exact h.nohash hh hrest

theorem run_indexDelSome {s : Store} (w : s.WF) {ix : Index} {keys : List Str} (h : IxRep E s ix keys)
    (hok : NamesOK E ix.name) {key : Key} (hk : key.hashed E = E.utf8 key.text) {i : Nat}
    (hi : keys[i]? = some key.text) :
    ∃ s', (indexDel_ E ix key).run E s = (.ok (i, keys.length), s') ∧ s'.WF ∧
      IxRep E s' ix (swapRemove keys i) ∧ SameOff (indexNames ix.name) s s' := by
  have hbound := h.bound
  have li : i < keys.length := by
    by_contra hc
    rw [List.getElem?_eq_none (by omega)] at hi; simp at hi
  obtain ⟨hj, hhj, hhs⟩ := names_of_content (h.hash i _ hi)
  by_cases hlast : i + 1 = keys.length
  · -- the target is the last key
    obtain ⟨kj, hkj, hks⟩ := names_of_content (h.key i _ hi)
    have f1 := eff_unlinked w (keyAddr ix.name i)
    have n1 : (s.unlinked (keyAddr ix.name i)).names (hashAddr E ix.name (E.utf8 key.text)) = some hj := by
      rw [f1.names _ (by rw [addr_hash]; exact (key_ne_hash _ _ _).symm)]; exact hhj
    have f2 := eff_unlinked f1.wf (hashAddr E ix.name (E.utf8 key.text))
    have m2 : ((s.unlinked (keyAddr ix.name i)).unlinked (hashAddr E ix.name (E.utf8 key.text))).names ix.name =
        some ix.memory := by
      rw [f2.names _ (by rw [addr_hash]; exact (hash_ne_mem _ _).symm), f1.names _ (key_ne_mem _ _).symm]; exact h.mem
    obtain ⟨s3, e3, n3, f3⟩ := run_write_at (E := E) (b := toLE 8 (keys.length - 1)) f2.wf m2
      (by simp [Store.unlinked, h.len])
    refine ⟨s3, ?_, f3.wf, h.removed hi n3 (fun x _ => ?_), ((f1.sameOff (indexNames_key _ _)).trans
      (f2.sameOff (indexNames_hash _ _ _))).trans (f3.sameOff (indexNames_mem _))⟩
    · rw [indexDel_, run_bind, hk, run_check_some h hok hi, andThen_ok]
      simp only []
      rw [run_bind, run_readLength h, andThen_ok]
      rw [if_neg (by simpa using hlast)]
      rw [run_bind, run_deleteBlock (hok.key _ (by omega)) hkj, andThen_ok, run_bind,
        run_deleteBlock (hok.hash _) n1, andThen_ok, run_bind, run_intBytes (by omega), andThen_ok, run_bind, e3]
      rfl
    · have hil : keys.length - 1 = i := by omega
      rw [f3.content, f2.content, f1.content, hil, hi]
      simp only [Option.map_some, Option.some.injEq]
      by_cases h1 : x = ix.name
      · simp [h1]
      · rw [if_neg h1, if_neg h1]
        by_cases h2 : x = hashAddr E ix.name (E.utf8 key.text)
        · simp [h2]
        · rw [if_neg h2, if_neg h2]
          by_cases h3 : x = keyAddr ix.name i
          · simp [h3]
          · rw [if_neg h3, if_neg h3, if_neg h3, if_neg (fun e => h2 e.symm)]
  · -- the last key moves into the hole
    obtain ⟨l, hl⟩ : ∃ l, keys[keys.length - 1]? = some l := ⟨_, List.getElem?_eq_getElem (by omega)⟩
    have hlne : l ≠ [] := h.nonempty l (List.mem_of_getElem? hl)
    obtain ⟨lj, hlj, hls⟩ := names_of_content (h.key _ _ hl)
    obtain ⟨mi, s1', s1, e1, e1', n1, f1, _⟩ := run_put (E := E) (a := keyAddr ix.name i) (b := E.utf8 l) w
      (utf8_ne_nil E hlne) (hok.key _ (by omega))
    -- the name block of the last key
    have hl1 : s1.content (hashAddr E ix.name (E.utf8 l)) = some (toLE 8 (keys.length - 1)) := by
      rw [f1.content, if_neg (by rw [addr_hash]; exact (key_ne_hash _ _ _).symm)]; exact h.hash _ _ hl
    obtain ⟨nj, hnj, hns⟩ := names_of_content hl1
    obtain ⟨s2, e2, n2, f2⟩ := run_write_at (E := E) (b := toLE 8 i) f1.wf hnj (by rw [hns]; simp)
    have hl2 : s2.names (keyAddr ix.name (keys.length - 1)) = some lj := by
      rw [f2.names _ (by rw [addr_hash]; exact key_ne_hash _ _ _), f1.names _ (by rw [Ne, key_eq]; omega)]; exact hlj
    have f3 := eff_unlinked f2.wf (keyAddr ix.name (keys.length - 1))
    have hshane : E.sha (E.utf8 l) ≠ E.sha (E.utf8 key.text) := fun he => by
      have := h.sha_inj hl hi he; omega
    have hh3 : (s2.unlinked (keyAddr ix.name (keys.length - 1))).names (hashAddr E ix.name (E.utf8 key.text)) =
        some hj := by
      rw [f3.names _ (by rw [addr_hash]; exact (key_ne_hash _ _ _).symm),
        f2.names _ (by rw [addr_hash, addr_hash, Ne, addr_inj, Slot.hash.injEq]; exact fun e => hshane e.symm),
        f1.names _ (by rw [addr_hash]; exact (key_ne_hash _ _ _).symm)]
      exact hhj
    have f4 := eff_unlinked f3.wf (hashAddr E ix.name (E.utf8 key.text))
    have m4 : ((s2.unlinked (keyAddr ix.name (keys.length - 1))).unlinked
        (hashAddr E ix.name (E.utf8 key.text))).names ix.name = some ix.memory := by
      rw [f4.names _ (by rw [addr_hash]; exact (hash_ne_mem _ _).symm), f3.names _ (key_ne_mem _ _).symm,
        f2.names _ (by rw [addr_hash]; exact (hash_ne_mem _ _).symm), f1.names _ (key_ne_mem _ _).symm]
      exact h.mem
    have hmemlen : (((s2.unlinked (keyAddr ix.name (keys.length - 1))).unlinked
        (hashAddr E ix.name (E.utf8 key.text))).segs ix.memory).length = 8 := by
      have hcm := content_some m4
      rw [f4.content, if_neg (by rw [addr_hash]; exact (hash_ne_mem _ _).symm), f3.content,
        if_neg (key_ne_mem _ _).symm, f2.content, if_neg (by rw [addr_hash]; exact (hash_ne_mem _ _).symm),
        f1.content, if_neg (key_ne_mem _ _).symm, content_some h.mem, h.len] at hcm
      injection hcm with hcm
      rw [← hcm]; simp
    obtain ⟨s5, e5, n5, f5⟩ := run_write_at (E := E) (b := toLE 8 (keys.length - 1)) f4.wf m4
      (by rw [hmemlen]; simp)
    refine ⟨s5, ?_, f5.wf, h.removed hi n5 (fun x _ => ?_), ((((f1.sameOff (indexNames_key _ _)).trans
      (f2.sameOff (indexNames_hash _ _ _))).trans (f3.sameOff (indexNames_key _ _))).trans
      (f4.sameOff (indexNames_hash _ _ _))).trans (f5.sameOff (indexNames_mem _))⟩
    · rw [indexDel_, run_bind, hk, run_check_some h hok hi, andThen_ok]
      simp only []
      rw [run_bind, run_readLength h, andThen_ok]
      rw [if_pos (by simpa using hlast)]
      rw [run_bind, run_attach (hok.key _ (by omega)) hlj, andThen_ok, run_bind, run_read, andThen_ok, hls,
        run_bind, e1, andThen_ok, run_bind, e1', andThen_ok, run_bind, run_attach (hok.hash _) hnj, andThen_ok,
        run_bind, run_intBytes (by omega), andThen_ok, run_bind, e2, andThen_ok, run_bind, run_unlink hl2, andThen_ok,
        run_bind, run_deleteBlock (hok.hash _) hh3, andThen_ok, run_bind, run_intBytes (by omega), andThen_ok,
        run_bind, e5]
      rfl
    · rw [f5.content, f4.content, f3.content, f2.content, f1.content, hl]
      simp only [Option.map_some, Option.some.injEq]
      by_cases h1 : x = ix.name
      · simp [h1]
      · rw [if_neg h1, if_neg h1]
        by_cases h2 : x = hashAddr E ix.name (E.utf8 key.text)
        · simp [h2]
        · rw [if_neg h2, if_neg h2]
          by_cases h3 : x = keyAddr ix.name (keys.length - 1)
          · simp [h3]
          · rw [if_neg h3, if_neg h3]
            by_cases h4 : x = keyAddr ix.name i
            · rw [if_pos h4, if_neg (by rw [h4, addr_hash]; exact key_ne_hash _ _ _), if_pos h4]
            · rw [if_neg h4, if_neg h4]
              by_cases h5 : x = hashAddr E ix.name (E.utf8 l)
              · rw [if_pos h5, if_pos h5.symm]
              · rw [if_neg h5, if_neg (fun e => h5 e.symm)]

theorem run_indexDelNone {s : Store} {ix : Index} {keys : List Str} (h : IxRep E s ix keys)
    (hok : NamesOK E ix.name) {key : Key} (hk : key.hashed E = E.utf8 key.text)
    (habs : ∀ k' ∈ keys, E.sha (E.utf8 k') ≠ E.sha (E.utf8 key.text)) :
    (indexDel_ E ix key).run E s = (.err .keyError, s) := by
  rw [indexDel_, run_bind, hk, run_check_none hok (h.absent habs)]; rfl

end Verif.Lemmas
