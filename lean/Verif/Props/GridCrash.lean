import Verif.Lemmas.GridCrash
import Verif.Props.Grid
/-!
# C86, C87: GridPaper calls cut short

`p.crash E n s` is the memory left by a process that runs `p` in memory `s` and is killed after `n` operations on shared
memory. `gp[key]` takes no lock, so a reader running beside a writer sees the same memories.
-/
namespace Verif.Props
open Verif Verif.Model Verif.Lemmas Verif.Spec

/-- what a dictionary of arrays answers to `gp[key]` -/
def lookup (m : Str → Option (Arr × Nat)) (k : Str) : Outcome Arr :=
  match m k with
  | some (a, _) => .ok a
  | none => .err .keyError

/-! ## C86 -/

/-- C86, in full: after a process storing an array was killed at any moment, every other key reads as before, and the key
it was storing reads as before or gives the new array -/
def C86_full : Prop :=
  ∀ (E : Env) (c : Codec ArrMeta) (nbytes : Str → List Nat → Nat) (pre : Str) (U : Str → Prop) (_ : KeysOK E pre U)
    (_ : NamesOK E (indexName pre)) (noLock : Bool) (s : Store) (gs : List Grid) (m : Str → Option (Arr × Nat))
    (_ : GridInUse E c nbytes pre U noLock s gs m) (g : Grid) (_ : g ∈ gs) (key : Key)
    (_ : key.hashed E = E.utf8 key.text) (_ : U key.text) (a : Arr) (_ : ArrOK c nbytes pre key.text a) (eo : Bool) (n : Nat)
    (g' : Grid) (_ : g' ∈ gs) (k : Key) (_ : k.hashed E = E.utf8 k.text) (_ : U k.text),
    ((gridGet E c nbytes g' k).run E ((gridSet E c g key a eo).crash E n s)).1 = lookup m k.text ∨
    (k.text = key.text ∧ ((gridGet E c nbytes g' k).run E ((gridSet E c g key a eo).crash E n s)).1 = .ok a)

/-- C86, the part that holds: every other key reads as before, in every client, whatever the array and whether or not the
store would have succeeded. What the key being stored reads as is left out. -/
theorem C86_crash_in_grid_set_partial (E : Env) (c : Codec ArrMeta) (nbytes : Str → List Nat → Nat) (pre : Str)
    (U : Str → Prop) (hU : KeysOK E pre U) (hok : NamesOK E (indexName pre)) (noLock : Bool) (s : Store) (gs : List Grid)
    (m : Str → Option (Arr × Nat)) (h : GridInUse E c nbytes pre U noLock s gs m) (g : Grid) (hg : g ∈ gs) (key : Key)
    (hk : key.hashed E = E.utf8 key.text) (hUk : U key.text) (a : Arr) (eo : Bool) (n : Nat) (g' : Grid) (hg' : g' ∈ gs)
    (k : Key) (hk' : k.hashed E = E.utf8 k.text) (hUk' : U k.text) (hne : k.text ≠ key.text) :
    ((gridGet E c nbytes g' k).run E ((gridSet E c g key a eo).crash E n s)).1 = lookup m k.text := by
  obtain ⟨w, ix, keys, f, fl, hrep, hfl, hcl⟩ := h.rep hU hok
  obtain ⟨hg1, hg2, _, _⟩ := hcl g hg
  have hm := (always_crash (foot_gridSet hU hok w hrep hfl hg1 hg2 hk hUk a eo) n).2
  have hfree' := hU.free _ hUk'
  have hslot : ∀ sl : Slot, sl.addr ix.name ≠ padAddr pre key.text := fun sl => by
    rw [hrep.name]; exact slot_ne_pad (hU.free _ hUk) sl
  have hslot' : ∀ sl : Slot, sl.addr ix.name ≠ padAddr pre k.text := fun sl => by rw [hrep.name]; exact slot_ne_pad hfree' sl
  have same : ∀ x, ¬ setBlocks E pre ix keys.length (slotOf keys key.text) key.text x →
      ((gridSet E c g key a eo).crash E n s).content x = s.content x := fun x hx => by
    rcases hm x hx with h | h
    · exact h.2
    · exact absurd h.1 id
  rw [gridGet_mod hU hok hrep (hcl g' hg').2.1 hk' hUk' (same _ ?_) (fun i hi => same _ ?_) (fun _ => same _ ?_)]
  · rfl
  · rintro (h | h | h | h | h | h)
    · exact index_not_lock (indexNames_hash _ _ _) h
    · rw [addr_hash] at h; exact hash_ne_mem _ _ h
    · rw [addr_hash] at h; exact key_ne_hash _ _ _ h.symm
    · rw [addr_hash, addr_hash, addr_inj] at h
      injection h with h
      exact hne (hU.inj _ _ hUk' hUk h)
    · rw [addr_hash, addr_val, addr_inj] at h; simp at h
    · rw [addr_hash] at h; exact hslot _ h
  · rintro (h | h | h | h | h | h)
    · exact meta_not_lock (metaNames_val _ _) h
    · have h : valAddr ix.name i = Slot.mem.addr ix.name := by rw [← addr_mem]; exact h
      rw [addr_val, addr_inj] at h; simp at h
    · rw [addr_val, addr_key, addr_inj] at h; simp at h
    · rw [addr_val, addr_hash, addr_inj] at h; simp at h
    · rw [addr_val, addr_val, addr_inj] at h
      injection h with h
      have li := lt_of_getElem? hi
      unfold slotOf at h
      cases hpos : position key.text keys with
      | none => rw [hpos] at h; simp at h; omega
      | some j =>
        rw [hpos] at h
        simp at h
        subst h
        have := position_some hpos
        rw [hi] at this
        injection this with this
        exact hne this
    · rw [addr_val] at h; exact hslot _ h
  · rintro (h | h | h | h | h | h)
    · obtain ⟨sl, _, he⟩ := h; exact hslot' sl he.symm
    · exact hslot' .mem (by rw [← addr_mem]; exact h.symm)
    · rw [addr_key] at h; exact hslot' _ h.symm
    · rw [addr_hash] at h; exact hslot' _ h.symm
    · rw [addr_val] at h; exact hslot' _ h.symm
    · exact hne (pad_inj h)

/-- what `gp["c"]` gives, when the process storing it was killed after `n` operations: memory holding the arrays `sq` under
"a" and `row3` under "b" -/
def newKeyRead (n : Nat) : Outcome Arr :=
  ((gridGet labEnv metaCodec u1Bytes gridOne kC).run labEnv
    ((gridSet labEnv metaCodec gridOne kC row5 true).crash labEnv n twoFreeStore)).1

/-- what `gp["a"]` gives, when a process overwriting it by `row3` was killed after `n` operations -/
def oldKeyRead (n : Nat) : Outcome Arr :=
  ((gridGet labEnv metaCodec u1Bytes gridOne kA).run labEnv
    ((gridSet labEnv metaCodec gridOne kA row3 true).crash labEnv n twoFreeStore)).1

/-- C86: killed (or looked at) between the creation of the block that holds the key's position and the write to it, a new
key gives the array of the first listed key; overwriting may leave the old shape with bytes of both arrays -/
theorem C86_wrong_arrays : (newKeyRead 8 = .err .keyError ∧ newKeyRead 9 = .ok sq ∧ newKeyRead 10 = .err .keyError ∧
      newKeyRead 12 = .ok row5) ∧
    oldKeyRead 3 = .ok sq ∧ oldKeyRead 4 = .ok ⟨u1, [2, 2], [7, 8, 9, 4]⟩ ∧ oldKeyRead 10 = .err .keyError ∧
      oldKeyRead 12 = .ok row3 := by
  refine ⟨⟨rfl, rfl, rfl, rfl⟩, rfl, rfl, rfl, rfl⟩

/-- C86 is false of the code -/
theorem C86_full_false : ¬ C86_full := by
  intro h
  have hC := labKey_lab kC (by simp)
  have h1 := h labEnv metaCodec u1Bytes np labKeys (labKeysOK np) (labIndexOK np) _ _ _ _ two_gridInUseFree gridOne (by simp)
    kC hC.1 hC.2 row5 (labArr _ _ _ (by simp [row5]) (by simp [row5]) rfl) true 9 gridOne (by simp) kC hC.1 hC.2
  have h2 : ((gridGet labEnv metaCodec u1Bytes gridOne kC).run labEnv
    ((gridSet labEnv metaCodec gridOne kC row5 true).crash labEnv 9 twoFreeStore)).1 = .ok sq := C86_wrong_arrays.1.2.1
  rw [h2] at h1
  rcases h1 with h1 | ⟨_, h1⟩
  · have h3 : lookup twoArrays kC.text = .err .keyError := rfl
    rw [h3] at h1; cases h1
  · injection h1 with h1
    have := congrArg Arr.shape h1
    simp [sq, row5] at this

example : ((gridGet labEnv metaCodec u1Bytes gridTwo kB).run labEnv
    ((gridSet labEnv metaCodec gridOne kA row3 true).crash labEnv 4 twoGridStore)).1 = .ok row3 := by
  have hA := labKey_lab kA (by simp)
  have hB := labKey_lab kB (by simp)
  exact C86_crash_in_grid_set_partial labEnv metaCodec u1Bytes np labKeys (labKeysOK np) (labIndexOK np) _ _ _ _ two_gridInUse
    gridOne (by simp) kA hA.1 hA.2 row3 true 4 gridTwo (by simp) kB hB.1 hB.2 (by simp [kA, kB, Key.text])

/-! ## C87 -/

/-- C87, in full: after a process deleting a key (without locks) was killed at any moment, every other key reads as before,
and the key it was deleting reads as before or raises `KeyError` -/
def C87_full : Prop :=
  ∀ (E : Env) (c : Codec ArrMeta) (nbytes : Str → List Nat → Nat) (pre : Str) (U : Str → Prop) (_ : KeysOK E pre U)
    (_ : NamesOK E (indexName pre)) (s : Store) (gs : List Grid) (m : Str → Option (Arr × Nat))
    (_ : GridInUse E c nbytes pre U true s gs m) (g : Grid) (_ : g ∈ gs) (key : Key)
    (_ : key.hashed E = E.utf8 key.text) (_ : U key.text) (n : Nat) (g' : Grid) (_ : g' ∈ gs) (k : Key)
    (_ : k.hashed E = E.utf8 k.text) (_ : U k.text),
    ((gridGet E c nbytes g' k).run E ((gridDel E g key).crash E n s)).1 = lookup m k.text ∨
    (k.text = key.text ∧ ((gridGet E c nbytes g' k).run E ((gridDel E g key).crash E n s)).1 = .err .keyError)

/-- C87, the part that holds: all keys but the last one listed. The last one's metadata is being moved into the place of the
deleted key's. -/
theorem C87_crash_in_grid_del_partial (E : Env) (c : Codec ArrMeta) (nbytes : Str → List Nat → Nat) (pre : Str)
    (U : Str → Prop) (hU : KeysOK E pre U) (hok : NamesOK E (indexName pre)) (s : Store) (gs : List Grid)
    (m : Str → Option (Arr × Nat)) (h : GridInUse E c nbytes pre U true s gs m) (g : Grid) (hg : g ∈ gs) (key : Key)
    (hk : key.hashed E = E.utf8 key.text) (hUk : U key.text) (n : Nat) :
    ∃ keys, (∀ g' ∈ gs, (indexUpdate E g'.index).run E s = (.ok keys, s)) ∧
      ∀ g' ∈ gs, ∀ k : Key, k.hashed E = E.utf8 k.text → U k.text →
        (k.text = key.text →
          ((gridGet E c nbytes g' k).run E ((gridDel E g key).crash E n s)).1 = lookup m k.text ∨
          ((gridGet E c nbytes g' k).run E ((gridDel E g key).crash E n s)).1 = .err .keyError) ∧
        (k.text ≠ key.text → (m key.text ≠ none → keys.getLast? ≠ some k.text) →
          ((gridGet E c nbytes g' k).run E ((gridDel E g key).crash E n s)).1 = lookup m k.text) := by
  obtain ⟨w, ix, keys, f, fl, hrep, hfl, hcl⟩ := h.rep hU hok
  obtain ⟨hg1, hg2, _, hg4⟩ := hcl g hg
  have hokn : NamesOK E ix.name := by rw [hrep.name]; exact hok
  refine ⟨keys, fun g' hg' => by rw [(hcl g' hg').2.1]; exact run_indexUpdate hrep.rep.rep hokn, fun g' hg' k hk' hUk' => ?_⟩
  have hgi' := (hcl g' hg').2.1
  cases hmk : m key.text with
  | none =>
    -- nothing is ever changed
    have hsame : (gridDel E g key).crash E n s = s := by
      have hA : Always E (fun s' => s' = s) (gridDel E g key) s := by
        unfold gridDel
        rw [not_reservedExact (hU.free _ hUk)]
        simp only [Bool.false_eq_true, if_false]
        have hn : s.names (padAddr g.pre key.text) = none := by
          rw [hg1]; exact content_none.1 (hrep.noval _ (hU.free _ hUk) hmk)
        have hd : Always E (fun s' => s' = s) (deleteBlock (padAddr g.pre key.text)) s :=
          always_deleteBlock rfl (by
            have : s.unlinked (padAddr g.pre key.text) = s := by
              unfold Store.unlinked
              congr 1
              funext x
              by_cases hx : x = padAddr g.pre key.text
              · rw [if_pos hx, hx, hn]
              · rw [if_neg hx]
            exact this)
        refine always_bind_end (always_attempt (always_bind hd fun _ s1 hr => ?_)) fun r s1 hP => ?_
        · have hr' : (deleteBlock (padAddr g.pre key.text)).run E s = (.ok (), s1) := hr
          rw [run_deleteBlock_none (by rw [hg1]; exact hU.ok _ hUk) hn] at hr'
          simp at hr'
        · cases r with
          | ok u => exact hP
          | error e => cases e <;> exact hP
      exact always_crash hA n
    rw [hsame, run_gridGet hU hok hrep hgi' hk' hUk']
    exact ⟨fun _ => Or.inl rfl, fun _ _ => rfl⟩
  | some p =>
    obtain ⟨i, hi⟩ := List.mem_iff_getElem?.1 ((hrep.live key.text).2 (by rw [hmk]; simp))
    have li := lt_of_getElem? hi
    have hl : keys[keys.length - 1]? = some (keys[keys.length - 1]'(by omega)) := List.getElem?_eq_getElem (by omega)
    generalize keys[keys.length - 1]'(by omega) = l at hl
    have hst := always_crash (always_gridDel hU hok w hrep hg1 hg2 (hg4 rfl) hk hUk hi hl) n
    refine ⟨fun hkk => ?_, fun hne hlast => ?_⟩
    · rw [hkk]
      have pos : ∀ j, keys[j]? = some k.text → j = i := fun j hj => by
        rw [hkk] at hj
        exact (List.getElem?_inj (lt_of_getElem? hj) hrep.rep.rep.nodup).1 (hj.trans hi.symm)
      rcases hst.2.2 with hno | ⟨hh, hv, hno | hs⟩
      · right
        rw [gridGet_gone hU hok hrep hgi' hk' hUk' (Or.inl (by rw [hkk]; exact hno))]
      · right
        rw [gridGet_gone hU hok hrep hgi' hk' hUk' (Or.inr ⟨by rw [hkk]; exact hh, fun j hj => ?_, by rw [hkk]; exact hno⟩)]
        rw [pos j hj]; exact hv
      · left
        rw [hs, run_gridGet hU hok hrep hgi' hk' hUk', hkk]
        rfl
    · have hkl : l ≠ k.text := by
        rintro rfl
        exact hlast (by simp) (by rw [List.getLast?_eq_getElem?]; exact hl)
      have hslot : ∀ sl : Slot, sl.addr ix.name ≠ padAddr pre key.text := fun sl => by
        rw [hrep.name]; exact slot_ne_pad (hU.free _ hUk) sl
      have hslot' : ∀ sl : Slot, sl.addr ix.name ≠ padAddr pre k.text := fun sl => by
        rw [hrep.name]; exact slot_ne_pad (hU.free _ hUk') sl
      have same : ∀ x, ¬ delBlocks E ix keys.length i l key.text x → ¬ delGone E pre ix key.text x →
          ((gridDel E g key).crash E n s).content x = s.content x := fun x hx hd => by
        rcases hst.2.1 x hx with h | h
        · exact h.2
        · exact absurd h.1 hd
      rw [gridGet_mod hU hok hrep hgi' hk' hUk' (same _ ?_ ?_) (fun j hj => same _ ?_ ?_) (fun _ => same _ ?_ ?_)]
      · rfl
      · rintro ((h | h | h | ⟨_, h⟩) | h | h)
        · rw [addr_hash] at h; exact hash_ne_mem _ _ h
        · rw [addr_hash] at h; exact key_ne_hash _ _ _ h.symm
        · rw [addr_hash] at h; exact key_ne_hash _ _ _ h.symm
        · rw [addr_hash, addr_hash, addr_inj] at h
          injection h with h
          exact hkl (hU.inj _ _ hUk' (hrep.used _ (List.mem_of_getElem? hl)) h).symm
        · rw [addr_hash, addr_val, addr_inj] at h; simp at h
        · rw [addr_hash, addr_val, addr_inj] at h; simp at h
      · rintro (h | h)
        · rw [addr_hash, addr_hash, addr_inj] at h
          injection h with h
          exact hne (hU.inj _ _ hUk' hUk h)
        · rw [addr_hash] at h; exact hslot _ h
      · have hji : j ≠ i := by
          rintro rfl
          rw [hi] at hj
          injection hj with hj
          exact hne hj.symm
        have hjl : j ≠ keys.length - 1 := by
          rintro rfl
          rw [hl] at hj
          injection hj with hj
          exact hkl hj
        rintro ((h | h | h | ⟨_, h⟩) | h | h)
        · have h : valAddr ix.name j = Slot.mem.addr ix.name := by rw [← addr_mem]; exact h
          rw [addr_val, addr_inj] at h; simp at h
        · rw [addr_val, addr_key, addr_inj] at h; simp at h
        · rw [addr_val, addr_key, addr_inj] at h; simp at h
        · rw [addr_val, addr_hash, addr_inj] at h; simp at h
        · rw [addr_val, addr_val, addr_inj] at h; injection h with h; exact hji h
        · rw [addr_val, addr_val, addr_inj] at h; injection h with h; exact hjl h
      · rintro (h | h)
        · rw [addr_val, addr_hash, addr_inj] at h; simp at h
        · rw [addr_val] at h; exact hslot _ h
      · rintro ((h | h | h | ⟨_, h⟩) | h | h)
        · exact hslot' .mem (by rw [← addr_mem]; exact h.symm)
        · rw [addr_key] at h; exact hslot' _ h.symm
        · rw [addr_key] at h; exact hslot' _ h.symm
        · rw [addr_hash] at h; exact hslot' _ h.symm
        · rw [addr_val] at h; exact hslot' _ h.symm
        · rw [addr_val] at h; exact hslot' _ h.symm
      · rintro (h | h)
        · rw [addr_hash] at h; exact hslot' _ h.symm
        · exact hne (pad_inj h)

/-- what `gp["b"]` gives, when a process deleting "a" was killed after `n` operations -/
def lastKeyRead (n : Nat) : Outcome Arr :=
  ((gridGet labEnv metaCodec u1Bytes gridOne kB).run labEnv ((gridDel labEnv gridOne kA).crash labEnv n twoFreeStore)).1

/-- C87: the last key is missing for a while, then its metadata is a block of zeros -/
theorem C87_last_key : lastKeyRead 14 = .ok row3 ∧ lastKeyRead 15 = .err .keyError ∧ lastKeyRead 26 = .err .keyError ∧
    (∃ e, lastKeyRead 27 = .err e ∧ e ≠ .keyError) ∧ lastKeyRead 28 = .ok row3 :=
  ⟨rfl, rfl, rfl, ⟨_, rfl, by decide⟩, rfl⟩

/-- C87 is false of the code: killed after the key's position was changed and before its metadata was moved, a key that
nobody deleted is missing -/
theorem C87_full_false : ¬ C87_full := by
  intro h
  have hA := labKey_lab kA (by simp)
  have hB := labKey_lab kB (by simp)
  have h1 := h labEnv metaCodec u1Bytes np labKeys (labKeysOK np) (labIndexOK np) _ _ _ two_gridInUseFree gridOne (by simp)
    kA hA.1 hA.2 15 gridOne (by simp) kB hB.1 hB.2
  have h2 : ((gridGet labEnv metaCodec u1Bytes gridOne kB).run labEnv
    ((gridDel labEnv gridOne kA).crash labEnv 15 twoFreeStore)).1 = .err .keyError := C87_last_key.2.1
  rw [h2] at h1
  rcases h1 with h1 | ⟨h1, _⟩
  · have h3 : lookup twoArrays kB.text = .ok row3 := rfl
    rw [h3] at h1; cases h1
  · simp [kA, kB, Key.text] at h1

/-- the first key while the last is deleted, and the last -/
example (n : Nat) : ((gridGet labEnv metaCodec u1Bytes gridOne kA).run labEnv
      ((gridDel labEnv gridOne kB).crash labEnv n twoFreeStore)).1 = .ok sq ∧
    (((gridGet labEnv metaCodec u1Bytes gridOne kB).run labEnv
      ((gridDel labEnv gridOne kB).crash labEnv n twoFreeStore)).1 = .ok row3 ∨
     ((gridGet labEnv metaCodec u1Bytes gridOne kB).run labEnv
      ((gridDel labEnv gridOne kB).crash labEnv n twoFreeStore)).1 = .err .keyError) := by
  have hA := labKey_lab kA (by simp)
  have hB := labKey_lab kB (by simp)
  obtain ⟨keys, h1, h2⟩ := C87_crash_in_grid_del_partial labEnv metaCodec u1Bytes np labKeys (labKeysOK np) (labIndexOK np) _ _ _
    two_gridInUseFree gridOne (by simp) kB hB.1 hB.2 n
  have hkeys : (indexUpdate labEnv gridOne.index).run labEnv twoFreeStore = (.ok [kA.text, kB.text], twoFreeStore) := rfl
  rw [h1 gridOne (by simp)] at hkeys
  injection hkeys with hkeys _
  injection hkeys with hkeys
  subst hkeys
  exact ⟨(h2 gridOne (by simp) kA hA.1 hA.2).2 (by simp [kA, kB, Key.text]) (fun _ => by simp [kA, kB, Key.text]),
    (h2 gridOne (by simp) kB hB.1 hB.2).1 rfl⟩

end Verif.Props
