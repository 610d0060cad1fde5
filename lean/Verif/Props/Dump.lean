import Verif.Model.Dump
import Verif.Props.Notepad
/-!
# C125: `dump`; C126: `close(dump=True)`
-/
namespace Verif.Props
open Verif Verif.Model Verif.Lemmas Verif.Spec

variable {V : Type} {E : Env} {c : Codec V} {isNone : V → Bool}

theorem put_same (d : Files) (f : Str) (b : Bytes) : d.put f b f = some b := if_pos rfl
theorem put_other (d : Files) {f x : Str} (b : Bytes) (h : x ≠ f) : d.put f b x = d x := if_neg h
theorem put_put (d : Files) (f : Str) (a b : Bytes) : (d.put f a).put f b = d.put f b := by
  funext x
  by_cases h : x = f
  · subst h; rw [put_same, put_same]
  · rw [put_other _ _ h, put_other _ _ h, put_other _ _ h]

theorem padDump_live {pre : Str} {U : Str → Prop} (hU : KeysOK E pre U) {s : Store} {ix : Index} {m : Str → Option V}
    {keys : List Str} {fl : Nat} (h : PadRep E c isNone pre U s ix m keys fl) {p : Pad} (hp : p.pre = pre) {key : Key}
    (hUk : U key.text) {v : V} (hv : m key.text = some v) (opens : Str → Option PyErr) (fn : Option Str) (d : Files)
    (ho : opens (fn.getD (dumpName pre key.text)) = none) :
    ∃ b, c.decode b = .ok v ∧
      padDump E opens p key fn s d = (.ok (), s, d.put (fn.getD (dumpName pre key.text)) b) := by
  obtain ⟨b, hb, hst⟩ := h.val _ _ hv
  refine ⟨b, hst.2.2.1, ?_⟩
  simp only [padDump, hp, ho, run_fetchBlockBytes (hU.ok _ hUk) hb, put_put]

/-- C125, in full: `dump` of a live key writes the bytes of its value to the file and changes nothing else; of an absent key
it raises and changes nothing -/
def C125_full : Prop :=
  ∀ (V : Type) (E : Env) (c : Codec V) (isNone : V → Bool) (pre : Str) (U : Str → Prop) (_ : KeysOK E pre U)
    (_ : NamesOK E (indexName pre)) (s : Store) (ps : List Pad) (m : Str → Option V)
    (_ : InUse E c isNone pre U s ps m) (p : Pad) (_ : p ∈ ps) (key : Key) (_ : U key.text)
    (opens : Str → Option PyErr) (f : Str) (_ : opens f = none) (d : Files),
    (∀ v, m key.text = some v → ∃ b, c.decode b = .ok v ∧
      padDump E opens p key (some f) s d = (.ok (), s, d.put f b)) ∧
    (m key.text = none → ∃ e, padDump E opens p key (some f) s d = (.err e, s, d))

/-- **C125** (partial: live keys). After any history of calls, `dump(key, fn)` of a live key writes bytes that decode to its
value to the file `fn`, or to the file named after prefix and key; shared memory and other files stay as they are. -/
theorem C125_dump_partial (E : Env) (c : Codec V) (isNone : V → Bool) (pre : Str) (U : Str → Prop)
    (hU : KeysOK E pre U) (hok : NamesOK E (indexName pre)) (s : Store) (ps : List Pad) (m : Str → Option V)
    (h : InUse E c isNone pre U s ps m) (p : Pad) (hp : p ∈ ps) (key : Key) (hk : U key.text) (v : V)
    (hv : m key.text = some v) (opens : Str → Option PyErr) (fn : Option Str) (d : Files)
    (ho : opens (fn.getD (dumpName pre key.text)) = none) :
    ∃ b d', c.decode b = .ok v ∧ padDump E opens p key fn s d = (.ok (), s, d') ∧
      d' (fn.getD (dumpName pre key.text)) = some b ∧
      ∀ x, x ≠ fn.getD (dumpName pre key.text) → d' x = d x := by
  obtain ⟨_, ix, keys, fl, hrep, _, hcl⟩ := h.rep hU hok
  obtain ⟨b, h1, h2⟩ := padDump_live hU hrep (hcl p hp).1 hk hv opens fn d ho
  exact ⟨b, _, h1, h2, put_same _ _ _, fun x hx => put_other _ _ hx⟩

/-- **C125**: `dump` of an absent key raises `FileNotFoundError`, and leaves the file empty, whatever was in it -/
theorem C125_absent (E : Env) (c : Codec V) (isNone : V → Bool) (pre : Str) (U : Str → Prop)
    (hU : KeysOK E pre U) (hok : NamesOK E (indexName pre)) (s : Store) (ps : List Pad) (m : Str → Option V)
    (h : InUse E c isNone pre U s ps m) (p : Pad) (hp : p ∈ ps) (key : Key) (hk : U key.text)
    (hv : m key.text = none) (opens : Str → Option PyErr) (f : Str) (d : Files) (ho : opens f = none) :
    ∃ d', padDump E opens p key (some f) s d = (.err .fileNotFound, s, d') ∧ d' f = some [] := by
  obtain ⟨_, ix, keys, fl, hrep, _, hcl⟩ := h.rep hU hok
  have hn := content_none.1 (hrep.noval _ (hU.free _ hk) hv)
  have hr : (fetchBlockBytes (padAddr pre key.text)).run E s = (.err .fileNotFound, s) := by
    rw [fetchBlockBytes, run_bind, run_attach_none (hU.ok _ hk) hn]; rfl
  refine ⟨d.put f [], ?_, put_same _ _ _⟩
  simp only [padDump, (hcl p hp).1, Option.getD_some, ho, hr]

/-- **C125**: the name of the file, if none is given: prefix, underscore and key, with every dot made an underscore -/
theorem C125_name (pre key : Str) : (dumpName pre key).length = pre.length + 1 + key.length ∧ '.' ∉ dumpName pre key ∧
    ∀ (i : Nat) c, (pre ++ '_' :: key)[i]? = some c → (dumpName pre key)[i]? = some (if c = '.' then '_' else c) := by
  refine ⟨by simp [dumpName, padAddr]; omega, fun h => ?_, fun i c h => ?_⟩
  · obtain ⟨c, -, hc⟩ := List.mem_map.1 h
    split at hc
    · cases hc
    · contradiction
  · have e : dumpName pre key = (pre ++ '_' :: key).map fun c => if c = '.' then '_' else c := by simp [dumpName, padAddr]
    rw [e, List.getElem?_map, h]
    rfl

example : dumpName "a.b".toList "k.1".toList = "a_b_k_1".toList := rfl

/-- **C125**: a file that cannot be opened -/
theorem C125_unopened (E : Env) (p : Pad) (key : Key) (opens : Str → Option PyErr) (fn : Option Str) (s : Store) (d : Files)
    (e : PyErr) (ho : opens (fn.getD (dumpName p.pre key.text)) = some e) :
    padDump E opens p key fn s d = (.err e, s, d) := by
  simp only [padDump, ho]

/-- C125 is false of the code: dumping an absent key to a file destroys what was in it -/
theorem C125_full_false : ¬ C125_full := by
  intro h
  have hC := labKey_lab kC (by simp)
  obtain ⟨e, he⟩ := (h Nat labEnv demoCodec (fun _ => false) np labKeys (labKeysOK np) (labIndexOK np) _ _ _ two_inUse padOne
    (by simp) kC hC.2 (fun _ => none) "out".toList rfl (fun _ => some [7])).2 rfl
  obtain ⟨d', hd, hf⟩ := C125_absent labEnv demoCodec (fun _ => false) np labKeys (labKeysOK np) (labIndexOK np) _ _ _ two_inUse
    padOne (by simp) kC hC.2 rfl (fun _ => none) "out".toList (fun _ => some [7]) rfl
  rw [hd] at he
  simp only [Prod.mk.injEq] at he
  rw [he.2.2] at hf
  simp at hf

example : ∃ b d', demoCodec.decode b = .ok 3 ∧
    padDump labEnv (fun _ => none) padTwo kB none twoStore (fun _ => none) = (.ok (), twoStore, d') ∧
    d' (dumpName np kB.text) = some b ∧ ∀ x, x ≠ dumpName np kB.text → d' x = none :=
  C125_dump_partial labEnv demoCodec (fun _ => false) np labKeys (labKeysOK np) (labIndexOK np) _ _ _ two_inUse padTwo (by simp)
    kB (labKey_lab kB (by simp)).2 3 rfl (fun _ => none) none (fun _ => none) rfl

/-- **C125** (GridPaper): if the array can be had and the file can be opened, its bytes are written; if not, no file is
touched -/
theorem C125_grid (E : Env) (c : Codec ArrMeta) (nbytes : Str → List Nat → Nat) (opens : Str → Option PyErr) (g : Grid)
    (key : Key) (f : Str) (s : Store) (d : Files) :
    (∀ a s', (gridGet E c nbytes g key).run E s = (.ok a, s') → opens f = none →
      ∃ d', gridDump E c nbytes opens g key (some f) s d = (.ok (), s', d') ∧ d' f = some a.data ∧
        ∀ x, x ≠ f → d' x = d x) ∧
    (∀ a s' e, (gridGet E c nbytes g key).run E s = (.ok a, s') → opens f = some e →
      gridDump E c nbytes opens g key (some f) s d = (.err e, s', d)) ∧
    ∀ e s', (gridGet E c nbytes g key).run E s = (.err e, s') →
      gridDump E c nbytes opens g key (some f) s d = (.err e, s', d) := by
  refine ⟨fun a s' hg ho => ⟨d.put f a.data, ?_, put_same _ _ _, fun x hx => put_other _ _ hx⟩, fun a s' e hg ho => ?_,
    fun e s' hg => ?_⟩
  · simp only [gridDump, hg, Option.getD_some, ho]
  · simp only [gridDump, hg, Option.getD_some, ho]
  · simp only [gridDump, hg]

/-! ## C126 -/

/-- the file holds the value -/
def Dumped (c : Codec V) (d : Files) (f : Str) (v : V) : Prop := ∃ b, d f = some b ∧ c.decode b = .ok v

theorem run_padDumpDelAll {pre : Str} {U : Str → Prop} (hU : KeysOK E pre U) (hok : NamesOK E (indexName pre))
    {ix : Index} {p : Pad} (hp : p.pre = pre) (hpi : p.index = .tag ix) (hm : p.mode.Runs) (opens : Str → Option PyErr)
    (l : List Str) (hnd : (l.map (dumpName pre)).Nodup) {s : Store} (w : s.WF) {m : Str → Option V} {keys : List Str}
    {fl : Nat} (h : PadRep E c isNone pre U s ix m keys fl) (hl : ∀ k ∈ l, k ∈ keys) (hfl : fl + keys.length + 2 < 256 ^ 5)
    (d : Files) :
    ∃ o s' d' m' keys' fl', padDumpDelAll E opens p l s d = (o, s', d') ∧ s'.WF ∧
      PadRep E c isNone pre U s' ix m' keys' fl' ∧ fl' + keys'.length ≤ fl + keys.length ∧ SameOff (padTouch pre) s s' ∧
      (∀ k v, m k = some v → m' k = some v ∨ (k ∈ l ∧ m' k = none ∧ Dumped c d' (dumpName pre k) v)) ∧
      (∀ k, m k = none → m' k = none) ∧
      ((o = .ok () ∧ ∀ k ∈ l, m' k = none) ∨ ∃ k ∈ l, ∃ e, opens (dumpName pre k) = some e ∧ o = .err e) ∧
      ∀ f, f ∉ l.map (dumpName pre) → d' f = d f := by
  induction l generalizing s m keys fl d with
  | nil =>
    exact ⟨_, s, d, m, keys, fl, rfl, w, h, Nat.le_refl _, SameOff.refl _ _, fun k v hv => Or.inl hv, fun k hk => hk,
      Or.inl ⟨rfl, by simp⟩, fun f _ => rfl⟩
  | cons k t ih =>
    have hkm : k ∈ keys := hl k List.mem_cons_self
    have hUk := h.used k hkm
    obtain ⟨v, hv⟩ := Option.ne_none_iff_exists'.1 ((h.live k).1 hkm)
    rw [List.map_cons, List.nodup_cons] at hnd
    cases ho : opens (dumpName pre k) with
    | some e =>
      refine ⟨_, s, d, m, keys, fl, ?_, w, h, Nat.le_refl _, SameOff.refl _ _, fun k v hv => Or.inl hv, fun k hk => hk,
        Or.inr ⟨k, by simp, e, ho, rfl⟩, fun f _ => rfl⟩
      have hd := C125_unopened E p (.str k) opens none s d e (by rw [hp]; exact ho)
      simp only [padDumpDelAll, hd]
    | none =>
      obtain ⟨b, hb, hd⟩ := padDump_live hU h hp (key := .str k) hUk hv opens none d ho
      obtain ⟨s1, keys1, fl1, e1, w1, h1, hf1, hs1⟩ := run_padDel hU hok w h hfl hp hpi hm (key := .str k) rfl hUk
      rw [if_neg (show ¬ m (Key.str k).text = none by rw [show (Key.str k).text = k from rfl, hv]; simp)] at e1
      have hl1 : ∀ x ∈ t, x ∈ keys1 := by
        intro x hx
        rw [h1.live, upd]
        have hxk : x ≠ k := by rintro rfl; exact hnd.1 (List.mem_map_of_mem hx)
        show (if x = k then _ else _) ≠ _
        rw [if_neg hxk, ← h.live]
        exact hl x (List.mem_cons_of_mem _ hx)
      obtain ⟨o, s2, d2, m2, keys2, fl2, e2, w2, h2, hf2, hs2, q1, q2, q3, q4⟩ := ih hnd.2 w1 h1 hl1 (by omega)
        (d.put (dumpName pre k) b)
      have upd_k : upd m k none k = none := if_pos rfl
      have upd_o : ∀ x, x ≠ k → upd m k none x = m x := fun x hx => if_neg hx
      refine ⟨o, s2, d2, m2, keys2, fl2, ?_, w2, h2, by omega, hs1.trans hs2, ?_, ?_, ?_, ?_⟩
      · simp only [padDumpDelAll, hd, e1]
        exact e2
      · intro k' v' hv'
        by_cases hk' : k' = k
        · subst hk'
          rw [hv, Option.some.injEq] at hv'
          subst hv'
          refine Or.inr ⟨by simp, q2 k' upd_k, b, ?_, hb⟩
          rw [q4 _ hnd.1]
          exact put_same _ _ _
        · rcases q1 k' v' ((upd_o k' hk').trans hv') with q | ⟨q, q', q''⟩
          · exact Or.inl q
          · exact Or.inr ⟨List.mem_cons_of_mem _ q, q', q''⟩
      · intro k' hk'
        by_cases hkk : k' = k
        · subst hkk; exact q2 _ upd_k
        · exact q2 k' ((upd_o k' hkk).trans hk')
      · rcases q3 with ⟨q, q'⟩ | ⟨k', q, e, q', q''⟩
        · refine Or.inl ⟨q, fun x hx => ?_⟩
          rcases List.mem_cons.1 hx with rfl | hx
          · exact q2 _ upd_k
          · exact q' x hx
        · exact Or.inr ⟨k', List.mem_cons_of_mem _ q, e, q', q''⟩
      · intro f hf
        rw [List.map_cons, List.mem_cons, not_or] at hf
        rw [q4 f hf.2, put_other _ _ hf.1]

/-- no two live keys are dumped to the same file -/
def DumpsApart (pre : Str) (m : Str → Option V) : Prop :=
  ∀ k k', m k ≠ none → m k' ≠ none → dumpName pre k = dumpName pre k' → k = k'

/-- C126, in full: `close(dump=True)` saves every value in the file named after its key and removes the notepad -/
def C126_full : Prop :=
  ∀ (V : Type) (E : Env) (c : Codec V) (isNone : V → Bool) (pre : Str) (U : Str → Prop) (_ : KeysOK E pre U)
    (_ : NamesOK E (indexName pre)) (s : Store) (ps : List Pad) (m : Str → Option V)
    (_ : InUse E c isNone pre U s ps m) (p : Pad) (_ : p ∈ ps) (d : Files),
    ∃ s' d', padCloseDump E (fun _ => none) p s d = (.ok (), s', d') ∧ NoPad s' pre ∧
      ∀ k v, m k = some v → Dumped c d' (dumpName pre k) v

/-- **C126** (partial: if no two live keys go to the same file). After any history of calls, `close(dump=True)` either
returns, with every value in the file named after its key and all blocks of the notepad gone, or raises because one of
these files cannot be opened; even then every value is in its file or still in the notepad. Blocks of others and other
files stay as they are. -/
theorem C126_close_dump_partial (E : Env) (c : Codec V) (isNone : V → Bool) (pre : Str) (U : Str → Prop)
    (hU : KeysOK E pre U) (hok : NamesOK E (indexName pre)) (s : Store) (ps : List Pad) (m : Str → Option V)
    (h : InUse E c isNone pre U s ps m) (hap : DumpsApart pre m) (p : Pad) (hp : p ∈ ps) (opens : Str → Option PyErr)
    (hop : ∀ f, opens f ≠ some .attributeError) (d : Files) :
    ∃ o s' d', padCloseDump E opens p s d = (o, s', d') ∧
      ((o = .ok () ∧ NoPad s' pre ∧ ∀ k v, m k = some v → Dumped c d' (dumpName pre k) v) ∨
        ((∃ k e, m k ≠ none ∧ opens (dumpName pre k) = some e ∧ o = .err e) ∧
          ∀ k v, m k = some v → Dumped c d' (dumpName pre k) v ∨
            ∀ key : Key, key.text = k → (padGet c isNone p key).run E s' = (.ok v, s'))) ∧
      (∀ x, ¬ (pre ++ ['_']) <+: x → s'.content x = s.content x) ∧
      ∀ f, (∀ k, m k ≠ none → f ≠ dumpName pre k) → d' f = d f := by
  obtain ⟨w, ix, keys, fl, hrep, hfl, hcl⟩ := h.rep hU hok
  obtain ⟨hp1, hp2, hp3⟩ := hcl p hp
  have hnd : (keys.map (dumpName pre)).Nodup := by
    refine List.pairwise_map.2 (hrep.rep.nodup.imp_of_mem ?_)
    intro a b ha hb hab he
    exact hab (hap a b ((hrep.live a).1 ha) ((hrep.live b).1 hb) he)
  obtain ⟨o, s1, d1, m1, keys1, fl1, e1, w1, h1, hf1, hs1, q1, q2, q3, q4⟩ := run_padDumpDelAll hU hok hp1 hp2 hp3 opens keys
    hnd w hrep (fun _ hk => hk) hfl d
  have hok' : NamesOK E ix.name := by rw [hrep.name]; exact hok
  have hfiles : ∀ f, (∀ k, m k ≠ none → f ≠ dumpName pre k) → d1 f = d f := by
    intro f hf
    refine q4 f fun hm => ?_
    obtain ⟨k, hk, rfl⟩ := List.mem_map.1 hm
    exact hf k ((hrep.live k).1 hk) rfl
  rcases q3 with ⟨rfl, q3⟩ | ⟨k, hk, e, q3, rfl⟩
  · have hm1 : m1 = fun _ => none := by
      funext k
      cases hmk : m k with
      | none => exact q2 k hmk
      | some v => exact q3 k ((hrep.live k).2 (by rw [hmk]; simp))
    subst hm1
    obtain ⟨s2, e2, w2, hn, hs2⟩ := run_padIndexClose hok w1 h1
    refine ⟨.ok (), s2, d1, ?_, Or.inl ⟨rfl, hn, ?_⟩, ?_, hfiles⟩
    · simp only [padCloseDump, hp2, run_indexUpdate hrep.rep hok', e1, e2]
    · intro k v hv
      rcases q1 k v hv with q | ⟨_, _, q⟩
      · cases q
      · exact q
    · intro x hx
      exact ((hs1.trans hs2) x fun ht => hx (touch_prefix ht)).2
  · refine ⟨.err e, s1, d1, ?_, Or.inr ⟨⟨k, e, (hrep.live k).1 hk, q3, rfl⟩, ?_⟩, ?_, hfiles⟩
    · have hne : e ≠ .attributeError := by rintro rfl; exact hop _ q3
      simp only [padCloseDump, hp2, run_indexUpdate hrep.rep hok', e1]
      split
      · rename_i heq; simp at heq
      · rename_i heq; simp at heq; exact absurd heq.1 hne
      · rfl
    · intro k' v hv
      rcases q1 k' v hv with q | ⟨_, _, q⟩
      · refine Or.inr fun key hkey => ?_
        have hUk : U key.text := by rw [hkey]; exact h1.used k' ((h1.live k').2 (by rw [q]; simp))
        rw [h1.get hU hp1 hUk, hkey, q]
      · exact Or.inl q
    · intro x hx
      exact (hs1 x fun ht => hx (touch_prefix ht)).2

/-- keys without dots, or without underscores, go to different files -/
theorem dumpName_inj {pre k k' : Str} (h : ('.' ∉ k ∧ '.' ∉ k') ∨ ('_' ∉ k ∧ '_' ∉ k'))
    (he : dumpName pre k = dumpName pre k') : k = k' := by
  have h2 : k.map (fun c => if c = '.' then '_' else c) = k'.map (fun c => if c = '.' then '_' else c) := by
    simpa [dumpName, padAddr] using he
  clear he
  induction k generalizing k' with
  | nil => cases k' with
    | nil => rfl
    | cons => simp at h2
  | cons a k ih => cases k' with
    | nil => simp at h2
    | cons b k' =>
      simp only [List.map_cons, List.cons.injEq] at h2
      have hab : a = b := by
        rcases h with ⟨h, h'⟩ | ⟨h, h'⟩
        · have ha : a ≠ '.' := fun e => h (by simp [e])
          have hb : b ≠ '.' := fun e => h' (by simp [e])
          simpa [ha, hb] using h2.1
        · have ha : a ≠ '_' := fun e => h (by simp [e])
          have hb : b ≠ '_' := fun e => h' (by simp [e])
          have h3 := h2.1
          by_cases ha' : a = '.' <;> by_cases hb' : b = '.' <;> simp [ha', hb'] at h3 ⊢
          · exact absurd h3.symm hb
          · exact absurd h3 ha
          · exact h3
      rw [hab, ih _ h2.2]
      rcases h with ⟨h, h'⟩ | ⟨h, h'⟩
      · exact Or.inl ⟨fun e => h (by simp [e]), fun e => h' (by simp [e])⟩
      · exact Or.inr ⟨fun e => h (by simp [e]), fun e => h' (by simp [e])⟩

example : DumpsApart np twoMap := by
  have key : ∀ k, twoMap k ≠ none → '.' ∉ k := by
    intro k hk hd
    simp only [twoMap, upd] at hk
    by_cases h1 : k = kB.text
    · subst h1; revert hd; decide
    · by_cases h2 : k = kA.text
      · subst h2; revert hd; decide
      · exact hk (by rw [if_neg h1, if_neg h2])
  exact fun k k' h h' he => dumpName_inj (Or.inl ⟨key k h, key k' h'⟩) he

/-- the keys "a.b" and "a_b" -/
def kDot : Key := .str "a.b".toList
def kUnder : Key := .str "a_b".toList
/-- a notepad with both -/
def dotNotes : List (NoteOp Nat) := [.create .fake, .set 0 kDot 2 true, .set 0 kUnder 3 true]
def dotStore : Store := (padHistory labEnv demoCodec (fun _ => false) np dotNotes Store.empty).2.2
def dotMap : Str → Option Nat := upd (upd (fun _ => none) kDot.text (some 2)) kUnder.text (some 3)

theorem dot_inUse : InUse labEnv demoCodec (fun _ => false) np labKeys dotStore [padOne] dotMap := by
  refine ⟨dotNotes, Store.empty, ?_, by decide, wf_empty, fun _ _ => rfl, rfl, rfl, rfl⟩
  have hA : labKeys kDot.text := ⟨by simp [kDot, Key.text], by rw [← List.isPrefixOf_iff_prefix]; decide⟩
  have hB : labKeys kUnder.text := ⟨by simp [kUnder, Key.text], by rw [← List.isPrefixOf_iff_prefix]; decide⟩
  intro o ho
  simp only [dotNotes, List.mem_cons, List.not_mem_nil, or_false] at ho
  rcases ho with rfl | rfl | rfl <;> simp only [OpOK, LockMode.Runs] <;>
    first
      | exact ⟨rfl, hA, _, labStable (by omega)⟩
      | exact ⟨rfl, hB, _, labStable (by omega)⟩

/-- C126 is false of the code: "a.b" and "a_b" are dumped to the same file, and deleted -/
theorem C126_full_false : ¬ C126_full := by
  intro h
  obtain ⟨s', d', _, _, h3⟩ := h Nat labEnv demoCodec (fun _ => false) np labKeys (labKeysOK np) (labIndexOK np) _ _ _ dot_inUse
    padOne (by simp) (fun _ => none)
  obtain ⟨b, h1, h2⟩ := h3 kDot.text 2 (by decide)
  obtain ⟨b', h1', h2'⟩ := h3 kUnder.text 3 (by decide)
  rw [show dumpName np kUnder.text = dumpName np kDot.text by decide, h1, Option.some.injEq] at h1'
  rw [← h1', h2] at h2'
  cases h2'

/-- **C126**: with a `FakeIndex` nothing is dumped and nothing removed, without an exception -/
theorem C126_fake_index (E : Env) (opens : Str → Option PyErr) (p : Pad) (h : p.index = .fake) (s : Store) (d : Files) :
    padCloseDump E opens p s d = (.ok (), s, d) := by
  simp only [padCloseDump, h]

end Verif.Props
