import Verif.Spec.Pickle
import Mathlib.Data.List.Basic
/-!
# The opcodes of `save` build a graph that is the same

What the pickler has memoized corresponds, in order, to what the unpickler has memoized. Of the objects memoized since, all
are complete; of those memoized before, the strings, bytes and tuples are complete, while a list or dict may be one whose
saving is under way.
-/
namespace Verif.Lemmas.Pickle
open Verif Verif.Model Verif.Spec

/-- objects with the same memo key -/
def Memo (m : List Nat) (memo : List PRef) (a b : Nat) : Prop := ∃ i : Nat, m[i]? = some a ∧ memo[i]? = some (.obj b)

/-- immutable objects -/
def Frozen : PNode → Prop
  | .str _ | .bytes _ | .tuple _ => True
  | .list _ | .dict _ => False

/-- the object with memo key `i` is complete -/
def Complete (h : PHeap) (m : List Nat) (H : PHeap) (memo : List PRef) (i : Nat) : Prop :=
  ∃ a b n n', m[i]? = some a ∧ memo[i]? = some (.obj b) ∧ h[a]? = some n ∧ H[b]? = some n' ∧ NodeRel (Memo m memo) n n'

structure Good (h : PHeap) (m : List Nat) (H : PHeap) (memo : List PRef) : Prop where
  len : memo.length = m.length
  nd : m.Nodup
  ndm : memo.Nodup
  objs : ∀ v ∈ memo, ∃ b, v = .obj b ∧ b < H.length
  frozen : ∀ (i : Nat) a n, m[i]? = some a → h[a]? = some n → Frozen n → Complete h m H memo i
  desc : ∀ (b : Nat) xs, H[b]? = some (.tuple xs) → ∀ c, .obj c ∈ xs → c < b

structure Ext (h : PHeap) (m : List Nat) (H : PHeap) (memo : List PRef) (m' : List Nat) (H' : PHeap) (memo' : List PRef) :
    Prop where
  pm : m <+: m'
  pmemo : memo <+: memo'
  heap : H <+: H'
  good : Good h m' H' memo'
  new : ∀ i, m.length ≤ i → i < m'.length → Complete h m' H' memo' i

/-! ## relations grow -/

theorem prefix_get {α : Type} {l l' : List α} (h : l <+: l') {i : Nat} {x : α} (hx : l[i]? = some x) : l'[i]? = some x := by
  obtain ⟨t, rfl⟩ := h
  rw [List.getElem?_append_left (List.getElem?_eq_some_iff.1 hx).1]; exact hx

theorem Memo.mono {m m' : List Nat} {memo memo' : List PRef} (h1 : m <+: m') (h2 : memo <+: memo') {a b : Nat}
    (h : Memo m memo a b) : Memo m' memo' a b := by
  obtain ⟨i, hi, hj⟩ := h
  exact ⟨i, prefix_get h1 hi, prefix_get h2 hj⟩

theorem RefRel.mono {R S : Nat → Nat → Prop} (h : ∀ a b, R a b → S a b) {r r' : PRef} (hr : RefRel R r r') : RefRel S r r' := by
  cases hr <;> constructor
  exact h _ _ ‹_›

theorem refs_mono {R S : Nat → Nat → Prop} (h : ∀ a b, R a b → S a b) {r r' : List PRef} (hr : List.Forall₂ (RefRel R) r r') :
    List.Forall₂ (RefRel S) r r' := hr.imp fun _ _ => RefRel.mono h

theorem NodeRel.mono {R S : Nat → Nat → Prop} (h : ∀ a b, R a b → S a b) {r r' : PNode} (hr : NodeRel R r r') : NodeRel S r r' := by
  cases hr with
  | str => constructor
  | bytes => constructor
  | tuple hx => exact .tuple (refs_mono h hx)
  | list hx => exact .list (refs_mono h hx)
  | dict hx => exact .dict (hx.imp fun _ _ p => ⟨RefRel.mono h p.1, RefRel.mono h p.2⟩)

theorem Complete.mono {h : PHeap} {m m' : List Nat} {memo memo' : List PRef} {H H' : PHeap} (h1 : m <+: m') (h2 : memo <+: memo')
    (h3 : H <+: H') {i : Nat} (hc : Complete h m H memo i) : Complete h m' H' memo' i := by
  obtain ⟨a, b, n, n', p1, p2, p3, p4, p5⟩ := hc
  exact ⟨a, b, n, n', prefix_get h1 p1, prefix_get h2 p2, p3, prefix_get h3 p4, NodeRel.mono (fun _ _ => Memo.mono h1 h2) p5⟩

theorem Ext.refl {h : PHeap} {m : List Nat} {memo : List PRef} {H : PHeap} (g : Good h m H memo) : Ext h m H memo m H memo :=
  ⟨List.prefix_rfl, List.prefix_rfl, List.prefix_rfl, g, fun i h1 h2 => absurd h2 (by omega)⟩

theorem Ext.trans {h : PHeap} {m m' m'' : List Nat} {memo memo' memo'' : List PRef} {H H' H'' : PHeap}
    (a : Ext h m H memo m' H' memo') (b : Ext h m' H' memo' m'' H'' memo'') : Ext h m H memo m'' H'' memo'' :=
  ⟨a.pm.trans b.pm, a.pmemo.trans b.pmemo, a.heap.trans b.heap, b.good, fun i h1 h2 => by
    by_cases hi : i < m'.length
    · exact (a.new i h1 hi).mono b.pm b.pmemo b.heap
    · exact b.new i (by omega) h2⟩

theorem Ext.rel {h : PHeap} {m m' : List Nat} {memo memo' : List PRef} {H H' : PHeap} (e : Ext h m H memo m' H' memo') :
    ∀ a b, Memo m memo a b → Memo m' memo' a b := fun _ _ => Memo.mono e.pm e.pmemo

/-! ## running opcodes -/

/-- some opcodes, none of them a `FRAME` or `STOP` -/
def runOps : List POp → PM → Except PyErr PM
  | [], M => .ok M
  | o :: r, M => stepP o M >>= runOps r

theorem runOps_append (l l' : List POp) (M : PM) : runOps (l ++ l') M = runOps l M >>= runOps l' := by
  induction l generalizing M with
  | nil => rfl
  | cons o r ih =>
    show (stepP o M >>= runOps (r ++ l')) = (stepP o M >>= runOps r) >>= runOps l'
    cases stepP o M with
    | error => rfl
    | ok M' => exact ih M'

theorem runOps_ok {l l' : List POp} {M M' : PM} (h : runOps l M = .ok M') : runOps (l ++ l') M = runOps l' M' := by
  rw [runOps_append, h]; rfl

theorem runOps_cons {o : POp} {l : List POp} {M M' : PM} (h : stepP o M = .ok M') : runOps (o :: l) M = runOps l M' := by
  show (stepP o M >>= runOps l) = _
  rw [h]; rfl

/-- the opcodes among the steps of the pickler -/
def opsOf (e : List PEv) : List POp := e.filterMap fun | .check => none | .op o => some o

theorem opsOf_append (e e' : List PEv) : opsOf (e ++ e') = opsOf e ++ opsOf e' := List.filterMap_append

theorem opsOf_check (e : List PEv) : opsOf (.check :: e) = opsOf e := rfl

theorem opsOf_op (o : POp) (e : List PEv) : opsOf (.op o :: e) = o :: opsOf e := rfl

/-! ## a new object -/

theorem good_push {h : PHeap} {m : List Nat} {memo : List PRef} {H : PHeap} (g : Good h m H memo) {a : Nat} {n n' : PNode}
    (ha : a ∉ m) (hn : h[a]? = some n) (hf : Frozen n → NodeRel (Memo m memo) n n')
    (hd : ∀ xs, n' = .tuple xs → ∀ c, .obj c ∈ xs → c < H.length) :
    Good h (m ++ [a]) (H ++ [n']) (memo ++ [.obj H.length]) := by
  have p1 : m <+: m ++ [a] := List.prefix_append _ _
  have p2 : memo <+: memo ++ [.obj H.length] := List.prefix_append _ _
  have p3 : H <+: H ++ [n'] := List.prefix_append _ _
  refine ⟨by simp [g.len], ?_, ?_, ?_, ?_, ?_⟩
  · exact List.nodup_append.2 ⟨g.nd, by simp, by rintro x hx y hy rfl; simp at hy; exact ha (hy ▸ hx)⟩
  · refine List.nodup_append.2 ⟨g.ndm, by simp, ?_⟩
    rintro x hx y hy rfl
    obtain ⟨b, rfl, hb⟩ := g.objs _ hx
    simp at hy
    omega
  · intro v hv
    rcases List.mem_append.1 hv with hv | hv
    · obtain ⟨b, rfl, hb⟩ := g.objs _ hv
      exact ⟨b, rfl, by simp; omega⟩
    · simp at hv
      exact ⟨_, hv, by simp⟩
  · intro i a' n1 hi hn1 hfr
    by_cases hlt : i < m.length
    · rw [List.getElem?_append_left hlt] at hi
      exact (g.frozen i a' n1 hi hn1 hfr).mono p1 p2 p3
    · rw [List.getElem?_append_right (by omega)] at hi
      have hi0 : i - m.length = 0 := by
        by_contra hne
        rw [List.getElem?_eq_none (by simp; omega)] at hi
        cases hi
      rw [hi0] at hi
      simp at hi
      subst hi
      rw [hn] at hn1
      cases hn1
      have hi' : i = m.length := by omega
      subst hi'
      refine ⟨a, H.length, n, n', by simp, ?_, hn, by simp, NodeRel.mono (fun _ _ => Memo.mono p1 p2) (hf hfr)⟩
      rw [← g.len]; simp
  · intro b xs hb c hc
    by_cases hlt : b < H.length
    · rw [List.getElem?_append_left hlt] at hb
      exact g.desc b xs hb c hc
    · rw [List.getElem?_append_right (by omega)] at hb
      have hb0 : b - H.length = 0 := by
        by_contra hne
        rw [List.getElem?_eq_none (by simp; omega)] at hb
        cases hb
      rw [hb0] at hb
      simp at hb
      have := hd xs hb c hc
      omega

/-- the correspondence of the new object -/
theorem memo_push {m : List Nat} {memo : List PRef} (hl : memo.length = m.length) (a b : Nat) :
    Memo (m ++ [a]) (memo ++ [.obj b]) a b := ⟨m.length, by simp, by rw [← hl]; simp⟩

theorem ext_push {h : PHeap} {m : List Nat} {memo : List PRef} {H : PHeap} (g : Good h m H memo) {a : Nat} {n n' : PNode}
    (ha : a ∉ m) (hn : h[a]? = some n) (hf : NodeRel (Memo m memo) n n')
    (hd : ∀ xs, n' = .tuple xs → ∀ c, .obj c ∈ xs → c < H.length) :
    Ext h m H memo (m ++ [a]) (H ++ [n']) (memo ++ [.obj H.length]) := by
  have p1 : m <+: m ++ [a] := List.prefix_append _ _
  have p2 : memo <+: memo ++ [.obj H.length] := List.prefix_append _ _
  refine ⟨p1, p2, List.prefix_append _ _, good_push g ha hn (fun _ => hf) hd, fun i h1 h2 => ?_⟩
  have hi : i = m.length := by simp at h2; omega
  subst hi
  exact ⟨a, H.length, n, n', by simp, by rw [← g.len]; simp, hn, by simp, NodeRel.mono (fun _ _ => Memo.mono p1 p2) hf⟩

/-- memoized objects are found again -/
theorem memo_get {h : PHeap} {m : List Nat} {memo : List PRef} {H : PHeap} (g : Good h m H memo) {a : Nat} (ha : a ∈ m) :
    ∃ b, memo[m.idxOf a]? = some (.obj b) ∧ Memo m memo a b := by
  have hlt := List.idxOf_lt_length_iff.2 ha
  obtain ⟨v, hv⟩ : ∃ v, memo[m.idxOf a]? = some v := ⟨_, List.getElem?_eq_getElem (by rw [g.len]; exact hlt)⟩
  obtain ⟨b, rfl, _⟩ := g.objs v (List.mem_of_getElem? hv)
  refine ⟨b, hv, m.idxOf a, ?_, hv⟩
  rw [List.getElem?_eq_getElem hlt, List.getElem_idxOf]

theorem ref_lt {h : PHeap} {m : List Nat} {memo : List PRef} {H : PHeap} (g : Good h m H memo) {a b : Nat}
    (hm : Memo m memo a b) : b < H.length := by
  obtain ⟨i, _, h2⟩ := hm
  obtain ⟨b', e, hb⟩ := g.objs _ (List.mem_of_getElem? h2)
  cases e; exact hb

theorem nodup_idx {α : Type} {l : List α} (h : l.Nodup) {i j : Nat} {x : α} (hi : l[i]? = some x) (hj : l[j]? = some x) : i = j :=
  (List.getElem?_inj (List.getElem?_eq_some_iff.1 hi).1 h).1 (hi.trans hj.symm)

theorem memo_fun {h : PHeap} {m : List Nat} {memo : List PRef} {H : PHeap} (g : Good h m H memo) {a b b' : Nat}
    (h1 : Memo m memo a b) (h2 : Memo m memo a b') : b = b' := by
  obtain ⟨i, hi, hi'⟩ := h1
  obtain ⟨j, hj, hj'⟩ := h2
  have : i = j := nodup_idx g.nd hi hj
  subst this
  rw [hi'] at hj'
  cases hj'; rfl

theorem memo_inj {h : PHeap} {m : List Nat} {memo : List PRef} {H : PHeap} (g : Good h m H memo) {a a' b : Nat}
    (h1 : Memo m memo a b) (h2 : Memo m memo a' b) : a = a' := by
  obtain ⟨i, hi, hi'⟩ := h1
  obtain ⟨j, hj, hj'⟩ := h2
  have : i = j := nodup_idx g.ndm hi' hj'
  subst this
  rw [hi] at hj
  cases hj; rfl

/-! ## keys -/

theorem mapM_rel {α β γ : Type} {f : α → Option γ} {g : β → Option γ} {xs : List α} {ys : List β}
    (h : List.Forall₂ (fun x y => ∀ k, f x = some k → g y = some k) xs ys) {ks : List γ} (hk : xs.mapM f = some ks) :
    ys.mapM g = some ks := by
  induction h generalizing ks with
  | nil => simpa using hk
  | cons hx _ ih =>
    rw [List.mapM_cons] at hk ⊢
    simp only [Option.bind_eq_bind, Option.bind_eq_some_iff, Option.pure_def, Option.some.injEq] at hk ⊢
    obtain ⟨k, h1, ks', h2, rfl⟩ := hk
    exact ⟨k, hx _ h1, ks', ih h2, rfl⟩

/-- an immutable key is the same on both sides -/
theorem key_transport {h : PHeap} {m : List Nat} {memo : List PRef} {H : PHeap} (g : Good h m H memo) :
    ∀ (n : Nat) (r r' : PRef) k, keyN h n r = some k → RefRel (Memo m memo) r r' → keyN H n r' = some k
  | 0, _, _, _, hk, _ => by simp [keyN] at hk
  | n + 1, r, r', k, hk, hr => by
    cases hr with
    | none => simpa [keyN] using hk
    | bool => simpa [keyN] using hk
    | int => simpa [keyN] using hk
    | float => simpa [keyN] using hk
    | unit => simpa [keyN] using hk
    | obj hm =>
      rename_i a b
      obtain ⟨i, hi, hi'⟩ := hm
      simp only [keyN] at hk
      have fin : ∀ nd, h[a]? = some nd → Frozen nd → ∃ nd', H[b]? = some nd' ∧ NodeRel (Memo m memo) nd nd' := by
        intro nd h1 h2
        obtain ⟨a', b', n1, n2, p1, p2, p3, p4, p5⟩ := g.frozen i a nd hi h1 h2
        rw [hi] at p1; cases p1
        rw [hi'] at p2; cases p2
        rw [h1] at p3; cases p3
        exact ⟨n2, p4, p5⟩
      cases hn : h[a]? with
      | none => rw [hn] at hk; cases hk
      | some nd =>
        rw [hn] at hk
        cases nd with
        | str s =>
          obtain ⟨nd', h1, h2⟩ := fin _ hn trivial
          cases h2
          simp only [keyN, h1]; exact hk
        | bytes s =>
          obtain ⟨nd', h1, h2⟩ := fin _ hn trivial
          cases h2
          simp only [keyN, h1]; exact hk
        | tuple xs =>
          obtain ⟨nd', h1, h2⟩ := fin _ hn trivial
          cases h2 with
          | tuple hxs =>
            rename_i ys
            simp only [keyN, h1]
            simp only [Option.map_eq_some_iff] at hk ⊢
            obtain ⟨ks, hks, rfl⟩ := hk
            refine ⟨ks, mapM_rel (hxs.imp fun x y hxy k hk => key_transport g n x y k hk hxy) hks, ?_⟩
            rw [hxs.length_eq]
        | list => cases hk
        | dict => cases hk

/-- how deep tuples may be nested below a reference -/
def refDepth : PRef → Nat
  | .obj a => a + 1
  | _ => 0

theorem key_depth {H : PHeap} (hd : ∀ (b : Nat) xs, H[b]? = some (.tuple xs) → ∀ c, .obj c ∈ xs → c < b) :
    ∀ (n : Nat) (r : PRef) k, keyN H n r = some k → ∀ N, refDepth r ≤ N → keyN H (N + 1) r = some k
  | 0, _, _, hk, _, _ => by simp [keyN] at hk
  | n + 1, r, k, hk, N, hN => by
    cases r with
    | none => simpa [keyN] using hk
    | bool => simpa [keyN] using hk
    | int => simpa [keyN] using hk
    | float => simpa [keyN] using hk
    | unit => simpa [keyN] using hk
    | obj a =>
      simp only [refDepth] at hN
      obtain ⟨N, rfl⟩ : ∃ N', N = N' + 1 := ⟨N - 1, by omega⟩
      simp only [keyN] at hk ⊢
      cases hn : H[a]? with
      | none => rw [hn] at hk; cases hk
      | some nd =>
        rw [hn] at hk
        cases nd with
        | str s => exact hk
        | bytes s => exact hk
        | list => cases hk
        | dict => cases hk
        | tuple xs =>
          simp only [Option.map_eq_some_iff] at hk ⊢
          obtain ⟨ks, hks, rfl⟩ := hk
          refine ⟨ks, mapM_rel (List.forall₂_same.2 fun x hx k hk => key_depth hd n x k hk N ?_) hks, rfl⟩
          cases x with
          | obj c => have := hd a xs hn c hx; simp only [refDepth]; omega
          | _ => simp [refDepth]

theorem key_found {h : PHeap} {m : List Nat} {memo : List PRef} {H : PHeap} (g : Good h m H memo) {r r' : PRef}
    {k : List KeyTok} (hk : IsKey h r k) (hr : RefRel (Memo m memo) r r') : keyOf H r' = some k := by
  obtain ⟨n, hn⟩ := hk
  refine key_depth g.desc n r' k (key_transport g n r r' k hn hr) _ ?_
  cases hr with
  | obj hm => exact ref_lt g hm
  | _ => simp [refDepth]

end Verif.Lemmas.Pickle
