import Verif.Spec.MapMerge
import Verif.Lemmas.Rmerge
import Verif.Lemmas.MapTodict
/-! Helper lemmas for `rmerge` on mappings as objects. -/
set_option linter.unusedSectionVars false
namespace Verif.Lemmas
open Verif Verif.Model Verif.Spec
variable {A : Type} [DecidableEq A]

theorem mergedItems_iff {h h' : MHeap A} {lo : Nat} {mt : Tag → Bool} {i1 i2 : List (A × HVal A)} :
    ∀ {out : List (A × HVal A)}, MergedItems h h' lo mt i1 i2 out ↔ ∀ kv ∈ out, MergedVal h h' lo mt i1 i2 kv.1 kv.2
  | [] => ⟨fun _ _ hm => (nomatch hm), fun _ => .nil⟩
  | (k, v) :: out => by
    constructor
    · intro hm kv hkv
      cases hm with
      | cons hv hr =>
        rcases List.mem_cons.1 hkv with e | hkv
        · subst e; exact hv
        · exact mergedItems_iff.1 hr kv hkv
    · intro hm
      exact .cons (hm (k, v) (by simp)) (mergedItems_iff.2 fun kv hkv => hm kv (List.mem_cons_of_mem _ hkv))

mutual
theorem Merged.mono {h g g' : MHeap A} {lo lo' : Nat} (hlo : lo' ≤ lo)
    (hg : ∀ (n : Nat) m, lo ≤ n → g[n]? = some m → g'[n]? = some m) {mt : Tag → Bool}
    {a b r : Nat} : Merged h g lo mt a b r → Merged h g' lo' mt a b r
  | .mk h1 h2 h3 h4 h5 h6 => .mk h1 h2 (Nat.le_trans hlo h3) (hg _ _ h3 h4) h5 (MergedItems.mono hlo hg h6)
theorem MergedItems.mono {h g g' : MHeap A} {lo lo' : Nat} (hlo : lo' ≤ lo)
    (hg : ∀ (n : Nat) m, lo ≤ n → g[n]? = some m → g'[n]? = some m)
    {mt : Tag → Bool} {i1 i2 out : List (A × HVal A)} : MergedItems h g lo mt i1 i2 out → MergedItems h g' lo' mt i1 i2 out
  | .nil => .nil
  | .cons hv hr => .cons (MergedVal.mono hlo hg hv) (MergedItems.mono hlo hg hr)
theorem MergedVal.mono {h g g' : MHeap A} {lo lo' : Nat} (hlo : lo' ≤ lo)
    (hg : ∀ (n : Nat) m, lo ≤ n → g[n]? = some m → g'[n]? = some m)
    {mt : Tag → Bool} {i1 i2 : List (A × HVal A)} {k : A} {v : HVal A} : MergedVal h g lo mt i1 i2 k v →
    MergedVal h g' lo' mt i1 i2 k v
  | .left h1 h2 => .left h1 h2
  | .right h1 h2 => .right h1 h2
  | .over h1 h2 h3 => .over h1 h2 h3
  | .both h1 h2 h3 h4 h5 => .both h1 h2 h3 h4 (Merged.mono hlo hg h5)
end

theorem mem_setH {β : Type} {d : List (A × β)} {k : A} {v : β} {x : A × β} (hx : x ∈ Dict.set d k v) : x = (k, v) ∨ x ∈ d := by
  induction d with
  | nil => simp [Dict.set] at hx; exact .inl hx
  | cons y t ih =>
    obtain ⟨k', v'⟩ := y
    simp only [Dict.set] at hx
    split at hx
    · rename_i e
      subst e
      rcases List.mem_cons.1 hx with e | hx
      · exact .inl e
      · exact .inr (List.mem_cons_of_mem _ hx)
    · rcases List.mem_cons.1 hx with e | hx
      · subst e; exact .inr (by simp)
      · rcases ih hx with e | h2
        · exact .inl e
        · exact .inr (List.mem_cons_of_mem _ h2)

theorem getElem?_setH {h : MHeap A} {n : Nat} {m : HMap A} (hn : h[n]? = some m) (k : A) (v : HVal A) (b : Nat) :
    (setH h n k v)[b]? = if b = n then some { m with items := Dict.set m.items k v } else h[b]? := by
  simp only [setH, List.getElem?_modify]
  by_cases e : n = b
  · subst e; simp [hn]
  · simp [e, Ne.symm e]

theorem length_setH (h : MHeap A) (n : Nat) (k : A) (v : HVal A) : (setH h n k v).length = h.length := by simp [setH]

/-- how many calls of `rmerge` a call makes, itself included -/
def callsF : Nat → (Tag → Bool) → MHeap A → Nat → Nat → Nat
  | 0, _, _, _, _ => 0
  | fuel + 1, mt, h, a, b =>
    match h[a]?, h[b]? with
    | some m1, some m2 => 1 + ((m1.items ++ m2.items).map fun kv =>
        match Dict.get? m1.items kv.1, Dict.get? m2.items kv.1 with
        | some (.obj a'), some (.obj b') =>
          if (HVal.obj a' : HVal A).isA h mt && (HVal.obj b' : HVal A).isA h mt then callsF fuel rmergeDefault h a' b' else 0
        | _, _ => 0).sum
    | _, _ => 0

/-- what one key costs -/
def keyCost (fuel : Nat) (mt : Tag → Bool) (h : MHeap A) (i1 i2 : List (A × HVal A)) (k : A) : Nat :=
  match Dict.get? i1 k, Dict.get? i2 k with
  | some (.obj a), some (.obj b) =>
    if (HVal.obj a : HVal A).isA h mt && (HVal.obj b : HVal A).isA h mt then callsF fuel rmergeDefault h a b else 0
  | _, _ => 0

theorem callsF_succ {fuel : Nat} {mt : Tag → Bool} {h : MHeap A} {a b : Nat} {m1 m2 : HMap A} (h1 : h[a]? = some m1)
    (h2 : h[b]? = some m2) :
    callsF (fuel + 1) mt h a b = 1 + ((m1.items ++ m2.items).map fun kv => keyCost fuel mt h m1.items m2.items kv.1).sum := by
  simp only [callsF, h1, h2, keyCost]

/-- a call of `rmerge` on mappings of `h0`, in a heap `g` that goes on from `h0` -/
structure MergePost (h0 g g' : MHeap A) (fuel : Nat) (mt : Tag → Bool) (a b r : Nat) : Prop where
  addr : r = g.length
  len : g'.length = g.length + callsF fuel mt h0 a b
  pos : g.length < g'.length
  old : ∀ n < g.length, g'[n]? = g[n]?
  merged : Merged h0 g' g.length mt a b r
  hold : ∀ n k c, g.length ≤ n → Held g' n k c → c < h0.length ∨ (g.length < c ∧ c < g'.length)
  once : ∀ n n' k k' c, g.length ≤ c → Held g' n k c → Held g' n' k' c → n = n' ∧ k = k'
  ok : ∀ (n : Nat) m, g.length ≤ n → g'[n]? = some m → m.tag = .dict ∧ Dict.WF m.items

/-- the loop of `rmerge`, after some of its pairs -/
structure MergeInv (h0 g0 g : MHeap A) (mt : Tag → Bool) (i1 i2 o : List (A × HVal A)) : Prop where
  out : g[g0.length]? = some ⟨.dict, o⟩
  pos : g0.length < g.length
  old : ∀ n < g0.length, g[n]? = g0[n]?
  wf : Dict.WF o
  merged : ∀ kv ∈ o, MergedVal h0 g (g0.length + 1) mt i1 i2 kv.1 kv.2
  hold : ∀ n k c, g0.length ≤ n → Held g n k c → c < h0.length ∨ (g0.length < c ∧ c < g.length)
  once : ∀ n n' k k' c, g0.length ≤ c → Held g n k c → Held g n' k' c → n = n' ∧ k = k'
  ok : ∀ (n : Nat) m, g0.length ≤ n → g[n]? = some m → m.tag = .dict ∧ Dict.WF m.items

theorem isA_ext {h0 g : MHeap A} (hx : ∀ n < h0.length, g[n]? = h0[n]?) (mt : Tag → Bool) (v : HVal A)
    (hv : ∀ n, v = .obj n → n < h0.length) : v.isA g mt = v.isA h0 mt := by
  cases v with
  | atom _ => rfl
  | obj n => simp only [HVal.isA, hx n (hv n rfl)]

/-- setting a value of the inputs in `output` -/
theorem MergeInv.setOld {h0 g0 g : MHeap A} {mt : Tag → Bool} {i1 i2 o : List (A × HVal A)} (hI : MergeInv h0 g0 g mt i1 i2 o)
    (hK : h0.length ≤ g0.length) (hT : NoDangling g0) {k : A} {v : HVal A} (hv : ∀ n, v = .obj n → n < h0.length)
    (hm : MergedVal h0 g (g0.length + 1) mt i1 i2 k v) :
    MergeInv h0 g0 (setH g g0.length k v) mt i1 i2 (Dict.set o k v) := by
  have e := getElem?_setH hI.out k v
  have hmono : ∀ (n : Nat) m, g0.length + 1 ≤ n → g[n]? = some m → (setH g g0.length k v)[n]? = some m := by
    intro n m hn hg
    rw [e, if_neg (by omega)]; exact hg
  have hheld : ∀ n k' c, h0.length ≤ c → Held (setH g g0.length k v) n k' c → Held g n k' c := by
    rintro n k' c hc ⟨m, h1, h2⟩
    rw [e] at h1
    split at h1
    · rename_i en
      cases h1
      rcases mem_setH h2 with e2 | h3
      · have := hv c ((Prod.mk.inj e2).2).symm
        omega
      · exact ⟨_, en ▸ hI.out, h3⟩
    · exact ⟨m, h1, h2⟩
  constructor
  · rw [e, if_pos rfl]
  · rw [length_setH]; exact hI.pos
  · intro n hn
    rw [e, if_neg (by omega)]
    exact hI.old n hn
  · exact Dict.wf_set hI.wf k v
  · intro kv hkv
    rcases mem_setH hkv with e2 | h3
    · subst e2; exact MergedVal.mono (Nat.le_refl _) hmono hm
    · exact MergedVal.mono (Nat.le_refl _) hmono (hI.merged kv h3)
  · intro n k' c hn hh
    by_cases hc : c < h0.length
    · exact .inl hc
    · rw [length_setH]
      exact hI.hold n k' c hn (hheld n k' c (by omega) hh)
  · intro n n' k1 k2 c hc h1 h2
    exact hI.once n n' k1 k2 c hc (hheld n k1 c (by omega) h1) (hheld n' k2 c (by omega) h2)
  · intro n m hn hm'
    rw [e] at hm'
    split at hm'
    · cases hm'; exact ⟨rfl, Dict.wf_set hI.wf k v⟩
    · exact hI.ok n m hn hm'

/-- the heap in the loop is without dangling references -/
theorem MergeInv.noDangling {h0 g0 g : MHeap A} {mt : Tag → Bool} {i1 i2 o : List (A × HVal A)} (hI : MergeInv h0 g0 g mt i1 i2 o)
    (hK : h0.length ≤ g0.length) (hT : NoDangling g0) : NoDangling g := by
  intro n k c hh
  by_cases hn : n < g0.length
  · obtain ⟨m, h1, h2⟩ := hh
    rw [hI.old n hn] at h1
    have := hT n k c ⟨m, h1, h2⟩
    have := hI.pos
    omega
  · rcases hI.hold n k c (by omega) hh with h1 | ⟨_, h1⟩
    · have := hI.pos; omega
    · exact h1

/-- setting the merger of two mappings in `output` -/
theorem MergeInv.setNew {h0 g0 g g1 : MHeap A} {fuel : Nat} {mt : Tag → Bool} {i1 i2 o : List (A × HVal A)} (hI : MergeInv h0 g0 g mt i1 i2 o)
    (hK : h0.length ≤ g0.length) (hT : NoDangling g0) {k : A} {a b r : Nat}
    (hp : MergePost h0 g g1 fuel rmergeDefault a b r) (h1 : Dict.get? i1 k = some (.obj a)) (h2 : Dict.get? i2 k = some (.obj b))
    (ha : (HVal.obj a : HVal A).isA h0 mt = true) (hb : (HVal.obj b : HVal A).isA h0 mt = true) :
    MergeInv h0 g0 (setH g1 g0.length k (.obj r)) mt i1 i2 (Dict.set o k (.obj r)) := by
  have hpos := hI.pos
  have hTg := hI.noDangling hK hT
  have hout : g1[g0.length]? = some ⟨.dict, o⟩ := by rw [hp.old _ hI.pos]; exact hI.out
  have e := getElem?_setH hout k (.obj r)
  have hmono1 : ∀ (n : Nat) m, g0.length + 1 ≤ n → g[n]? = some m → (setH g1 g0.length k (.obj r))[n]? = some m := by
    intro n m hn hg
    have hl := (List.getElem?_eq_some_iff.1 hg).1
    rw [e, if_neg (by omega), hp.old n hl]; exact hg
  have hmono2 : ∀ (n : Nat) m, g.length ≤ n → g1[n]? = some m → (setH g1 g0.length k (.obj r))[n]? = some m := by
    intro n m hn hg
    rw [e, if_neg (by omega)]; exact hg
  have hlen : (setH g1 g0.length k (.obj r)).length = g1.length := length_setH _ _ _ _
  have hpp := hp.pos
  have hheld : ∀ n k' c, Held (setH g1 g0.length k (.obj r)) n k' c →
      (n = g0.length ∧ k' = k ∧ c = g.length) ∨ (n < g.length ∧ Held g n k' c ∧ c < g.length) ∨
      (g.length ≤ n ∧ Held g1 n k' c) := by
    rintro n k' c ⟨m, g1', g2⟩
    rw [e] at g1'
    split at g1'
    · rename_i en
      cases g1'
      rcases mem_setH g2 with e2 | h3
      · have e3 := Prod.mk.inj e2
        have e4 : c = r := by have := e3.2; cases this; rfl
        exact .inl ⟨en, e3.1, by rw [e4, hp.addr]⟩
      · have hh : Held g n k' c := ⟨_, en ▸ hI.out, h3⟩
        exact .inr (.inl ⟨by omega, hh, hTg n k' c hh⟩)
    · by_cases hn : n < g.length
      · have hh : Held g n k' c := ⟨m, by rw [← hp.old n hn]; exact g1', g2⟩
        exact .inr (.inl ⟨hn, hh, hTg n k' c hh⟩)
      · exact .inr (.inr ⟨by omega, m, g1', g2⟩)
  constructor
  · rw [e, if_pos rfl]
  · rw [hlen]; omega
  · intro n hn
    rw [e, if_neg (by omega), hp.old n (by omega)]
    exact hI.old n hn
  · exact Dict.wf_set hI.wf k _
  · intro kv hkv
    rcases mem_setH hkv with e2 | h3
    · subst e2
      exact .both h1 h2 ha hb (Merged.mono (by omega) hmono2 hp.merged)
    · exact MergedVal.mono (Nat.le_refl _) hmono1 (hI.merged kv h3)
  · intro n k' c hn hh
    rw [hlen]
    rcases hheld n k' c hh with ⟨_, _, e2⟩ | ⟨_, h3, _⟩ | ⟨h3, h4⟩
    · right; omega
    · rcases hI.hold n k' c hn h3 with h4 | h4
      · exact .inl h4
      · right; omega
    · rcases hp.hold n k' c h3 h4 with h5 | h5
      · exact .inl h5
      · right; omega
  · intro n n' k1 k2 c hc q1 q2
    rcases hheld n k1 c q1 with ⟨a1, a2, a3⟩ | ⟨_, a2, a3⟩ | ⟨a1, a2⟩
    · rcases hheld n' k2 c q2 with ⟨b1, b2, _⟩ | ⟨_, _, b3⟩ | ⟨b1, b2⟩
      · exact ⟨a1.trans b1.symm, a2.trans b2.symm⟩
      · omega
      · rcases hp.hold n' k2 c b1 b2 with h5 | h5 <;> omega
    · rcases hheld n' k2 c q2 with ⟨_, _, b3⟩ | ⟨_, b2, _⟩ | ⟨b1, b2⟩
      · omega
      · exact hI.once n n' k1 k2 c hc a2 b2
      · rcases hp.hold n' k2 c b1 b2 with h5 | h5 <;> omega
    · rcases hp.hold n k1 c a1 a2 with h5 | h5
      · omega
      · rcases hheld n' k2 c q2 with ⟨_, _, b3⟩ | ⟨_, _, b3⟩ | ⟨_, b2⟩
        · omega
        · omega
        · exact hp.once n n' k1 k2 c (by omega) a2 b2
  · intro n m hn hm'
    rw [e] at hm'
    split at hm'
    · cases hm'; exact ⟨rfl, Dict.wf_set hI.wf k _⟩
    · by_cases hl : n < g.length
      · rw [hp.old n hl] at hm'
        exact hI.ok n m hn hm'
      · exact hp.ok n m (by omega) hm'

/-- one pair of the loop -/
theorem MergeInv.step {h0 g0 g g' : MHeap A} {fuel : Nat} {mt : Tag → Bool} {i1 i2 o : List (A × HVal A)} {rec : MHeap A → Nat → Nat → Option (Nat × MHeap A)}
    (ih : ∀ g a b r g', h0.length ≤ g.length → (∀ n < h0.length, g[n]? = h0[n]?) → NoDangling g → a < h0.length → b < h0.length →
      rec g a b = some (r, g') → MergePost h0 g g' fuel rmergeDefault a b r)
    (hI : MergeInv h0 g0 g mt i1 i2 o) (hK : h0.length ≤ g0.length) (hx : ∀ n < h0.length, g0[n]? = h0[n]?) (hT : NoDangling g0)
    (hi1 : ∀ k n, Dict.get? i1 k = some (.obj n) → n < h0.length) (hi2 : ∀ k n, Dict.get? i2 k = some (.obj n) → n < h0.length)
    {kv : A × HVal A} (hkv : Dict.get? i1 kv.1 = some kv.2 ∨ Dict.get? i2 kv.1 = some kv.2)
    (hr : rmergeStep rec mt i1 i2 g0.length g kv = some g') :
    ∃ v, MergeInv h0 g0 g' mt i1 i2 (Dict.set o kv.1 v) ∧ g'.length = g.length + keyCost fuel mt h0 i1 i2 kv.1 := by
  obtain ⟨k, v⟩ := kv
  have hpos := hI.pos
  have hx' : ∀ n < h0.length, g[n]? = h0[n]? := fun n hn => by rw [hI.old n (by omega)]; exact hx n hn
  simp only [rmergeStep] at hr
  simp only at hkv
  have old1 : ∀ {u}, Dict.get? i1 k = some u → ∀ n, u = .obj n → n < h0.length := fun hu n e => hi1 k n (by rw [hu, e])
  have old2 : ∀ {u}, Dict.get? i2 k = some u → ∀ n, u = .obj n → n < h0.length := fun hu n e => hi2 k n (by rw [hu, e])
  cases h1 : Dict.get? i1 k with
  | none =>
    rw [h1] at hr hkv
    rcases hkv with e | h2
    · cases e
    · simp only at hr
      cases hr
      refine ⟨v, hI.setOld hK hT (old2 h2) (.right h1 h2), ?_⟩
      rw [length_setH]; simp [keyCost, h1]
  | some u =>
    rw [h1] at hr hkv
    cases h2 : Dict.get? i2 k with
    | none =>
      rw [h2] at hr hkv
      rcases hkv with e | e
      · cases e
        simp only at hr
        cases hr
        refine ⟨v, hI.setOld hK hT (old1 h1) (.left h1 h2), ?_⟩
        rw [length_setH]
        cases v <;> simp [keyCost, h1, h2]
      · cases e
    | some w =>
      rw [h2] at hr
      simp only at hr
      rw [isA_ext hx' mt u (old1 h1), isA_ext hx' mt w (old2 h2)] at hr
      split at hr
      · rename_i hA
        simp only [Bool.and_eq_true] at hA
        cases u with
        | atom _ => simp [HVal.isA] at hA
        | obj a =>
          cases w with
          | atom _ => simp [HVal.isA] at hA
          | obj b =>
            simp only [bind] at hr
            cases hrec : rec g a b with
            | none => rw [hrec] at hr; cases hr
            | some x =>
              obtain ⟨r, g1⟩ := x
              rw [hrec] at hr
              simp only [Option.bind] at hr
              cases hr
              have hp := ih g a b r g1 (by omega) hx' (hI.noDangling hK hT) (old1 h1 a rfl) (old2 h2 b rfl) hrec
              refine ⟨.obj r, hI.setNew hK hT hp h1 h2 hA.1 hA.2, ?_⟩
              rw [length_setH, hp.len]
              simp [keyCost, h1, h2, hA.1, hA.2]
      · rename_i hA
        cases hr
        refine ⟨w, hI.setOld hK hT (old2 h2) (.over h1 h2 (by simpa using hA)), ?_⟩
        rw [length_setH]
        simp only [keyCost, h1, h2]
        cases u with
        | atom _ => rfl
        | obj a =>
          cases w with
          | atom _ => rfl
          | obj b => simp only; rw [if_neg hA]; rfl

/-- the keys of `output` -/
def keysAfter (l : List (A × HVal A)) (d : Dict A Unit) : Dict A Unit := l.foldl (fun out kv => Dict.set out kv.1 ()) d

theorem keys_set_congr {α β : Type} {d : Dict A α} {e : Dict A β} (hk : Dict.keys d = Dict.keys e) (k : A) (v : α) (w : β) :
    Dict.keys (Dict.set d k v) = Dict.keys (Dict.set e k w) := by
  rw [Dict.keys_set, Dict.keys_set, hk]

theorem MergeInv.loop {h0 g0 : MHeap A} {fuel : Nat} {mt : Tag → Bool} {i1 i2 : List (A × HVal A)} {rec : MHeap A → Nat → Nat → Option (Nat × MHeap A)}
    (ih : ∀ g a b r g', h0.length ≤ g.length → (∀ n < h0.length, g[n]? = h0[n]?) → NoDangling g → a < h0.length → b < h0.length →
      rec g a b = some (r, g') → MergePost h0 g g' fuel rmergeDefault a b r)
    (hK : h0.length ≤ g0.length) (hx : ∀ n < h0.length, g0[n]? = h0[n]?) (hT : NoDangling g0)
    (hi1 : ∀ k n, Dict.get? i1 k = some (.obj n) → n < h0.length) (hi2 : ∀ k n, Dict.get? i2 k = some (.obj n) → n < h0.length) :
    ∀ (l : List (A × HVal A)) (g g' : MHeap A) (o : List (A × HVal A)) (d : Dict A Unit), MergeInv h0 g0 g mt i1 i2 o →
    Dict.keys o = Dict.keys d → (∀ kv ∈ l, Dict.get? i1 kv.1 = some kv.2 ∨ Dict.get? i2 kv.1 = some kv.2) →
    l.foldlM (rmergeStep rec mt i1 i2 g0.length) g = some g' →
    ∃ o', MergeInv h0 g0 g' mt i1 i2 o' ∧ Dict.keys o' = Dict.keys (keysAfter l d) ∧
      g'.length = g.length + (l.map fun kv => keyCost fuel mt h0 i1 i2 kv.1).sum
  | [], g, g', o, d, hI, hk, _, hr => by
    simp only [List.foldlM_nil] at hr
    cases hr
    exact ⟨o, hI, hk, by simp⟩
  | kv :: l, g, g', o, d, hI, hk, hl, hr => by
    simp only [List.foldlM_cons, bind] at hr
    cases h1 : rmergeStep rec mt i1 i2 g0.length g kv with
    | none => rw [h1] at hr; cases hr
    | some g1 =>
      rw [h1] at hr
      obtain ⟨v, hI1, hlen⟩ := hI.step ih hK hx hT hi1 hi2 (hl kv (by simp)) h1
      obtain ⟨o', q1, q2, q3⟩ := MergeInv.loop ih hK hx hT hi1 hi2 l g1 g' _ (Dict.set d kv.1 ()) hI1 (keys_set_congr hk _ _ _)
        (fun x hx => hl x (List.mem_cons_of_mem _ hx)) hr
      exact ⟨o', q1, q2, by rw [q3, hlen]; simp only [List.map_cons, List.sum_cons]; omega⟩

theorem MergeInv.start (h0 g0 : MHeap A) (mt : Tag → Bool) (i1 i2 : List (A × HVal A)) (hT : NoDangling g0) :
    MergeInv h0 g0 (g0 ++ [⟨.dict, []⟩]) mt i1 i2 [] := by
  have hn : ∀ (n : Nat) m, g0.length ≤ n → (g0 ++ [(⟨.dict, []⟩ : HMap A)])[n]? = some m → m = ⟨.dict, []⟩ := by
    intro n m hn hm
    rw [List.getElem?_append_right hn] at hm
    cases hi : n - g0.length with
    | zero => rw [hi] at hm; cases hm; rfl
    | succ j => rw [hi] at hm; cases hm
  constructor
  · simp
  · simp
  · intro n hn; exact List.getElem?_append_left hn
  · exact Dict.wf_nil
  · intro kv hkv; cases hkv
  · rintro n k c hnl ⟨m, h1, h2⟩
    rw [hn n m hnl h1] at h2; cases h2
  · rintro n n' k k' c hc ⟨m, h1, h2⟩ _
    by_cases hl : n < g0.length
    · rw [List.getElem?_append_left hl] at h1
      have := hT n k c ⟨m, h1, h2⟩
      omega
    · rw [hn n m (by omega) h1] at h2; cases h2
  · intro n m hnl hm
    rw [hn n m hnl hm]
    exact ⟨rfl, Dict.wf_nil⟩

theorem rmergeH_post (h0 : MHeap A) (hD : NoDangling h0) (hok : MapsOK h0) : ∀ (fuel : Nat) (mt : Tag → Bool) (g : MHeap A) (a b r : Nat) (g' : MHeap A),
    h0.length ≤ g.length → (∀ n < h0.length, g[n]? = h0[n]?) → NoDangling g → a < h0.length → b < h0.length →
    rmergeH fuel mt g a b = some (r, g') → MergePost h0 g g' fuel mt a b r
  | 0, _, _, _, _, _, _, _, _, _, _, _, hr => by cases hr
  | fuel + 1, mt, g, a, b, r, g', hK, hx, hT, ha, hb, hr => by
    have h1 := List.getElem?_eq_getElem ha
    have h2 := List.getElem?_eq_getElem hb
    simp only [rmergeH, hx a ha, hx b hb, h1, h2, bind] at hr
    cases hf : (h0[a].items ++ h0[b].items).foldlM (rmergeStep (rmergeH fuel rmergeDefault) mt h0[a].items h0[b].items g.length)
        (g ++ [⟨.dict, []⟩]) with
    | none => rw [hf] at hr; cases hr
    | some g1 =>
      rw [hf] at hr
      simp only [Option.bind] at hr
      cases hr
      have w1 := hok _ (List.getElem_mem ha)
      have w2 := hok _ (List.getElem_mem hb)
      obtain ⟨o, hI, hk, hlen⟩ := MergeInv.loop (fun g a b r g' => rmergeH_post h0 hD hok fuel rmergeDefault g a b r g') hK hx hT
        (fun k n hn => hD a k n ⟨_, h1, Dict.mem_of_get? hn⟩) (fun k n hn => hD b k n ⟨_, h2, Dict.mem_of_get? hn⟩)
        _ _ _ [] [] (MergeInv.start h0 g mt h0[a].items h0[b].items hT) rfl
        (fun kv hkv => by
          rcases List.mem_append.1 hkv with hm | hm
          · exact .inl (Dict.get?_of_mem w1 hm)
          · exact .inr (Dict.get?_of_mem w2 hm)) hf
      have hp := hI.pos
      refine ⟨rfl, ?_, hI.pos, hI.old, ?_, hI.hold, hI.once, hI.ok⟩
      · rw [hlen, callsF_succ h1 h2]
        simp only [List.length_append, List.length_cons, List.length_nil]
        omega
      · refine .mk h1 h2 (Nat.le_refl _) hI.out ?_ (MergedItems.mono (lo := g.length + 1) (by omega) (fun _ _ _ h => h) (mergedItems_iff.2 hI.merged))
        rw [hk, keysAfter, List.foldl_append, keys_foldl_set (fun _ _ => ()) h0[b].items _ w2, keys_foldl_set (fun _ _ => ()) h0[a].items _ w1]
        have : (h0[a].items.map Prod.fst).filter (fun k => decide (k ∉ Dict.keys ([] : Dict A Unit))) = h0[a].items.map Prod.fst := by
          simp
        rw [this]
        rfl

/-! ## the tree that is shown -/

mutual
theorem unf_ext {h h' : MHeap A} (hx : ∀ (n : Nat) m, h[n]? = some m → h'[n]? = some m) {r : HVal A} {v : Val A} : Unf h r v → Unf h' r v
  | .atom a => .atom a
  | .obj hn hi => .obj (hx _ _ hn) (unfItems_ext hx hi)
theorem unfItems_ext {h h' : MHeap A} (hx : ∀ (n : Nat) m, h[n]? = some m → h'[n]? = some m) {i : List (A × HVal A)} {l : List (A × Val A)} :
    UnfItems h i l → UnfItems h' i l
  | .nil => .nil
  | .cons hv hl => .cons (unf_ext hx hv) (unfItems_ext hx hl)
end

theorem unfItems_keys {h : MHeap A} : ∀ {i : List (A × HVal A)} {l : List (A × Val A)}, UnfItems h i l → Dict.keys i = Dict.keys l
  | _, _, .nil => rfl
  | _, _, .cons _ hl => by simp [unfItems_keys hl]

theorem unfItems_get {h : MHeap A} (k : A) : ∀ {i : List (A × HVal A)} {l : List (A × Val A)}, UnfItems h i l →
    (Dict.get? i k = none ∧ Dict.get? l k = none) ∨ ∃ v w, Dict.get? i k = some v ∧ Dict.get? l k = some w ∧ Unf h v w
  | _, _, .nil => .inl ⟨rfl, rfl⟩
  | _, _, .cons (k := k') (v := v) (w := w) hv hl => by
    simp only [Dict.get?_cons]
    by_cases e : k' = k
    · simp only [e, if_true]; exact .inr ⟨v, w, rfl, rfl, hv⟩
    · simp only [e, if_false]; exact unfItems_get k hl

theorem unf_isA {h : MHeap A} {mt : Tag → Bool} {r : HVal A} {v : Val A} : Unf h r v → r.isA h mt = v.isA mt
  | .atom _ => rfl
  | .obj hn _ => by simp [HVal.isA, hn]

theorem unfItems_of_get {h : MHeap A} : ∀ {i : List (A × HVal A)} {l : List (A × Val A)}, Dict.WF l → Dict.keys i = Dict.keys l →
    (∀ k v w, (k, v) ∈ i → Dict.get? l k = some w → Unf h v w) → UnfItems h i l
  | [], [], _, _, _ => .nil
  | [], _ :: _, _, hk, _ => by cases hk
  | _ :: _, [], _, hk, _ => by cases hk
  | (k, v) :: i, (k', w) :: l, wf, hk, hv => by
    simp only [Dict.keys_cons, List.cons.injEq] at hk
    obtain ⟨rfl, hk⟩ := hk
    have wf' : k ∉ Dict.keys l ∧ (Dict.keys l).Nodup := by simpa [Dict.WF] using wf
    refine .cons (hv k v w (by simp) (by simp [Dict.get?_cons])) (unfItems_of_get wf'.2 hk fun k' v' w' hm hg => ?_)
    refine hv k' v' w' (List.mem_cons_of_mem _ hm) ?_
    rw [Dict.get?_cons, if_neg ?_]
    · exact hg
    · rintro rfl
      have := Dict.mem_of_get? hg
      exact wf'.1 (List.mem_map_of_mem (f := Prod.fst) this)

mutual
theorem Merged.unf {h h' : MHeap A} (hok : MapsOK h) (hx : ∀ (n : Nat) m, h[n]? = some m → h'[n]? = some m) {lo : Nat} {mt : Tag → Bool} {a b r : Nat} :
    Merged h h' lo mt a b r → ∀ {v1 v2 : Val A}, Unf h (.obj a) v1 → Unf h (.obj b) v2 →
    Unf h' (.obj r) (.map .dict (rmerge mt v1.items v2.items))
  | .mk (out := out) h1 h2 _ hr hk hi, v1, v2, hv1, hv2 => by
    cases hv1 with
    | @obj _ m1 l1 e1 u1 =>
      rw [h1] at e1; cases e1
      cases hv2 with
      | @obj _ m2 l2 e2 u2 =>
        rw [h2] at e2; cases e2
        have w1 : Dict.WF l1 := by have := hok _ (List.mem_of_getElem? h1); unfold Dict.WF at this ⊢; rwa [← unfItems_keys u1]
        have w2 : Dict.WF l2 := by have := hok _ (List.mem_of_getElem? h2); unfold Dict.WF at this ⊢; rwa [← unfItems_keys u2]
        simp only [Val.items_map]
        refine .obj (m := ⟨.dict, out⟩) hr (unfItems_of_get (rmerge_wf mt l1 l2 w1 w2) ?_ ?_)
        · rw [rmerge_keys mt l1 l2 w1 w2]
          simp only [hk, unfItems_keys u1, unfItems_keys u2]
        · intro k v w hm hg
          rw [rmerge_get? mt l1 l2 w1 w2] at hg
          exact MergedItems.unf hok hx hi u1 u2 hm hg
theorem MergedItems.unf {h h' : MHeap A} (hok : MapsOK h) (hx : ∀ (n : Nat) m, h[n]? = some m → h'[n]? = some m) {lo : Nat} {mt : Tag → Bool}
    {i1 i2 out : List (A × HVal A)} : MergedItems h h' lo mt i1 i2 out → ∀ {l1 l2 : List (A × Val A)}, UnfItems h i1 l1 →
    UnfItems h i2 l2 → ∀ {k v w}, (k, v) ∈ out → mergeVal mt (Dict.get? l1 k) (Dict.get? l2 k) = some w → Unf h' v w
  | .nil, _, _, _, _, k, v, w, hm, _ => (nomatch hm)
  | .cons (k := k') (v := v') hv hr, l1, l2, u1, u2, k, v, w, hm, hg => by
    by_cases e : (k, v) = (k', v')
    · cases e
      exact MergedVal.unf hok hx hv u1 u2 hg
    · exact MergedItems.unf hok hx hr u1 u2 ((List.mem_cons.1 hm).resolve_left e) hg
theorem MergedVal.unf {h h' : MHeap A} (hok : MapsOK h) (hx : ∀ (n : Nat) m, h[n]? = some m → h'[n]? = some m) {lo : Nat} {mt : Tag → Bool}
    {i1 i2 : List (A × HVal A)} {k : A} {v : HVal A} : MergedVal h h' lo mt i1 i2 k v → ∀ {l1 l2 : List (A × Val A)}, UnfItems h i1 l1 →
    UnfItems h i2 l2 → ∀ {w}, mergeVal mt (Dict.get? l1 k) (Dict.get? l2 k) = some w → Unf h' v w
  | .left h1 h2, l1, l2, u1, u2, w, hg => by
    rcases unfItems_get k u1 with ⟨e, _⟩ | ⟨x, y, e1, e2, hu⟩
    · rw [h1] at e; cases e
    · rw [h1] at e1; cases e1
      rcases unfItems_get k u2 with ⟨_, e3⟩ | ⟨_, _, e3, _⟩
      · rw [e2, e3] at hg
        have : w = y := by cases y <;> cases hg <;> rfl
        rw [this]; exact unf_ext hx hu
      · rw [h2] at e3; cases e3
  | .right h1 h2, l1, l2, u1, u2, w, hg => by
    rcases unfItems_get k u2 with ⟨e, _⟩ | ⟨x, y, e1, e2, hu⟩
    · rw [h2] at e; cases e
    · rw [h2] at e1; cases e1
      rcases unfItems_get k u1 with ⟨_, e3⟩ | ⟨_, _, e3, _⟩
      · rw [e2, e3] at hg
        cases hg; exact unf_ext hx hu
      · rw [h1] at e3; cases e3
  | .over h1 h2 h3, l1, l2, u1, u2, w, hg => by
    rcases unfItems_get k u1 with ⟨e, _⟩ | ⟨x1, y1, e1, f1, hu1⟩
    · rw [h1] at e; cases e
    · rw [h1] at e1; cases e1
      rcases unfItems_get k u2 with ⟨e, _⟩ | ⟨x2, y2, e2, f2, hu2⟩
      · rw [h2] at e; cases e
      · rw [h2] at e2; cases e2
        rw [unf_isA hu1, unf_isA hu2] at h3
        rw [f1, f2] at hg
        have : w = y2 := by
          cases y1 with
          | atom _ => cases y2 <;> (cases hg; rfl)
          | map t l =>
            cases y2 with
            | atom _ => cases hg; rfl
            | map t' l' =>
              simp only [mergeVal] at hg
              rw [if_neg (by simpa using h3)] at hg
              cases hg; rfl
        rw [this]; exact unf_ext hx hu2
  | .both (a := a) (b := b) (r := r) h1 h2 ha hb hm, l1, l2, u1, u2, w, hg => by
    rcases unfItems_get k u1 with ⟨e, _⟩ | ⟨x1, y1, e1, f1, hu1⟩
    · rw [h1] at e; cases e
    · rw [h1] at e1; cases e1
      rcases unfItems_get k u2 with ⟨e, _⟩ | ⟨x2, y2, e2, f2, hu2⟩
      · rw [h2] at e; cases e
      · rw [h2] at e2; cases e2
        have := Merged.unf hok hx hm hu1 hu2
        rw [unf_isA hu1] at ha
        rw [unf_isA hu2] at hb
        rw [f1, f2] at hg
        cases y1 with
        | atom _ => cases ha
        | map t l =>
          cases y2 with
          | atom _ => cases hb
          | map t' l' =>
            simp only [mergeVal] at hg
            rw [if_pos (by simpa using ⟨ha, hb⟩)] at hg
            cases hg
            exact this
end

/-! ## when it returns -/

/-- the mapping shows a tree of less than the given depth -/
def Shallow (h : MHeap A) (a n : Nat) : Prop := ∃ v, Unf h (.obj a) v ∧ v.depth < n

theorem Shallow.sub {h : MHeap A} {a n : Nat} {m : HMap A} (ha : h[a]? = some m) (hs : Shallow h a (n + 1)) {k : A} {c : Nat}
    (hc : Dict.get? m.items k = some (.obj c)) : Shallow h c n := by
  obtain ⟨v, hv, hd⟩ := hs
  cases hv with
  | obj hn hi =>
    rw [ha] at hn; cases hn
    obtain ⟨w, g1, g2⟩ := unfItems_mem hi (Dict.mem_of_get? hc)
    exact ⟨w, g1, by simp only [Val.depth] at hd; omega⟩

theorem MergeInv.loop_returns {h0 g0 : MHeap A} {fuel : Nat} {mt : Tag → Bool} {i1 i2 : List (A × HVal A)} {rec : MHeap A → Nat → Nat → Option (Nat × MHeap A)}
    (ih : ∀ g a b r g', h0.length ≤ g.length → (∀ n < h0.length, g[n]? = h0[n]?) → NoDangling g → a < h0.length → b < h0.length →
      rec g a b = some (r, g') → MergePost h0 g g' fuel rmergeDefault a b r)
    (ih2 : ∀ g a b, h0.length ≤ g.length → (∀ n < h0.length, g[n]? = h0[n]?) → NoDangling g → a < h0.length → b < h0.length →
      (Shallow h0 a fuel ∨ Shallow h0 b fuel) → ∃ x, rec g a b = some x)
    (hK : h0.length ≤ g0.length) (hx : ∀ n < h0.length, g0[n]? = h0[n]?) (hT : NoDangling g0)
    (hi1 : ∀ k n, Dict.get? i1 k = some (.obj n) → n < h0.length) (hi2 : ∀ k n, Dict.get? i2 k = some (.obj n) → n < h0.length)
    (hsh : ∀ k a b, Dict.get? i1 k = some (.obj a) → Dict.get? i2 k = some (.obj b) → Shallow h0 a fuel ∨ Shallow h0 b fuel) :
    ∀ (l : List (A × HVal A)) (g : MHeap A) (o : List (A × HVal A)), MergeInv h0 g0 g mt i1 i2 o →
    (∀ kv ∈ l, Dict.get? i1 kv.1 = some kv.2 ∨ Dict.get? i2 kv.1 = some kv.2) →
    ∃ g', l.foldlM (rmergeStep rec mt i1 i2 g0.length) g = some g'
  | [], g, _, _, _ => ⟨g, rfl⟩
  | kv :: l, g, o, hI, hl => by
    have hpos := hI.pos
    have hx' : ∀ n < h0.length, g[n]? = h0[n]? := fun n hn => by rw [hI.old n (by omega)]; exact hx n hn
    have hstep : ∃ g1, rmergeStep rec mt i1 i2 g0.length g kv = some g1 := by
      unfold rmergeStep
      cases h1 : Dict.get? i1 kv.1 with
      | none => exact ⟨_, rfl⟩
      | some u =>
        cases h2 : Dict.get? i2 kv.1 with
        | none => exact ⟨_, rfl⟩
        | some w =>
          simp only
          split
          · cases u with
            | atom _ => exact ⟨_, rfl⟩
            | obj a =>
              cases w with
              | atom _ => exact ⟨_, rfl⟩
              | obj b =>
                obtain ⟨⟨r, g1⟩, hr⟩ := ih2 g a b (by omega) hx' (hI.noDangling hK hT) (hi1 _ _ h1) (hi2 _ _ h2) (hsh _ _ _ h1 h2)
                exact ⟨_, by simp [hr]; rfl⟩
          · exact ⟨_, rfl⟩
    obtain ⟨g1, h1⟩ := hstep
    obtain ⟨v, hI1, _⟩ := hI.step ih hK hx hT hi1 hi2 (hl kv (by simp)) h1
    obtain ⟨g', h2⟩ := MergeInv.loop_returns ih ih2 hK hx hT hi1 hi2 hsh l g1 _ hI1 (fun x hx => hl x (List.mem_cons_of_mem _ hx))
    exact ⟨g', by simp only [List.foldlM_cons, h1, bind, Option.bind]; exact h2⟩

theorem rmergeH_returns (h0 : MHeap A) (hD : NoDangling h0) (hok : MapsOK h0) : ∀ (fuel : Nat) (mt : Tag → Bool) (g : MHeap A) (a b : Nat),
    h0.length ≤ g.length → (∀ n < h0.length, g[n]? = h0[n]?) → NoDangling g → a < h0.length → b < h0.length →
    (Shallow h0 a fuel ∨ Shallow h0 b fuel) → ∃ x, rmergeH fuel mt g a b = some x
  | 0, _, _, _, _, _, _, _, _, _, hs => by
    rcases hs with ⟨v, _, h⟩ | ⟨v, _, h⟩ <;> omega
  | fuel + 1, mt, g, a, b, hK, hx, hT, ha, hb, hs => by
    have h1 := List.getElem?_eq_getElem ha
    have h2 := List.getElem?_eq_getElem hb
    have w1 := hok _ (List.getElem_mem ha)
    have w2 := hok _ (List.getElem_mem hb)
    obtain ⟨g', hf⟩ := MergeInv.loop_returns (mt := mt) (fun g a b r g' => rmergeH_post h0 hD hok fuel rmergeDefault g a b r g')
      (fun g a b => rmergeH_returns h0 hD hok fuel rmergeDefault g a b) hK hx hT
      (fun k n hn => hD a k n ⟨_, h1, Dict.mem_of_get? hn⟩) (fun k n hn => hD b k n ⟨_, h2, Dict.mem_of_get? hn⟩)
      (fun k a' b' ha' hb' => hs.imp (fun h => h.sub h1 ha') (fun h => h.sub h2 hb'))
      (h0[a].items ++ h0[b].items) _ [] (MergeInv.start h0 g mt h0[a].items h0[b].items hT)
      (fun kv hkv => by
        rcases List.mem_append.1 hkv with hm | hm
        · exact .inl (Dict.get?_of_mem w1 hm)
        · exact .inr (Dict.get?_of_mem w2 hm))
    exact ⟨(g.length, g'), by simp only [rmergeH, hx a ha, hx b hb, h1, h2, hf]; rfl⟩

/-! ## the number of calls -/

theorem sum_filter {α : Type} (f : α → Nat) (p : α → Bool) (hp : ∀ x, p x = false → f x = 0) : ∀ l : List α,
    (l.map f).sum = ((l.filter p).map f).sum
  | [] => rfl
  | x :: l => by
    by_cases h : p x = true
    · simp [List.filter_cons_of_pos h, sum_filter f p hp l]
    · simp [List.filter_cons_of_neg h, hp x (by simpa using h), sum_filter f p hp l]

theorem keyCost_sum {fuel : Nat} {mt : Tag → Bool} {h : MHeap A} {i1 i2 : List (A × HVal A)} (w1 : Dict.WF i1) (w2 : Dict.WF i2) :
    (i2.map fun kv => keyCost fuel mt h i1 i2 kv.1).sum = (i1.map fun kv => keyCost fuel mt h i1 i2 kv.1).sum := by
  have hz : ∀ k, (decide (k ∈ Dict.keys i1) && decide (k ∈ Dict.keys i2)) = false → keyCost fuel mt h i1 i2 k = 0 := by
    intro k hk
    simp only [Bool.and_eq_false_iff, decide_eq_false_iff_not] at hk
    unfold keyCost
    rcases hk with hk | hk
    · rw [Dict.get?_eq_none.2 hk]
    · rw [Dict.get?_eq_none.2 hk]
      cases Dict.get? i1 k with
      | none => rfl
      | some u => cases u <;> rfl
  have e : ∀ i : List (A × HVal A), (i.map fun kv => keyCost fuel mt h i1 i2 kv.1) = (Dict.keys i).map (keyCost fuel mt h i1 i2) := by
    intro i; simp [Dict.keys]
  rw [e, e, sum_filter _ _ hz (Dict.keys i2), sum_filter _ _ hz (Dict.keys i1)]
  apply List.Perm.sum_nat
  apply List.Perm.map
  refine (List.perm_ext_iff_of_nodup (List.Pairwise.filter _ w2) (List.Pairwise.filter _ w1)).2 fun k => ?_
  simp only [List.mem_filter, Bool.and_eq_true, decide_eq_true_eq]
  exact ⟨fun h => ⟨h.2.1, h.2⟩, fun h => ⟨h.2.2, h.2⟩⟩

theorem calls_tree (h : MHeap A) (hok : MapsOK h) : ∀ (fuel : Nat) (mt : Tag → Bool) (a b : Nat) (v1 v2 : Val A), Unf h (.obj a) v1 →
    Unf h (.obj b) v2 → v1.depth < fuel ∨ v2.depth < fuel → callsF fuel mt h a b = mergePairs 2 mt v1 v2
  | 0, _, _, _, _, _, _, _, hf => by omega
  | fuel + 1, mt, a, b, v1, v2, hv1, hv2, hf => by
    cases hv1 with
    | @obj _ m1 l1 e1 u1 =>
      cases hv2 with
      | @obj _ m2 l2 e2 u2 =>
        rw [callsF_succ e1 e2, List.map_append, List.sum_append,
          keyCost_sum (hok _ (List.mem_of_getElem? e1)) (hok _ (List.mem_of_getElem? e2))]
        simp only [mergePairs]
        have key : ∀ (i : List (A × HVal A)) (l : List (A × Val A)), UnfItems h i l → (∀ kv ∈ i, Dict.get? m1.items kv.1 = some kv.2) →
            (Val.depthItems l < fuel ∨ Val.depthItems l2 < fuel) →
            (i.map fun kv => keyCost fuel mt h m1.items m2.items kv.1).sum = mergePairsItems 2 mt l l2 := by
          intro i
          induction i with
          | nil => intro l hl _ _; cases hl; rfl
          | cons x i ih =>
            intro l hl hi hd
            cases hl with
            | @cons k v w _ l' hv hl' =>
              have hd' : Val.depthItems l' < fuel ∨ Val.depthItems l2 < fuel := by simp only [Val.depthItems] at hd; omega
              simp only [List.map_cons, List.sum_cons, mergePairsItems]
              rw [ih l' hl' (fun kv hkv => hi kv (List.mem_cons_of_mem _ hkv)) hd']
              congr 1
              have hg := hi (k, v) (by simp)
              simp only at hg
              unfold keyCost
              rw [hg]
              rcases unfItems_get k u2 with ⟨g1, g2⟩ | ⟨x, y, g1, g2, g3⟩
              · rw [g1, g2]; cases v <;> rfl
              · rw [g1, g2]
                cases v with
                | atom _ => cases hv; rfl
                | obj a' =>
                  cases x with
                  | atom _ => cases g3; simp
                  | obj b' =>
                    simp only
                    rw [unf_isA hv, unf_isA g3]
                    obtain ⟨y', k1, k2⟩ := unfItems_mem u2 (Dict.mem_of_get? g1)
                    have hy : y'.depth = y.depth := by rw [unf_fun k1 g3]
                    rw [calls_tree h hok fuel rmergeDefault a' b' w y hv g3 (by simp only [Val.depthItems] at hd; omega)]
        rw [key m1.items l1 u1 (fun kv hkv => Dict.get?_of_mem (hok _ (List.mem_of_getElem? e1)) hkv) (by simp only [Val.depth] at hf; omega)]
        omega

/-! ## pairs without end -/

mutual
theorem Merged.acc {h h' : MHeap A} {lo : Nat} {mt : Tag → Bool} {a b r : Nat} : Merged h h' lo mt a b r →
    ∀ q, PairIn h mt (a, b) q → Acc (fun x y => PairIn h rmergeDefault y x) q
  | .mk (out := out) h1 h2 _ _ hk hi, q, hq => by
    have ih := MergedItems.acc hi
    obtain ⟨m1, m2, k, e1, e2, g1, g2, t1, t2⟩ := hq
    simp only at e1 e2
    rw [h1] at e1; cases e1
    rw [h2] at e2; cases e2
    have hmem : k ∈ Dict.keys out := by
      rw [hk]
      exact List.mem_append_left _ (List.mem_map.2 ⟨_, Dict.mem_of_get? g1, rfl⟩)
    obtain ⟨⟨_, v⟩, hv, rfl⟩ := List.mem_map.1 hmem
    exact ih _ v hv q g1 g2 t1 t2
theorem MergedItems.acc {h h' : MHeap A} {lo : Nat} {mt : Tag → Bool} {i1 i2 out : List (A × HVal A)} : MergedItems h h' lo mt i1 i2 out →
    ∀ k v, (k, v) ∈ out → ∀ q : Nat × Nat, Dict.get? i1 k = some (.obj q.1) → Dict.get? i2 k = some (.obj q.2) →
    (HVal.obj q.1 : HVal A).isA h mt = true → (HVal.obj q.2 : HVal A).isA h mt = true → Acc (fun x y => PairIn h rmergeDefault y x) q
  | .nil, _, _, hm, _, _, _, _, _ => nomatch hm
  | .cons hv hi, k, v, hm, q, g1, g2, t1, t2 => by
    have ih1 := MergedVal.acc hv
    have ih2 := MergedItems.acc hi
    rcases List.mem_cons.1 hm with e | hm
    · cases e; exact ih1 q g1 g2 t1 t2
    · exact ih2 k v hm q g1 g2 t1 t2
theorem MergedVal.acc {h h' : MHeap A} {lo : Nat} {mt : Tag → Bool} {i1 i2 : List (A × HVal A)} {k : A} {v : HVal A} : MergedVal h h' lo mt i1 i2 k v →
    ∀ q : Nat × Nat, Dict.get? i1 k = some (.obj q.1) → Dict.get? i2 k = some (.obj q.2) →
    (HVal.obj q.1 : HVal A).isA h mt = true → (HVal.obj q.2 : HVal A).isA h mt = true → Acc (fun x y => PairIn h rmergeDefault y x) q
  | .left _ e, _, _, g2, _, _ => by rw [e] at g2; cases g2
  | .right e _, _, g1, _, _, _ => by rw [e] at g1; cases g1
  | .over e1 e2 hn, _, g1, g2, t1, t2 => by
    rw [e1] at g1; cases g1
    rw [e2] at g2; cases g2
    exact absurd ⟨t1, t2⟩ hn
  | .both e1 e2 _ _ hm, (a', b'), g1, g2, t1, t2 => by
    have ih := Merged.acc hm
    rw [e1] at g1; cases g1
    rw [e2] at g2; cases g2
    exact ⟨_, fun q hq => ih q hq⟩
end

end Verif.Lemmas
