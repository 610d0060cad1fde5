import Verif.Lemmas.PickleBytes
/-!
# `save`: the opcodes are well formed, the same for the same graph, and there if the stack is deep enough
-/
namespace Verif.Lemmas.Pickle
open Verif Verif.Model Verif.Spec

/-! ## well formed -/

def OpsOK (e : List PEv) : Prop := ∀ o ∈ opsOf e, OpOK o

theorem OpsOK.append {e e' : List PEv} (h : OpsOK e) (h' : OpsOK e') : OpsOK (e ++ e') := by
  intro o ho
  rw [opsOf_append] at ho
  rcases List.mem_append.1 ho with ho | ho
  · exact h o ho
  · exact h' o ho

theorem opsOK_nil : OpsOK [] := fun _ h => by cases h
theorem opsOK_check {e : List PEv} (h : OpsOK e) : OpsOK (.check :: e) := h
theorem opsOK_op {e : List PEv} {o : POp} (ho : OpOK o) (h : OpsOK e) : OpsOK (.op o :: e) := by
  intro p hp
  rw [opsOf_op] at hp
  rcases List.mem_cons.1 hp with rfl | hp
  · exact ho
  · exact h p hp

theorem saveAll_opsOK {sv : PRef → List Nat → Except PyErr (List PEv × List Nat)}
    (hs : ∀ r m e m', sv r m = .ok (e, m') → OpsOK e) : ∀ xs m e m', saveAll sv xs m = .ok (e, m') → OpsOK e
  | [], m, e, m', h => by cases h; exact opsOK_nil
  | r :: rs, m, e, m', h => by
    simp only [saveAll] at h
    obtain ⟨⟨e1, m1⟩, h1, h⟩ := ok_bind h
    obtain ⟨⟨e2, m2⟩, h2, h⟩ := ok_bind h
    cases h
    exact (hs _ _ _ _ h1).append (saveAll_opsOK hs _ _ _ _ h2)

theorem batches_opsOK {α : Type} {sv : PRef → List Nat → Except PyErr (List PEv × List Nat)}
    (hs : ∀ r m e m', sv r m = .ok (e, m') → OpsOK e) {refs : α → List PRef} {one many : POp} (h1 : OpOK one) (h2 : OpOK many)
    (short : Bool) : ∀ bs m e m', saveBatches sv refs one many short bs m = .ok (e, m') → OpsOK e
  | [], m, e, m', h => by cases h; exact opsOK_nil
  | b :: bs, m, e, m', h => by
    simp only [saveBatches] at h
    split at h
    · exact batches_opsOK hs h1 h2 short _ _ _ _ h
    · obtain ⟨⟨e1, m1⟩, q1, h⟩ := ok_bind h
      obtain ⟨⟨e2, m2⟩, q2, h⟩ := ok_bind h
      have r1 := saveAll_opsOK hs _ _ _ _ q1
      have r2 := batches_opsOK hs h1 h2 short _ _ _ _ q2
      split at h
      · cases h
        exact (r1.append (opsOK_op h1 opsOK_nil)).append r2
      · cases h
        exact ((OpsOK.append (e := [.op .mark]) (opsOK_op trivial opsOK_nil) r1).append (opsOK_op h2 opsOK_nil)).append r2

theorem opsOK_pops : ∀ n, OpsOK (List.replicate n (.op .pop))
  | 0 => opsOK_nil
  | n + 1 => by rw [List.replicate_succ]; exact opsOK_op trivial (opsOK_pops n)

theorem save_opsOK {h : PHeap} (hok : HeapOK h) (short : Nat → Bool) :
    ∀ n r m e m', save short h n r m = .ok (e, m') → OpsOK e
  | 0, r, m, e, m', hv => by simp [save] at hv
  | n + 1, r, m, e, m', hv => by
    have ih := save_opsOK hok short n
    cases r with
    | obj a =>
      simp only [save] at hv
      split at hv
      · cases hv; exact opsOK_check (opsOK_op trivial opsOK_nil)
      · cases hn : h[a]? with
        | none => rw [hn] at hv; cases hv
        | some nd =>
          rw [hn] at hv
          have hnd := hok a nd hn
          cases nd with
          | str s => cases hv; exact opsOK_check (opsOK_op hnd (opsOK_op trivial opsOK_nil))
          | bytes s => cases hv; exact opsOK_check (opsOK_op hnd (opsOK_op trivial opsOK_nil))
          | list xs =>
            obtain ⟨⟨e1, m1⟩, h1, hv⟩ := ok_bind hv
            cases hv
            exact opsOK_check (opsOK_op trivial (opsOK_op trivial (batches_opsOK (one := .append) (many := .appends) (fun r m e m' => ih r m e m') trivial trivial _ _ _ _ _ h1)))
          | dict kvs =>
            obtain ⟨⟨e1, m1⟩, h1, hv⟩ := ok_bind hv
            cases hv
            exact opsOK_check (opsOK_op trivial (opsOK_op trivial (batches_opsOK (one := .setitem) (many := .setitems) (fun r m e m' => ih r m e m') trivial trivial _ _ _ _ _ h1)))
          | tuple xs =>
            obtain ⟨⟨e1, m1⟩, h1, hv⟩ := ok_bind hv
            have r1 := saveAll_opsOK (fun r m e m' => ih r m e m') _ _ _ _ h1
            have hl : 1 ≤ xs.length := List.length_pos_iff.2 hnd
            simp only at hv
            split at hv
            · split at hv
              · cases hv
                exact (((opsOK_check opsOK_nil).append r1).append (opsOK_pops _)).append (opsOK_op trivial opsOK_nil)
              · cases hv
                exact ((opsOK_check opsOK_nil).append r1).append (opsOK_op ⟨hl, ‹_›⟩ (opsOK_op trivial opsOK_nil))
            · split at hv
              · cases hv
                exact (OpsOK.append (e := [.check, .op .mark]) (opsOK_check (opsOK_op (o := .mark) trivial opsOK_nil)) r1).append (opsOK_op trivial (opsOK_op trivial opsOK_nil))
              · cases hv
                exact (OpsOK.append (e := [.check, .op .mark]) (opsOK_check (opsOK_op (o := .mark) trivial opsOK_nil)) r1).append (opsOK_op trivial (opsOK_op trivial opsOK_nil))
    | _ => cases hv; exact opsOK_check (opsOK_op trivial opsOK_nil)

/-! ## the same for the same graph -/

/-- the same outcome of saving, with memos that correspond -/
def SameSave (R : Nat → Nat → Prop) (x y : Except PyErr (List PEv × List Nat)) : Prop :=
  (∃ e, x = .error e ∧ y = .error e) ∨ ∃ e m m', x = .ok (e, m) ∧ y = .ok (e, m') ∧ List.Forall₂ R m m'

theorem SameSave.bind {R : Nat → Nat → Prop} {x y : Except PyErr (List PEv × List Nat)} (h : SameSave R x y)
    {f g : List PEv × List Nat → Except PyErr (List PEv × List Nat)}
    (hfg : ∀ e m m', List.Forall₂ R m m' → SameSave R (f (e, m)) (g (e, m'))) : SameSave R (x >>= f) (y >>= g) := by
  rcases h with ⟨e, rfl, rfl⟩ | ⟨e, m, m', rfl, rfl, hm⟩
  · exact .inl ⟨e, rfl, rfl⟩
  · exact hfg e m m' hm

theorem SameSave.ok {R : Nat → Nat → Prop} (e : List PEv) {m m' : List Nat} (h : List.Forall₂ R m m') :
    SameSave R (.ok (e, m)) (.ok (e, m')) := .inr ⟨e, m, m', rfl, rfl, h⟩

def SvSame (R : Nat → Nat → Prop) (sv sv' : PRef → List Nat → Except PyErr (List PEv × List Nat)) : Prop :=
  ∀ r r' m m', RefRel R r r' → List.Forall₂ R m m' → SameSave R (sv r m) (sv' r' m')

theorem saveAll_same {R : Nat → Nat → Prop} {sv sv' : PRef → List Nat → Except PyErr (List PEv × List Nat)} (hs : SvSame R sv sv')
    {xs xs' : List PRef} (hx : List.Forall₂ (RefRel R) xs xs') {m m' : List Nat} (hm : List.Forall₂ R m m') :
    SameSave R (saveAll sv xs m) (saveAll sv' xs' m') := by
  induction hx generalizing m m' with
  | nil => exact .ok [] hm
  | cons h1 _ ih =>
    simp only [saveAll]
    refine (hs _ _ _ _ h1 hm).bind fun e m m' hm => ?_
    refine (ih hm).bind fun e' m m' hm => ?_
    exact .ok _ hm

theorem forall₂_flatMap {α β : Type} {r : α → α → Prop} {s : β → β → Prop} {f : α → List β} {xs ys : List α}
    (h : List.Forall₂ r xs ys) (hf : ∀ x y, r x y → List.Forall₂ s (f x) (f y)) : List.Forall₂ s (xs.flatMap f) (ys.flatMap f) := by
  induction h with
  | nil => exact .nil
  | cons h1 _ ih => rw [List.flatMap_cons, List.flatMap_cons]; exact List.rel_append (hf _ _ h1) ih

theorem saveBatches_same {α : Type} {R : Nat → Nat → Prop} {sv sv' : PRef → List Nat → Except PyErr (List PEv × List Nat)}
    (hs : SvSame R sv sv') {rel : α → α → Prop} {refs : α → List PRef}
    (hrel : ∀ x y, rel x y → List.Forall₂ (RefRel R) (refs x) (refs y)) (one many : POp) (short : Bool) {bs bs' : List (List α)}
    (hb : List.Forall₂ (List.Forall₂ rel) bs bs') {m m' : List Nat} (hm : List.Forall₂ R m m') :
    SameSave R (saveBatches sv refs one many short bs m) (saveBatches sv' refs one many short bs' m') := by
  induction hb generalizing m m' with
  | nil => exact .ok [] hm
  | cons h1 _ ih =>
    simp only [saveBatches]
    rw [h1.length_eq]
    split
    · exact ih hm
    · refine (saveAll_same hs (forall₂_flatMap h1 hrel) hm).bind fun e m m' hm => ?_
      refine (ih hm).bind fun e' m m' hm => ?_
      simp only
      split
      · exact .ok _ hm
      · exact .ok _ hm

theorem forall₂_batches {α : Type} {rel : α → α → Prop} : ∀ (f : Nat) {xs ys : List α}, List.Forall₂ rel xs ys →
    List.Forall₂ (List.Forall₂ rel) (batches f xs) (batches f ys)
  | 0, _, _, _ => .nil
  | f + 1, xs, ys, h => by
    simp only [batches]
    rw [h.length_eq]
    split
    · exact .cons h .nil
    · exact .cons (List.forall₂_take _ h) (forall₂_batches f (List.forall₂_drop _ h))

theorem same_idx {R : Nat → Nat → Prop} (h1 : ∀ a b b', R a b → R a b' → b = b') (h2 : ∀ a a' b, R a b → R a' b → a = a')
    {m m' : List Nat} (hm : List.Forall₂ R m m') {a b : Nat} (hab : R a b) : (a ∈ m ↔ b ∈ m') ∧ m.idxOf a = m'.idxOf b := by
  induction hm with
  | nil => simp
  | cons hx _ ih =>
    rename_i x y l l' _
    have hxy : a = x ↔ b = y := ⟨fun e => by subst e; exact h1 _ _ _ hab hx, fun e => by subst e; exact h2 _ _ _ hab hx⟩
    refine ⟨by rw [List.mem_cons, List.mem_cons, hxy, ih.1], ?_⟩
    rw [List.idxOf_cons, List.idxOf_cons, ih.2]
    by_cases he : a = x
    · have := hxy.1 he
      subst he this
      simp
    · have hne : ¬ b = y := fun h => he (hxy.2 h)
      have e1 : (x == a) = false := by simpa using fun h => he h.symm
      have e2 : (y == b) = false := by simpa using fun h => hne h.symm
      rw [e1, e2]

theorem save_same (short : Nat → Bool) {h h' : PHeap} {R : Nat → Nat → Prop} (h1 : ∀ a b b', R a b → R a b' → b = b')
    (h2 : ∀ a a' b, R a b → R a' b → a = a')
    (hR : ∀ a b, R a b → ∃ n n', h[a]? = some n ∧ h'[b]? = some n' ∧ NodeRel R n n') :
    ∀ n, SvSame R (save short h n) (save short h' n)
  | 0 => fun r r' m m' _ _ => .inl ⟨.runtimeError, by simp [save], by simp [save]⟩
  | n + 1 => by
    have ih := save_same short h1 h2 hR n
    intro r r' m m' hr hm
    cases hr with
    | obj hab =>
      rename_i a b
      obtain ⟨i1, i2⟩ := same_idx h1 h2 hm hab
      obtain ⟨nd, nd', q1, q2, q3⟩ := hR a b hab
      simp only [save]
      by_cases ha : a ∈ m
      · rw [if_pos ha, if_pos (i1.1 ha), i2]
        exact .ok _ hm
      · rw [if_neg ha, if_neg fun h => ha (i1.2 h), q1, q2]
        have hm1 : List.Forall₂ R (m ++ [a]) (m' ++ [b]) := List.rel_append hm (.cons hab .nil)
        cases q3 with
        | str s => exact .ok _ hm1
        | bytes s => exact .ok _ hm1
        | list hx =>
          simp only
          rw [hx.length_eq]
          refine (saveBatches_same ih (fun x y hxy => .cons hxy .nil) _ _ _ (forall₂_batches _ hx) hm1).bind fun e m m' hm => ?_
          exact .ok _ hm
        | dict hx =>
          simp only
          rw [hx.length_eq]
          refine (saveBatches_same ih (fun x y hxy => .cons hxy.1 (.cons hxy.2 .nil)) _ _ _ (forall₂_batches _ hx) hm1).bind
            fun e m m' hm => ?_
          exact .ok _ hm
        | tuple hx =>
          simp only
          refine (saveAll_same ih hx hm).bind fun e m m' hm => ?_
          obtain ⟨i1, i2⟩ := same_idx h1 h2 hm hab
          simp only
          rw [hx.length_eq]
          split
          · by_cases ha : a ∈ m
            · rw [if_pos ha, if_pos (i1.1 ha), i2]; exact .ok _ hm
            · rw [if_neg ha, if_neg fun h => ha (i1.2 h)]; exact .ok _ (List.rel_append hm (.cons hab .nil))
          · by_cases ha : a ∈ m
            · rw [if_pos ha, if_pos (i1.1 ha), i2]; exact .ok _ hm
            · rw [if_neg ha, if_neg fun h => ha (i1.2 h)]; exact .ok _ (List.rel_append hm (.cons hab .nil))
    | _ => simp only [save]; exact .ok _ hm

theorem dumps_same (short : Nat → Bool) (lim : Nat) {h h' : PHeap} {r r' : PRef} (hs : SameGraph h r h' r') :
    dumpsP short lim h r = dumpsP short lim h' r' := by
  obtain ⟨R, h1, h2, h3, h4⟩ := hs
  rcases save_same short h1 h2 h4 lim r r' [] [] h3 .nil with ⟨e, he, he'⟩ | ⟨e, m, m', he, he', -⟩
  · simp only [dumpsP, he, he']
  · simp only [dumpsP, he, he']
    rfl

/-! ## same graph: an equivalence -/

theorem SameGraph.symm {h h' : PHeap} {r r' : PRef} (hs : SameGraph h r h' r') : SameGraph h' r' h r := by
  obtain ⟨R, h1, h2, h3, h4⟩ := hs
  have sr : ∀ {x y}, RefRel R x y → RefRel (fun a b => R b a) y x := by
    intro x y hxy
    cases hxy <;> constructor
    assumption
  refine ⟨fun a b => R b a, fun a b b' => h2 _ _ _, fun a a' b => h1 _ _ _, sr h3, fun a b hab => ?_⟩
  obtain ⟨n, n', q1, q2, q3⟩ := h4 b a hab
  refine ⟨n', n, q2, q1, ?_⟩
  cases q3 with
  | str => constructor
  | bytes => constructor
  | tuple hx => exact .tuple (hx.flip.imp fun _ _ => sr)
  | list hx => exact .list (hx.flip.imp fun _ _ => sr)
  | dict hx => exact .dict (hx.flip.imp fun _ _ p => ⟨sr p.1, sr p.2⟩)

theorem SameGraph.trans {h h' h'' : PHeap} {r r' r'' : PRef} (hs : SameGraph h r h' r') (ht : SameGraph h' r' h'' r'') :
    SameGraph h r h'' r'' := by
  obtain ⟨R, h1, h2, h3, h4⟩ := hs
  obtain ⟨S, k1, k2, k3, k4⟩ := ht
  have sr : ∀ {x y z}, RefRel R x y → RefRel S y z → RefRel (fun a c => ∃ b, R a b ∧ S b c) x z := by
    intro x y z hxy hyz
    cases hxy <;> cases hyz <;> constructor
    exact ⟨_, ‹_›, ‹_›⟩
  have sl : ∀ {α : Type} {P Q T : α → α → Prop}, (∀ x y z, P x y → Q y z → T x z) → ∀ {xs ys zs : List α},
      List.Forall₂ P xs ys → List.Forall₂ Q ys zs → List.Forall₂ T xs zs := by
    intro α P Q T hT xs ys zs hx
    induction hx generalizing zs with
    | nil => intro hz; cases hz; exact .nil
    | cons p _ ih => intro hz; cases hz with | cons q hz => exact .cons (hT _ _ _ p q) (ih hz)
  refine ⟨fun a c => ∃ b, R a b ∧ S b c, ?_, ?_, sr h3 k3, ?_⟩
  · rintro a c c' ⟨b, p, q⟩ ⟨b', p', q'⟩
    cases h1 _ _ _ p p'
    exact k1 _ _ _ q q'
  · rintro a a' c ⟨b, p, q⟩ ⟨b', p', q'⟩
    cases k2 _ _ _ q q'
    exact h2 _ _ _ p p'
  · rintro a c ⟨b, p, q⟩
    obtain ⟨n, n', q1, q2, q3⟩ := h4 a b p
    obtain ⟨m, m', p1, p2, p3⟩ := k4 b c q
    rw [q2] at p1; cases p1
    refine ⟨n, m', q1, p2, ?_⟩
    cases q3 with
    | str => cases p3; constructor
    | bytes => cases p3; constructor
    | tuple hx => cases p3 with | tuple hy => exact .tuple (sl (P := RefRel R) (Q := RefRel S) (T := RefRel _) (fun _ _ _ p q => sr p q) hx hy)
    | list hx => cases p3 with | list hy => exact .list (sl (P := RefRel R) (Q := RefRel S) (T := RefRel _) (fun _ _ _ p q => sr p q) hx hy)
    | dict hx => cases p3 with
      | dict hy => exact .dict (sl (fun _ _ _ p q => ⟨sr p.1 q.1, sr p.2 q.2⟩) hx hy)

/-! ## bytes are bytes -/

theorem sizedBytes_byte {c1 c4 c8 : Nat} (h1 : c1 < 256) (h4 : c4 < 256) (h8 : c8 < 256) {e y : Bytes} (he : ∀ x ∈ e, x < 256)
    (h : sizedBytes c1 c4 c8 e = .ok y) : ∀ x ∈ y, x < 256 := by
  unfold sizedBytes at h
  have key : ∀ (c k : Nat), c < 256 → ∀ x ∈ c :: leBytes k e.length ++ e, x < 256 := by
    intro c k hc x hx
    rcases List.mem_append.1 hx with hx | hx
    · rcases List.mem_cons.1 hx with rfl | hx
      · exact hc
      · exact leBytes_byte _ _ x hx
    · exact he x hx
  repeat' split at h
  · cases h; exact key _ _ h1
  · cases h; exact key _ _ h8
  · cases h
  · cases h; exact key _ _ h4

theorem encodeLong_byte (i : Int) : ∀ x ∈ encodeLong i, x < 256 := by
  unfold encodeLong
  split
  · simp
  · simp only
    split
    · intro x hx
      exact leBytes_byte _ _ x ((List.dropLast_sublist _).subset hx)
    · exact leBytes_byte _ _

theorem opBytes_byte {o : POp} (ho : OpOK o ∨ o = .stop ∨ ∃ n, o = .frame n) {y : Bytes} (h : opBytes o = .ok y) : ∀ x ∈ y, x < 256 := by
  have key : ∀ (c k n : Nat), c < 256 → ∀ x ∈ c :: leBytes k n, x < 256 := by
    intro c k n hc x hx
    rcases List.mem_cons.1 hx with rfl | hx
    · exact hc
    · exact leBytes_byte _ _ x hx
  cases o with
  | proto n => rcases ho with h | h | ⟨_, h⟩; exacts [absurd h id, (nomatch h), (nomatch h)]
  | frame n =>
    simp only [opBytes] at h
    split at h
    · cases h; exact key _ _ _ (by decide)
    · cases h
  | int i =>
    simp only [opBytes, intOpBytes] at h
    split at h
    · cases h; exact key _ _ _ (by decide)
    · split at h
      · cases h; exact key _ _ _ (by decide)
      · split at h
        · cases h; exact key _ _ _ (by decide)
        · split at h
          · cases h
            intro x hx
            rcases List.mem_append.1 hx with hx | hx
            · exact key _ _ _ (by decide) x hx
            · exact encodeLong_byte _ x hx
          · split at h
            · cases h
              intro x hx
              rcases List.mem_append.1 hx with hx | hx
              · exact key _ _ _ (by decide) x hx
              · exact encodeLong_byte _ x hx
            · cases h
  | float b =>
    cases h
    intro x hx
    rcases List.mem_cons.1 hx with rfl | hx
    · decide
    · exact leBytes_byte _ _ x (List.mem_reverse.1 hx)
  | str s =>
    have hs : ∀ c ∈ s, c < 0x110000 := by rcases ho with h | h | ⟨_, h⟩; exacts [h, (nomatch h), (nomatch h)]
    refine sizedBytes_byte (by decide) (by decide) (by decide) (fun x hx => ?_) h
    obtain ⟨c, hc, hx⟩ := List.mem_flatMap.1 hx
    exact utf8Char_byte (hs c hc) x hx
  | bytes b =>
    have hs : ∀ c ∈ b, c < 256 := by rcases ho with h | h | ⟨_, h⟩; exacts [h, (nomatch h), (nomatch h)]
    exact sizedBytes_byte (by decide) (by decide) (by decide) hs h
  | tupleN n =>
    have hs : 1 ≤ n ∧ n ≤ 3 := by rcases ho with h | h | ⟨_, h⟩; exacts [h, (nomatch h), (nomatch h)]
    cases h
    intro x hx
    simp at hx
    omega
  | bool b => cases h; cases b <;> simp
  | get i =>
    simp only [opBytes] at h
    split at h
    · cases h; exact key _ _ _ (by decide)
    · split at h
      · cases h; exact key _ _ _ (by decide)
      · cases h
  | _ => cases h; simp

theorem frameOut_byte {cur a : Bytes} (hc : ∀ x ∈ cur, x < 256) (h : frameOut cur = .ok a) : ∀ x ∈ a, x < 256 := by
  unfold frameOut at h
  split at h
  · cases h; exact hc
  · cases hf : opBytes (.frame cur.length) with
    | error e => rw [hf] at h; cases h
    | ok y =>
      rw [hf] at h
      cases h
      intro x hx
      rcases List.mem_append.1 hx with hx | hx
      · exact opBytes_byte (.inr (.inr ⟨_, rfl⟩)) hf x hx
      · exact hc x hx

theorem framer_byte : ∀ (e : List PEv) (cur b : Bytes), (∀ o ∈ opsOf e, OpOK o ∨ o = .stop) → (∀ x ∈ cur, x < 256) →
    framer e cur = .ok b → ∀ x ∈ b, x < 256
  | [], cur, b, _, hc, h => frameOut_byte hc h
  | .check :: e, cur, b, ho, hc, h => by
    simp only [framer] at h
    split at h
    · obtain ⟨a, ha, h⟩ := ok_bind h
      obtain ⟨c, hcc, h⟩ := ok_bind h
      cases h
      intro x hx
      rcases List.mem_append.1 hx with hx | hx
      · exact frameOut_byte hc ha x hx
      · exact framer_byte e [] c (fun o h => ho o h) (by simp) hcc x hx
    · exact framer_byte e cur b (fun o h => ho o h) hc h
  | .op o :: e, cur, b, ho, hc, h => by
    have hoo := ho o (by rw [opsOf_op]; simp)
    have hoe : ∀ p ∈ opsOf e, OpOK p ∨ p = .stop := fun p hp => ho p (by rw [opsOf_op]; simp [hp])
    simp only [framer] at h
    obtain ⟨y, hy, h⟩ := ok_bind h
    have hyb := opBytes_byte (hoo.imp id Or.inl) hy
    split at h
    · obtain ⟨a, ha, h⟩ := ok_bind h
      obtain ⟨c, hcc, h⟩ := ok_bind h
      cases h
      intro x hx
      rcases List.mem_append.1 hx with hx | hx
      · rcases List.mem_append.1 hx with hx | hx
        · exact frameOut_byte hc ha x hx
        · exact hyb x hx
      · exact framer_byte e [] c hoe (by simp) hcc x hx
    · refine framer_byte e _ b hoe (fun x hx => ?_) h
      rcases List.mem_append.1 hx with hx | hx
      · exact hc x hx
      · exact hyb x hx

end Verif.Lemmas.Pickle
