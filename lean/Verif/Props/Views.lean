import Verif.Lemmas.Views
import Verif.Props.Grid
/-!
# C99: the arrays that `gp.get` gives are the blocks themselves
-/
namespace Verif.Props
open Verif Verif.Model Verif.Lemmas Verif.Spec

/-- `gs` are the client objects in use of a GridPaper in the state `st`, after a history of calls which found no block of the
GridPaper and left the memory `s`; there may be `n` more calls -/
def GridReady (E : Env) (c : Codec ArrMeta) (nbytes : Str → List Nat → Nat) (pre : Str) (U : Str → Prop) (noLock : Bool) (n : Nat)
    (s : Store) (gs : List Grid) (st : GridState Arr) : Prop :=
  ∃ (ops : List GridOp) (s0 : Store), (∀ o ∈ ops, GridOpOK E c nbytes pre U noLock o) ∧ 2 * (ops.length + n) + 2 < 256 ^ 5 ∧
    s0.WF ∧ NoGrid s0 pre ∧ (playGrid E c nbytes pre ops [] s0).2.2 = s ∧ (playGrid E c nbytes pre ops [] s0).2.1 = gs ∧
    gridEnd arrSize gridStart (ops.map GridOp.call) = st

section
variable {E : Env} {c : Codec ArrMeta} {nbytes : Str → List Nat → Nat} {pre : Str} {U : Str → Prop} {noLock : Bool} {n : Nat}
  {s : Store} {gs : List Grid} {st : GridState Arr}

theorem GridReady.rep (h : GridReady E c nbytes pre U noLock n s gs st) (hU : KeysOK E pre U) (hok : NamesOK E (indexName pre)) :
    s.WF ∧ ∃ t, GridStRep E c nbytes pre U noLock s gs st t ∧ 2 * (t + n) + 2 < 256 ^ 5 := by
  obtain ⟨ops, s0, hops, hlen, w, hno, rfl, rfl, rfl⟩ := h
  obtain ⟨_, w', h, _⟩ := playGrid_spec (noLock := noLock) hU hok ops hops [] s0 w gridStart 0 ⟨rfl, rfl, hno⟩ (by omega)
  exact ⟨w', _, h, by omega⟩

theorem playGrid_append (ops ops' : List GridOp) (cl : List Grid) (s : Store) :
    (playGrid E c nbytes pre (ops ++ ops') cl s).2 =
      (playGrid E c nbytes pre ops' (playGrid E c nbytes pre ops cl s).2.1 (playGrid E c nbytes pre ops cl s).2.2).2 := by
  induction ops generalizing cl s with
  | nil => rfl
  | cons o t ih => exact ih _ _

theorem gridEnd_append {A : Type} (size : A → Nat) (cs cs' : List (GridCall A)) (st : GridState A) :
    gridEnd size st (cs ++ cs') = gridEnd size (gridEnd size st cs) cs' := by
  induction cs generalizing st with
  | nil => rfl
  | cons o t ih => exact ih _

theorem blockEnd_append {A : Type} (data : A → Bytes) (k : Str) (cs cs' : List (GridCall A)) (st : GridState A) (b : Block) :
    blockEnd data k st b (cs ++ cs') = blockEnd data k (gridEnd (fun a => (data a).length) st cs) (blockEnd data k st b cs) cs' := by
  induction cs generalizing st b with
  | nil => rfl
  | cons o t ih => exact ih _ _

/-- more calls -/
theorem GridReady.more {ops : List GridOp} {n : Nat} (h : GridReady E c nbytes pre U noLock (ops.length + n) s gs st)
    (hops : ∀ o ∈ ops, GridOpOK E c nbytes pre U noLock o) :
    GridReady E c nbytes pre U noLock n (playGrid E c nbytes pre ops gs s).2.2 (playGrid E c nbytes pre ops gs s).2.1
      (gridEnd arrSize st (ops.map GridOp.call)) := by
  obtain ⟨ops0, s0, hops0, hlen, w, hno, rfl, rfl, rfl⟩ := h
  refine ⟨ops0 ++ ops, s0, ?_, by rw [List.length_append]; omega, w, hno, by rw [playGrid_append], by rw [playGrid_append], ?_⟩
  · intro o ho
    rcases List.mem_append.1 ho with h | h
    · exact hops0 o h
    · exact hops o h
  · rw [List.map_append, gridEnd_append]

/-- what has been got, if anything -/
theorem got (h : GridReady E c nbytes pre U noLock n s gs st) (hU : KeysOK E pre U) (hok : NamesOK E (indexName pre)) {g : Grid}
    (hg : g ∈ gs) {key : Key} (hk : key.hashed E = E.utf8 key.text) (hUk : U key.text) {v : View} {s1 : Store}
    (hv : (gridViewD E c nbytes g key).run E s = (.ok (some v), s1)) :
    s1 = s ∧ ∃ m a room rest, st.map = some m ∧ m key.text = some (a, room) ∧ v.dtype = a.dtype ∧ v.shape = a.shape ∧
      nbytes v.dtype v.shape = a.data.length ∧ HoldsBlock pre key.text v.handle ⟨true, a.data ++ rest⟩ s := by
  obtain ⟨w, t, hr, _⟩ := h.rep hU hok
  have h2 := hr.2
  cases hm : st.map with
  | none =>
    rw [hm] at h2
    rw [h2.1] at hg
    cases hg
  | some m =>
    rw [hm] at h2
    obtain ⟨ix, keys, f, fl, hrep, _, hcl⟩ := h2
    cases hmk : m key.text with
    | none =>
      rw [gridViewD, run_bind, run_attempt, run_gridView_absent hU hok hrep (hcl g hg).2.1 hk hUk hmk] at hv
      cases hv
    | some p =>
      obtain ⟨a, room⟩ := p
      obtain ⟨i, rest, e, hh, _⟩ := run_gridView hU hok hrep (hcl g hg).2.1 hk hUk w hmk
      rw [gridViewD, run_bind, run_attempt, e] at hv
      have hv' : v = ⟨i, a.dtype, a.shape⟩ ∧ s1 = s := by
        have h1 := congrArg Prod.fst hv
        have h2 := congrArg Prod.snd hv
        exact ⟨(by cases h1; rfl), h2.symm⟩
      obtain ⟨rfl, rfl⟩ := hv'
      exact ⟨rfl, m, a, room, rest, rfl, hmk, rfl, rfl, hrep.size _ _ _ hmk, hh⟩

end

/-- C99: `gp.get(key)` is the array last stored, as `gp[key]` is, or the default if there is none; it changes nothing. -/
theorem C99_get_now (E : Env) (c : Codec ArrMeta) (nbytes : Str → List Nat → Nat) (pre : Str) (U : Str → Prop)
    (hU : KeysOK E pre U) (hok : NamesOK E (indexName pre)) (noLock : Bool) (s : Store) (gs : List Grid) (st : GridState Arr)
    (h : GridReady E c nbytes pre U noLock 0 s gs st) (g : Grid) (hg : g ∈ gs) (key : Key)
    (hk : key.hashed E = E.utf8 key.text) (hUk : U key.text) :
    ∃ m r, st.map = some m ∧ (gridViewD E c nbytes g key).run E s = (.ok r, s) ∧
      r.map (fun v => v.arr nbytes s) = (m key.text).map (fun p => p.1) := by
  obtain ⟨w, t, hr, _⟩ := h.rep hU hok
  have h2 := hr.2
  cases hm : st.map with
  | none =>
    rw [hm] at h2
    rw [h2.1] at hg
    cases hg
  | some m =>
    rw [hm] at h2
    obtain ⟨ix, keys, f, fl, hrep, _, hcl⟩ := h2
    cases hmk : m key.text with
    | none =>
      refine ⟨m, none, rfl, ?_, by rw [hmk]; rfl⟩
      rw [gridViewD, run_bind, run_attempt, run_gridView_absent hU hok hrep (hcl g hg).2.1 hk hUk hmk]
      rfl
    | some p =>
      obtain ⟨a, room⟩ := p
      obtain ⟨i, rest, e, hh, _⟩ := run_gridView hU hok hrep (hcl g hg).2.1 hk hUk w hmk
      refine ⟨m, some ⟨i, a.dtype, a.shape⟩, rfl, by rw [gridViewD, run_bind, run_attempt, e]; rfl, ?_⟩
      have hb : s.segs i = a.data ++ rest := hh.bytes
      simp only [hmk, Option.map_some, View.arr, hb, hrep.size _ _ _ hmk, List.take_left]

/-- an answer, with what is seen of the array -/
def seen (nbytes : Str → List Nat → Nat) : Outcome View × Store → Outcome Arr × Store
  | (.ok v, s) => (.ok (v.arr nbytes s), s)
  | (.err e, s) => (.err e, s)
  | (.stuck, s) => (.stuck, s)

/-- C99: in any memory whatever, `gp[key]` is a copy of what `gp.__getitem__(key, copy=False)` gives, or raises the same. -/
theorem C99_copy_of_get (E : Env) (c : Codec ArrMeta) (nbytes : Str → List Nat → Nat) (g : Grid) (key : Key) (s : Store) :
    (gridGet E c nbytes g key).run E s = seen nbytes ((gridView E c nbytes g key).run E s) := by
  have h1 : ∀ mj s, (rememberArray nbytes c.decode mj).run E s = seen nbytes ((rememberView nbytes c.decode mj).run E s) := by
    intro mj s
    unfold rememberArray rememberView
    rw [run_bind, run_bind]
    rcases hr : (Prog.ofExcept (c.decode mj)).run E s with ⟨o, s1⟩
    cases o with
    | ok m =>
      rw [andThen_ok, andThen_ok, run_bind, run_bind]
      rcases hr : (attach m.name).run E s1 with ⟨o, s2⟩
      cases o with
      | ok i =>
        rw [andThen_ok, andThen_ok, run_bind, run_bind, run_read, andThen_ok, andThen_ok]
        by_cases hl : (s2.segs i).length < nbytes m.dtype m.shape
        · rw [if_pos hl, if_pos hl]; rfl
        · rw [if_neg hl, if_neg hl]; rfl
      | err e => rfl
      | stuck => rfl
    | err e => rfl
    | stuck => rfl
  unfold gridGet gridView
  rw [run_bind, run_attempt, run_bind, run_bind, run_attempt, run_bind]
  rcases hr : (metaGet E g.index key).run E s with ⟨o, s1⟩
  cases o with
  | ok mj =>
    rw [andThen_ok, andThen_ok, h1]
    rcases hr : (rememberView nbytes c.decode mj).run E s1 with ⟨o, s2⟩
    cases o with
    | ok v => rfl
    | err e => cases e <;> rfl
    | stuck => rfl
  | err e => cases e <;> rfl
  | stuck => rfl

section
variable (E : Env) (c : Codec ArrMeta) (nbytes : Str → List Nat → Nat) (pre : Str) (U : Str → Prop)
    (hU : KeysOK E pre U) (hok : NamesOK E (indexName pre)) (noLock : Bool) (s : Store) (gs : List Grid) (st : GridState Arr)

/-- C99, in full: what `gp.get(key)` has given stays as it was, whatever is done with the GridPaper afterwards. -/
def C99_full : Prop :=
  ∀ (E : Env) (c : Codec ArrMeta) (nbytes : Str → List Nat → Nat) (pre : Str) (U : Str → Prop) (_ : KeysOK E pre U)
    (_ : NamesOK E (indexName pre)) (noLock : Bool) (s : Store) (gs : List Grid) (st : GridState Arr) (ops : List GridOp)
    (_ : GridReady E c nbytes pre U noLock ops.length s gs st) (g : Grid) (_ : g ∈ gs) (key : Key)
    (_ : key.hashed E = E.utf8 key.text) (_ : U key.text) (v : View) (s1 : Store)
    (_ : (gridViewD E c nbytes g key).run E s = (.ok (some v), s1)) (_ : ∀ o ∈ ops, GridOpOK E c nbytes pre U noLock o),
    v.arr nbytes (playGrid E c nbytes pre ops gs s1).2.2 = v.arr nbytes s1

include hU hok

/-- C99: what has been got is the block itself: after any further history of calls, by any clients, it shows what the calls have made
of the block (`blockEnd`): while the key has it, arrays stored under the key are written to its front, whatever their type and shape;
once the key is deleted or the GridPaper closed, it never changes again. -/
theorem C99_get_is_the_block (ops : List GridOp) (h : GridReady E c nbytes pre U noLock ops.length s gs st) (g : Grid) (hg : g ∈ gs)
    (key : Key) (hk : key.hashed E = E.utf8 key.text) (hUk : U key.text) :
    ∀ (v : View) (s1 : Store), (gridViewD E c nbytes g key).run E s = (.ok (some v), s1) →
      ∃ b, b.held = true ∧ v.arr nbytes s1 = ⟨v.dtype, v.shape, b.bytes.take (nbytes v.dtype v.shape)⟩ ∧
      nbytes v.dtype v.shape ≤ b.bytes.length ∧
      ((∀ o ∈ ops, GridOpOK E c nbytes pre U noLock o) → v.arr nbytes (playGrid E c nbytes pre ops gs s1).2.2 =
        ⟨v.dtype, v.shape, (blockEnd (fun a : Arr => a.data) key.text st b (ops.map GridOp.call)).bytes.take (nbytes v.dtype v.shape)⟩) := by
  intro v s1 hv
  obtain ⟨rfl, m, a, room, rest, hm, hmk, h1, h2, h3, hh⟩ := got h hU hok hg hk hUk hv
  obtain ⟨w, t, hr, ht⟩ := h.rep hU hok
  refine ⟨⟨true, a.data ++ rest⟩, rfl, by simp only [View.arr, hh.bytes], by rw [h3, List.length_append]; omega, fun hops => ?_⟩
  have := playGrid_block hU hok hUk ops hops w hr ht hh
  simp only [View.arr, this.bytes]

omit hU hok in
theorem blockEnd_held {A : Type} (data : A → Bytes) (k : Str) (cs : List (GridCall A)) (st : GridState A) (b : Block)
    (hb : b.held = true) (hcs : ∀ x ∈ cs, ¬ x.removes k) : (blockEnd data k st b cs).held = true := by
  induction cs generalizing st b with
  | nil => exact hb
  | cons x t ih =>
    refine ih _ _ ?_ fun y hy => hcs y (List.mem_cons_of_mem _ hy)
    have hx := hcs x List.mem_cons_self
    unfold blockNext
    split
    · cases x <;> simp only <;> first | exact hb | skip
      · split
        · rfl
        · exact hb
      · simp only [GridCall.removes] at hx; rw [if_neg hx]; exact hb
      · exact absurd trivial hx
    · exact hb

omit hU hok in
theorem blockEnd_kept {A : Type} (data : A → Bytes) (k : Str) (cs : List (GridCall A)) (st : GridState A) (b : Block)
    (hcs : b.held = false ∨ ∀ x ∈ cs, ¬ x.stores k) : (blockEnd data k st b cs).bytes = b.bytes := by
  induction cs generalizing st b with
  | nil => rfl
  | cons x t ih =>
    have e : blockNext data k st b x = b ∨ blockNext data k st b x = ⟨false, b.bytes⟩ := by
      unfold blockNext
      split
      · cases x <;> first | exact Or.inl rfl | skip
        · refine Or.inl (if_neg fun hh => ?_)
          rcases hcs with hcs | hcs
          · rw [hcs] at hh; cases hh.2.1
          · exact hcs _ List.mem_cons_self hh.1
        · rename_i k' _
          by_cases hk : k' = k
          · exact Or.inr (if_pos hk)
          · exact Or.inl (if_neg hk)
        · exact Or.inr rfl
      · exact Or.inl rfl
    rcases e with e | e
    · simp only [blockEnd, e]
      refine ih _ _ ?_
      rcases hcs with h | h
      · exact Or.inl h
      · exact Or.inr fun y hy => h y (List.mem_cons_of_mem _ hy)
    · simp only [blockEnd, e]
      exact ih _ _ (Or.inl rfl)

/-- the key's block at the end of a history in which the key was not removed -/
theorem current (ops : List GridOp) (h : GridReady E c nbytes pre U noLock ops.length s gs st) (g : Grid) (hg : g ∈ gs)
    (key : Key) (hk : key.hashed E = E.utf8 key.text) (hUk : U key.text) (v : View) (s1 : Store)
    (hv : (gridViewD E c nbytes g key).run E s = (.ok (some v), s1)) (hops : ∀ o ∈ ops, GridOpOK E c nbytes pre U noLock o)
    (hkeep : ∀ o ∈ ops, ¬ o.call.removes key.text) :
    (playGrid E c nbytes pre ops gs s1).2.2.WF ∧ ∃ m ix keys f fl a room rest, (gridEnd arrSize st (ops.map GridOp.call)).map = some m ∧
      GridRep E c nbytes pre U (playGrid E c nbytes pre ops gs s1).2.2 ix m keys f fl ∧
      (∀ g' ∈ (playGrid E c nbytes pre ops gs s1).2.1, g'.index = ix) ∧
      m key.text = some (a, room) ∧ (playGrid E c nbytes pre ops gs s1).2.2.names (padAddr pre key.text) = some v.handle ∧
      (playGrid E c nbytes pre ops gs s1).2.2.segs v.handle = a.data ++ rest ∧ a.data.length + rest.length = room := by
  obtain ⟨rfl, m, a, room, rest, hm, hmk, h1, h2, h3, hh⟩ := got h hU hok hg hk hUk hv
  obtain ⟨w, t, hr, ht⟩ := h.rep hU hok
  have hb := playGrid_block hU hok hUk ops hops w hr ht hh
  obtain ⟨w2, t2, hr2, _⟩ := (h.more (n := 0) hops).rep hU hok
  have hheld := blockEnd_held (fun a : Arr => a.data) key.text (ops.map GridOp.call) st ⟨true, a.data ++ rest⟩ rfl (by
    intro x hx
    obtain ⟨o, ho, rfl⟩ := List.mem_map.1 hx
    exact hkeep o ho)
  have hn := (hb.name _).2 ⟨hheld, rfl⟩
  have h2' := hr2.2
  refine ⟨w2, ?_⟩
  cases hm2 : (gridEnd arrSize st (ops.map GridOp.call)).map with
  | none =>
    rw [hm2] at h2'
    have := content_none.1 (h2'.2 _ (gridTouch_pad hU hUk))
    rw [hn] at this
    cases this
  | some m2 =>
    rw [hm2] at h2'
    obtain ⟨ix, keys, f, fl, hrep, _, hcl⟩ := h2'
    cases hmk2 : m2 key.text with
    | none =>
      have := content_none.1 (hrep.noval _ (hU.free _ hUk) hmk2)
      rw [hn] at this
      cases this
    | some p =>
      obtain ⟨a2, room2⟩ := p
      obtain ⟨rest2, hc2, hl2⟩ := hrep.val _ _ _ hmk2
      obtain ⟨j, hj, hjs⟩ := names_of_content hc2
      have : j = v.handle := by rw [hn] at hj; cases hj; rfl
      subst this
      exact ⟨m2, ix, keys, f, fl, a2, room2, rest2, rfl, hrep, fun g' hg' => (hcl g' hg').2.1, hmk2, hj, hjs, hl2⟩

/-- C99: as long as the key is not removed, what has been got shows the key's current array: the same number of its bytes; the array
itself if it has the same type and shape. -/
theorem C99_shows_current (ops : List GridOp) (h : GridReady E c nbytes pre U noLock ops.length s gs st) (g : Grid) (hg : g ∈ gs)
    (key : Key) (hk : key.hashed E = E.utf8 key.text) (hUk : U key.text) (v : View) (s1 : Store)
    (hv : (gridViewD E c nbytes g key).run E s = (.ok (some v), s1)) (hops : ∀ o ∈ ops, GridOpOK E c nbytes pre U noLock o)
    (hkeep : ∀ o ∈ ops, ¬ o.call.removes key.text) :
    ∃ m a room, (gridEnd arrSize st (ops.map GridOp.call)).map = some m ∧ m key.text = some (a, room) ∧
      (nbytes v.dtype v.shape ≤ a.data.length → (v.arr nbytes (playGrid E c nbytes pre ops gs s1).2.2).data = a.data.take (nbytes v.dtype v.shape)) ∧
      (v.dtype = a.dtype → v.shape = a.shape → v.arr nbytes (playGrid E c nbytes pre ops gs s1).2.2 = a) := by
  obtain ⟨_, m, ix, keys, f, fl, a, room, rest, hm, hrep, _, hmk, hn, hs, hl⟩ :=
    current E c nbytes pre U hU hok noLock s gs st ops h g hg key hk hUk v s1 hv hops hkeep
  refine ⟨m, a, room, hm, hmk, fun hle => ?_, fun h1 h2 => ?_⟩
  · simp only [View.arr, hs]
    rw [List.take_append_of_le_length hle]
  · simp only [View.arr, hs, h1, h2, hrep.size _ _ _ hmk, List.take_left]

/-- C99: writing into what has been got, while the key is not removed, changes the key's array for every client, and no other key. -/
theorem C99_write_reaches_all (ops : List GridOp) (h : GridReady E c nbytes pre U noLock ops.length s gs st) (g : Grid) (hg : g ∈ gs)
    (key : Key) (hk : key.hashed E = E.utf8 key.text) (hUk : U key.text) (v : View) (s1 : Store)
    (hv : (gridViewD E c nbytes g key).run E s = (.ok (some v), s1)) (hops : ∀ o ∈ ops, GridOpOK E c nbytes pre U noLock o)
    (hkeep : ∀ o ∈ ops, ¬ o.call.removes key.text) (data : Bytes) :
    ∃ m a room s', (gridEnd arrSize st (ops.map GridOp.call)).map = some m ∧ m key.text = some (a, room) ∧
      (v.write data).run E (playGrid E c nbytes pre ops gs s1).2.2 = (.ok (), s') ∧
      (data.length = a.data.length → ∀ g' ∈ (playGrid E c nbytes pre ops gs s1).2.1, ∀ key' : Key,
        key'.hashed E = E.utf8 key'.text → U key'.text → (gridGet E c nbytes g' key').run E s' =
          (if key'.text = key.text then .ok ⟨a.dtype, a.shape, data⟩
            else match m key'.text with | some (a', _) => .ok a' | none => .err .keyError, s')) := by
  obtain ⟨w, m, ix, keys, f, fl, a, room, rest, hm, hrep, hcl, hmk, hn, hs, hl⟩ :=
    current E c nbytes pre U hU hok noLock s gs st ops h g hg key hk hUk v s1 hv hops hkeep
  refine ⟨m, a, room, _, hm, hmk, run_writeFront _ _ _, fun hd g' hg' key' hk' hUk' => ?_⟩
  have e := eff_wrote w hn (data ++ ((playGrid E c nbytes pre ops gs s1).2.2.segs v.handle).drop data.length)
  rw [hs, hd, List.drop_left] at e
  have hrep' := hrep.poke hU hUk hmk hd (by omega) e
  rw [hs, hd, List.drop_left, run_gridGet hU hok hrep' (hcl g' hg') hk' hUk']
  by_cases hkk : key'.text = key.text
  · simp [upd, hkk]
  · simp only [upd, hkk, if_false]; cases m key'.text <;> rfl

/-- C99: once the key has been deleted, or the GridPaper closed, by any client, what has been got never changes again, whatever is
stored under the key; and writing into it changes no block that has a name. -/
theorem C99_frozen_when_removed (ops ops' : List GridOp) (x : GridOp) 
    (h : GridReady E c nbytes pre U noLock (ops ++ x :: ops').length s gs st) (g : Grid) (hg : g ∈ gs)
    (key : Key) (hk : key.hashed E = E.utf8 key.text) (hUk : U key.text) (v : View) (s1 : Store)
    (hv : (gridViewD E c nbytes g key).run E s = (.ok (some v), s1))
    (hops : ∀ o ∈ ops ++ x :: ops', GridOpOK E c nbytes pre U noLock o) (hx : x.call.removes key.text)
    (hcl : (gridEnd arrSize st (ops.map GridOp.call)).has x.call = true) :
    v.arr nbytes (playGrid E c nbytes pre (ops ++ x :: ops') gs s1).2.2 = v.arr nbytes (playGrid E c nbytes pre ops gs s1).2.2 ∧
    ∀ data, ∃ s', (v.write data).run E (playGrid E c nbytes pre (ops ++ x :: ops') gs s1).2.2 = (.ok (), s') ∧
      s'.names = (playGrid E c nbytes pre (ops ++ x :: ops') gs s1).2.2.names ∧
      s'.content = (playGrid E c nbytes pre (ops ++ x :: ops') gs s1).2.2.content := by
  obtain ⟨rfl, m, a, room, rest, hm, hmk, h1, h2, h3, hh⟩ := got h hU hok hg hk hUk hv
  obtain ⟨w, t, hr, ht⟩ := h.rep hU hok
  have hb := playGrid_block hU hok hUk (ops ++ x :: ops') hops w hr ht hh
  rw [List.length_append] at ht
  have hb1 := playGrid_block hU hok hUk ops (fun o ho => hops o (List.mem_append_left _ ho)) w hr (by omega) hh
  have e1 : ∀ b, blockNext (fun a : Arr => a.data) key.text (gridEnd arrSize st (ops.map GridOp.call)) b x.call = ⟨false, b.bytes⟩ := by
    intro b
    unfold blockNext
    rw [if_pos hcl]
    cases x <;> simp only [GridOp.call, GridCall.removes] at hx ⊢
    rw [if_pos hx]
  have key2 : ∀ st' (b : Block) (cs : List (GridCall Arr)), b.held = false → blockEnd (fun a : Arr => a.data) key.text st' b cs = ⟨false, b.bytes⟩ := by
    intro st' b cs hb
    have h1 := blockEnd_kept (fun a : Arr => a.data) key.text cs st' b (Or.inl hb)
    have h2 : (blockEnd (fun a : Arr => a.data) key.text st' b cs).held = false := by
      clear h1
      induction cs generalizing st' b with
      | nil => exact hb
      | cons y t ih =>
        refine ih _ _ ?_
        unfold blockNext
        split
        · cases y <;> simp only <;> first | exact hb | skip
          · rw [if_neg (by rw [hb]; simp)]; exact hb
          · split
            · rfl
            · exact hb
        · exact hb
    cases hbb : blockEnd (fun a : Arr => a.data) key.text st' b cs
    rw [hbb] at h1 h2
    simp only at h1 h2
    rw [h1, h2]
  rw [List.map_append, blockEnd_append] at hb
  simp only [List.map_cons, blockEnd] at hb
  rw [show gridEnd (fun a : Arr => a.data.length) st (ops.map GridOp.call) = gridEnd arrSize st (ops.map GridOp.call) from rfl, e1,
    key2 _ _ _ rfl] at hb
  refine ⟨by simp only [View.arr, hb.bytes, hb1.bytes], fun data => ⟨_, run_writeFront _ _ _, rfl, ?_⟩⟩
  funext y
  simp only [Store.content, Store.wrote]
  cases hy : (playGrid E c nbytes pre (ops ++ x :: ops') gs s1).2.2.names y with
  | none => simp
  | some i =>
    have hne : i ≠ v.handle := by
      rintro rfl
      have := (hb.name y).1 hy
      cases this.1
    simp [hne]

/-- C99, the part that holds: what has been got stays as it was as long as nothing is stored under the key, whatever else is done: other
keys stored and deleted, the key itself deleted, the GridPaper closed and made anew. -/
theorem C99_stays_partial (ops : List GridOp) (h : GridReady E c nbytes pre U noLock ops.length s gs st) (g : Grid) (hg : g ∈ gs)
    (key : Key) (hk : key.hashed E = E.utf8 key.text) (hUk : U key.text) (v : View) (s1 : Store)
    (hv : (gridViewD E c nbytes g key).run E s = (.ok (some v), s1)) (hops : ∀ o ∈ ops, GridOpOK E c nbytes pre U noLock o)
    (hset : ∀ o ∈ ops, ¬ o.call.stores key.text) :
    v.arr nbytes (playGrid E c nbytes pre ops gs s1).2.2 = v.arr nbytes s1 := by
  obtain ⟨rfl, m, a, room, rest, hm, hmk, h1, h2, h3, hh⟩ := got h hU hok hg hk hUk hv
  obtain ⟨w, t, hr, ht⟩ := h.rep hU hok
  have hb := playGrid_block hU hok hUk ops hops w hr ht hh
  have := blockEnd_kept (fun a : Arr => a.data) key.text (ops.map GridOp.call) st ⟨true, a.data ++ rest⟩ (Or.inr (by
    intro x hx
    obtain ⟨o, ho, rfl⟩ := List.mem_map.1 hx
    exact hset o ho))
  simp only [View.arr, hb.bytes, this, hh.bytes]

end

/-! ## Two clients without locks: `a` is 2 by 2, `b` a row of three -/

theorem two_ready (n : Nat) (hn : n < 1000) : GridReady labEnv metaCodec u1Bytes np labKeys true n twoFreeStore [gridOne, gridOne] ⟨2, some twoArrays⟩ :=
  ⟨twoGridsFree, Store.empty, twoGridsFree_ok, by
    have : twoGridsFree.length = 4 := rfl
    have : (256 : Nat) ^ 5 > 10000 := by decide
    omega, wf_empty, fun _ _ => rfl, rfl, rfl, rfl⟩

/-- what `gp.get("a")` gives -/
def viewA : View := ⟨1, u1, [2, 2]⟩

theorem viewA_got : ∃ s1, (gridViewD labEnv metaCodec u1Bytes gridOne kA).run labEnv twoFreeStore = (.ok (some viewA), s1) ∧ s1 = twoFreeStore := by
  obtain ⟨m, r, hm, e, hr⟩ := C99_get_now labEnv metaCodec u1Bytes np labKeys (labKeysOK np) (labIndexOK np) true _ _ _ (two_ready 0 (by decide))
    gridOne (by simp) kA (labKey_lab kA (by simp)).1 (labKey_lab kA (by simp)).2
  have h1 : ((gridViewD labEnv metaCodec u1Bytes gridOne kA).run labEnv twoFreeStore).1 = .ok (some viewA) := rfl
  refine ⟨_, ?_, rfl⟩
  rw [e] at h1 ⊢
  exact Prod.ext h1 rfl

example : seen u1Bytes ((gridView labEnv metaCodec u1Bytes gridOne kA).run labEnv twoFreeStore) = (.ok sq, twoFreeStore) := by
  rw [← C99_copy_of_get]
  obtain ⟨_, ix, keys, f, fl, hrep, _, hcl⟩ := two_gridInUseFree.rep (labKeysOK np) (labIndexOK np)
  exact run_gridGet (labKeysOK np) (labIndexOK np) hrep (hcl gridOne (by simp)).2.1 (labKey_lab kA (by simp)).1 (labKey_lab kA (by simp)).2

/-- another 2 by 2 array -/
def sq' : Arr := ⟨u1, [2, 2], [9, 8, 7, 6]⟩

theorem hA : kA.hashed labEnv = labEnv.utf8 kA.text ∧ labKeys kA.text := labKey_lab kA (by simp)
theorem hB : kB.hashed labEnv = labEnv.utf8 kB.text ∧ labKeys kB.text := labKey_lab kB (by simp)

theorem set_ok (n : Nat) (k : Key) (hk : k.hashed labEnv = labEnv.utf8 k.text ∧ labKeys k.text) (a : Arr) (h1 : a.shape ≠ []) (h2 : a.data ≠ [])
    (h3 : u1Bytes a.dtype a.shape = a.data.length) : GridOpOK labEnv metaCodec u1Bytes np labKeys true (.set n k a) :=
  ⟨hk.1, hk.2, labArr _ _ _ h1 h2 h3⟩

/-- the other client stores another array under `a`, and one under `b` -/
def moreA : List GridOp := [.set 1 kA sq', .set 0 kB row3]

theorem moreA_ok : ∀ o ∈ moreA, GridOpOK labEnv metaCodec u1Bytes np labKeys true o := by
  intro o ho
  simp only [moreA, List.mem_cons, List.not_mem_nil, or_false] at ho
  rcases ho with rfl | rfl
  · exact set_ok 1 kA hA sq' (by simp [sq']) (by simp [sq']) rfl
  · exact set_ok 0 kB hB row3 (by simp [row3]) (by simp [row3]) rfl

theorem moreA_keeps : ∀ o ∈ moreA, ¬ o.call.removes kA.text := by
  intro o ho
  simp only [moreA, List.mem_cons, List.not_mem_nil, or_false] at ho
  rcases ho with rfl | rfl <;> exact id

/-- what was got as `sq` now is the other client's array -/
theorem moreA_shows : viewA.arr u1Bytes twoFreeStore = sq ∧
    viewA.arr u1Bytes (playGrid labEnv metaCodec u1Bytes np moreA [gridOne, gridOne] twoFreeStore).2.2 = sq' := by
  obtain ⟨s1, hv, rfl⟩ := viewA_got
  obtain ⟨m, a, room, hm, hmk, _, h⟩ := C99_shows_current labEnv metaCodec u1Bytes np labKeys (labKeysOK np) (labIndexOK np) true _ _ _ moreA
    (two_ready _ (by decide)) gridOne (by simp) kA hA.1 hA.2 viewA _ hv moreA_ok moreA_keeps
  have hm' : m = upd (upd twoArrays kA.text (some (sq', 4))) kB.text (some (row3, 3)) := (Option.some.inj hm).symm
  subst hm'
  have ha : a = sq' := by
    have h1 : upd (upd twoArrays kA.text (some (sq', 4))) kB.text (some (row3, 3)) kA.text = some (sq', 4) := rfl
    rw [h1] at hmk
    cases hmk
    rfl
  subst ha
  exact ⟨rfl, h rfl rfl⟩

/-- C99 is false of the code -/
theorem C99_full_false : ¬ C99_full := by
  intro h
  obtain ⟨s1, hv, rfl⟩ := viewA_got
  have h1 := h labEnv metaCodec u1Bytes np labKeys (labKeysOK np) (labIndexOK np) true _ _ _ moreA (two_ready _ (by decide)) gridOne (by simp)
    kA hA.1 hA.2 viewA _ hv moreA_ok
  rw [moreA_shows.1, moreA_shows.2] at h1
  exact absurd (congrArg Arr.data h1) (by decide)

/-- a row of three stored where the 2 by 2 array was: the array got before shows its bytes, and one old byte -/
example : viewA.arr u1Bytes (playGrid labEnv metaCodec u1Bytes np [.set 1 kA row3] [gridOne, gridOne] twoFreeStore).2.2 =
    ⟨u1, [2, 2], [7, 8, 9, 4]⟩ := by
  obtain ⟨s1, hv, rfl⟩ := viewA_got
  obtain ⟨b, hb, h1, hl, h2⟩ := C99_get_is_the_block labEnv metaCodec u1Bytes np labKeys (labKeysOK np) (labIndexOK np) true _ _ _
    [.set 1 kA row3] (two_ready _ (by decide)) gridOne (by simp) kA hA.1 hA.2 viewA _ hv
  rw [h2 (by
    intro o ho
    simp only [List.mem_singleton] at ho
    subst ho
    exact set_ok 1 kA hA row3 (by simp [row3]) (by simp [row3]) rfl)]
  have hs : b.bytes.take 4 = [1, 2, 3, 4] := (congrArg Arr.data (moreA_shows.1.symm.trans h1)).symm
  obtain ⟨held, bytes⟩ := b
  simp only at hb hs hl
  subst hb
  have hl' : 4 ≤ bytes.length := hl
  have e : blockEnd (fun a : Arr => a.data) kA.text ⟨2, some twoArrays⟩ ⟨true, bytes⟩ ([GridOp.set 1 kA row3].map GridOp.call) =
      ⟨true, [7, 8, 9] ++ bytes.drop 3⟩ := by
    simp only [List.map_cons, List.map_nil, blockEnd, blockNext, GridOp.call]
    rw [if_pos (show GridState.has (⟨2, some twoArrays⟩ : GridState Arr) (.set 1 kA.text row3) = true from rfl),
      if_pos ⟨trivial, trivial, by show 3 ≤ bytes.length; omega⟩]
    rfl
  rw [e]
  match bytes, hs with
  | x0 :: x1 :: x2 :: x3 :: r, hs =>
    have : x3 = 4 := Option.some.inj (congrArg (fun l : Bytes => l[3]?) hs)
    subst this
    rfl

/-- writing into it reaches both clients -/
example : ∃ s', (viewA.write [0, 0, 5, 5]).run labEnv (playGrid labEnv metaCodec u1Bytes np moreA [gridOne, gridOne] twoFreeStore).2.2 = (.ok (), s') ∧
    (gridGet labEnv metaCodec u1Bytes gridOne kA).run labEnv s' = (.ok ⟨u1, [2, 2], [0, 0, 5, 5]⟩, s') ∧
    (gridGet labEnv metaCodec u1Bytes gridOne kB).run labEnv s' = (.ok row3, s') := by
  obtain ⟨s1, hv, rfl⟩ := viewA_got
  obtain ⟨m, a, room, s', hm, hmk, e, h⟩ := C99_write_reaches_all labEnv metaCodec u1Bytes np labKeys (labKeysOK np) (labIndexOK np) true _ _ _ moreA
    (two_ready _ (by decide)) gridOne (by simp) kA hA.1 hA.2 viewA _ hv moreA_ok moreA_keeps [0, 0, 5, 5]
  have hm' : m = upd (upd twoArrays kA.text (some (sq', 4))) kB.text (some (row3, 3)) := (Option.some.inj hm).symm
  subst hm'
  have ha : a = sq' := by
    have h1 : upd (upd twoArrays kA.text (some (sq', 4))) kB.text (some (row3, 3)) kA.text = some (sq', 4) := rfl
    rw [h1] at hmk
    cases hmk
    rfl
  subst ha
  have hg : (playGrid labEnv metaCodec u1Bytes np moreA [gridOne, gridOne] twoFreeStore).2.1 = [gridOne, gridOne] := rfl
  rw [hg] at h
  exact ⟨s', e, h rfl gridOne (by simp) kA hA.1 hA.2, h rfl gridOne (by simp) kB hB.1 hB.2⟩

/-- `a` is deleted and stored anew: what was got before stays -/
example : viewA.arr u1Bytes (playGrid labEnv metaCodec u1Bytes np ([] ++ .del 1 kA :: [.set 1 kA sq']) [gridOne, gridOne] twoFreeStore).2.2 = sq := by
  obtain ⟨s1, hv, rfl⟩ := viewA_got
  obtain ⟨h, _⟩ := C99_frozen_when_removed labEnv metaCodec u1Bytes np labKeys (labKeysOK np) (labIndexOK np) true _ _ _ [] [.set 1 kA sq'] (.del 1 kA)
    (two_ready _ (by decide)) gridOne (by simp) kA hA.1 hA.2 viewA _ hv (by
      intro o ho
      simp only [List.nil_append, List.mem_cons, List.not_mem_nil, or_false] at ho
      rcases ho with rfl | rfl
      · exact ⟨rfl, hA.1, hA.2⟩
      · exact set_ok 1 kA hA sq' (by simp [sq']) (by simp [sq']) rfl) rfl rfl
  rw [h]
  exact moreA_shows.1

/-- the GridPaper is closed, and another made -/
example : viewA.arr u1Bytes (playGrid labEnv metaCodec u1Bytes np [.set 0 kB row3, .close 1, .create .fake, .set 0 kB row5] [gridOne, gridOne] twoFreeStore).2.2 = sq := by
  obtain ⟨s1, hv, rfl⟩ := viewA_got
  rw [C99_stays_partial labEnv metaCodec u1Bytes np labKeys (labKeysOK np) (labIndexOK np) true _ _ _ _ (two_ready _ (by decide)) gridOne (by simp)
    kA hA.1 hA.2 viewA _ hv ?_ ?_]
  · exact moreA_shows.1
  · intro o ho
    simp only [List.mem_cons, List.not_mem_nil, or_false] at ho
    rcases ho with rfl | rfl | rfl | rfl
    · exact set_ok 0 kB hB row3 (by simp [row3]) (by simp [row3]) rfl
    · exact rfl
    · exact ⟨trivial, fun _ => rfl⟩
    · exact set_ok 0 kB hB row5 (by simp [row5]) (by simp [row5]) rfl
  · intro o ho
    simp only [List.mem_cons, List.not_mem_nil, or_false] at ho
    rcases ho with rfl | rfl | rfl | rfl <;> simp [GridOp.call, GridCall.stores, kA, kB, Key.text]

end Verif.Props
