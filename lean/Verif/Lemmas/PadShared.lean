import Verif.Lemmas.Cells
/-!
# Notepads whose keys are shared
-/
namespace Verif.Lemmas
open Verif Verif.Model Verif.Spec
variable {α β V ρ : Type} {E : Env} {S : Str → Prop} {Ok : Bytes → Bytes → Prop} {W : Meant} {K : Knows} {c : Codec V}
  {isNone : V → Bool} {p : Pad} {U : Str → Prop}

def anyOut : Meant → Except PyErr α → Knows → Prop := fun _ _ _ => True

theorem obeys_then {p : Prog α} {f : α → Prog β} (h : Obeys E S Ok anyOut p W K)
    (hf : ∀ a W' K', W.le W' → (∀ i x b, K i x b → K' i x b) → Obeys E S Ok anyOut (f a) W' K') :
    Obeys E S Ok anyOut (p >>= f) W K :=
  obeys_bind h (fun a W' K' hW hK _ => hf a W' K' hW hK) fun _ _ _ _ _ => trivial

theorem obeys_try {p : Prog α} {f : Except PyErr α → Prog β} (h : Obeys E S Ok anyOut p W K)
    (hf : ∀ a W' K', W.le W' → (∀ i x b, K i x b → K' i x b) → Obeys E S Ok anyOut (f a) W' K') :
    Obeys E S Ok anyOut (p.attempt >>= f) W K :=
  obeys_then (obeys_attempt h fun _ _ _ _ => trivial) hf

theorem obeys_ofExcept {r : Except PyErr α} : Obeys E S Ok anyOut (Prog.ofExcept r) W K := by cases r <;> trivial

theorem obeys_attach {a : Str} : Obeys E S Ok anyOut (attach a) W K := by
  intro W' b _ r _ _
  cases r <;> trivial

theorem obeys_unlink {a : Str} : Obeys E S Ok anyOut (unlink a) W K := by
  intro r
  cases r <;> trivial

theorem obeys_existsBlock {a : Str} : Obeys E S Ok anyOut (existsBlock a) W K := by
  unfold existsBlock
  refine obeys_try obeys_attach fun r W' K' _ _ => ?_
  rcases r with e | j
  · cases e <;> trivial
  · trivial

theorem obeys_deleteBlock {a : Str} {mk : Bool} : Obeys E S Ok anyOut (deleteBlock a mk) W K := by
  unfold deleteBlock
  refine obeys_try (obeys_then obeys_attach fun _ _ _ _ _ => obeys_unlink) fun r W' K' _ _ => ?_
  rcases r with e | j
  · cases e <;> first
      | trivial
      | (simp only; split <;> trivial)
  · trivial

/-- it ends with a handle meant for `b` -/
def handleFor (a : Str) (b : Bytes) : Meant → Except PyErr Nat → Knows → Prop := fun _ r K => ∀ j, r = .ok j → K j a b

theorem obeys_create {a : Str} {b : Bytes} (ha : W a b) (hz : Ok b (List.replicate b.length 0)) :
    Obeys E S Ok (handleFor a b) (create a b.length) W K :=
  ⟨b, Or.inr ⟨ha, hz⟩, fun r => by cases r with
    | ok j => exact fun j' hj => Or.inr ⟨hj, rfl, rfl⟩
    | error e => exact fun j' hj => by cases hj⟩

theorem obeys_openBlock {a : Str} {b : Bytes} (ha : W a b) (hz : Ok b (List.replicate b.length 0)) :
    Obeys E S Ok (handleFor a b) (openBlock a b.length true true) W K := by
  unfold openBlock
  refine obeys_bind (Q1 := fun _ r K' => ∀ j, r = .ok (.ok j) → K' j a b)
    (obeys_attempt (obeys_create (E := E) (S := S) (K := K) ha hz) fun r W' K' hq j hj => ?_) ?_ ?_
  · injection hj with hj
    exact hq j hj
  · intro r W' K' hW hK hq
    rcases r with e | j
    · have nope : ∀ e : PyErr, Obeys E S Ok (handleFor a b) (Prog.raise e) W' K' := fun e j hj => by cases hj
      cases e <;> first
        | exact nope _
        | skip
      simp only [Bool.true_eq_false, if_false]
      refine obeys_bind (Q1 := anyOut) obeys_attach (fun _ W1 K1 hW1 _ _ => obeys_bind (Q1 := anyOut) obeys_unlink
        (fun _ W2 K2 hW2 _ _ => obeys_create (hW2 _ _ (hW1 _ _ (hW _ _ ha))) hz) ?_) ?_
      · intro e W' K' _ _ j hj; cases hj
      · intro e W' K' _ _ j hj; cases hj
    · intro j' hj'
      cases hj'
      exact hq j rfl
  · intro e W' K' _ _ j hj; cases hj

/-- what may be seen includes nothing and all -/
structure Seen (Ok : Bytes → Bytes → Prop) : Prop where
  none : ∀ b, Ok b (List.replicate b.length 0)
  all : ∀ b, Ok b b

theorem obeys_memorize (hO : Seen Ok) {v : V} {a : Str} {eo : Bool} (ha : ∀ b, c.encode v = .ok b → W a b) :
    Obeys E S Ok anyOut (memorize c v a eo) W K := by
  have tail : ∀ (W' : Meant) (K' : Knows), W.le W' → Obeys E S Ok anyOut (do
      let encoded ← Prog.ofExcept (c.encode v)
      let block ← openBlock a encoded.length true true
      write block encoded
      pure a) W' K' := by
    intro W' K' hW
    cases he : c.encode v with
    | error e => trivial
    | ok b =>
      show Obeys E S Ok anyOut (openBlock a b.length true true >>= fun block => write block b >>= fun _ => pure a) W' K'
      refine obeys_bind (obeys_openBlock (hW _ _ (ha b he)) (hO.none b)) (fun h W2 K2 _ _ hh => ?_) fun _ _ _ _ _ => trivial
      exact ⟨⟨a, b, hh h rfl, Or.inr (hO.all b)⟩, trivial, trivial⟩
  unfold memorize
  simp only
  split
  · refine obeys_then obeys_existsBlock fun b W1 K1 hW _ => ?_
    cases b
    · exact tail _ _ hW
    · trivial
  · exact tail _ _ (Meant.le_refl W)

/-- what a call means to put where -/
def Puts (c : Codec V) (pre : Str) : PadCall V → Meant
  | .set k v _ => fun x b => x = padAddr pre k.text ∧ c.encode v = .ok b
  | _ => fun _ _ => False

/-- the outcome of a call, when `W` has been put -/
def OutOK (c : Codec V) (isNone : V → Bool) (Ok : Bytes → Bytes → Prop) (pre : Str) (W : Meant) :
    PadCall V → Except PyErr (PadOut V) → Prop
  | .get k, out => ReadFrom c isNone Ok (W (padAddr pre k.text)) out
  | _, _ => True

theorem OutOK.grow {Ok : Bytes → Bytes → Prop} {pre : Str} {W W' : Meant} (hW : W.le W') {o : PadCall V}
    {out : Except PyErr (PadOut V)} (h : OutOK c isNone Ok pre W o out) : OutOK c isNone Ok pre W' o out := by
  cases o with
  | get k =>
    rcases h with h | ⟨b, d, h1, h2⟩
    · exact Or.inl h
    · exact Or.inr ⟨b, d, hW _ _ h1, h2⟩
  | _ => trivial

/-- the handle of the index block is known to be one where anything goes -/
def MemKnown (S : Str → Prop) (p : Pad) (K : Knows) : Prop := ∀ ix, p.index = .tag ix → ∃ x b, S x ∧ K ix.memory x b

theorem MemKnown.mono {K K' : Knows} (h : MemKnown S p K) (hK : ∀ i x b, K i x b → K' i x b) : MemKnown S p K' := by
  intro ix hix
  obtain ⟨x, b, h1, h2⟩ := h ix hix
  exact ⟨x, b, h1, hK _ _ _ h2⟩

theorem obeys_keeps {Q : Meant → Except PyErr α → Knows → Prop} {q : Prog α} (h : Obeys E S Ok Q q W K) (hm : MemKnown S p K) :
    Obeys E S Ok (fun W r K => Q W r K ∧ MemKnown S p K) q W K := by
  induction q generalizing W K with
  | ret a => exact ⟨h, hm⟩
  | raise e => exact ⟨h, hm⟩
  | stuck => trivial
  | op o k ih =>
    cases o with
    | create n z => exact ⟨h.choose, h.choose_spec.1, fun r => ih r (h.choose_spec.2 r) (hm.mono fun _ _ _ h => Or.inl h)⟩
    | attach n => exact fun W' b hW r h1 h2 => ih r (h W' b hW r h1 h2) (hm.mono fun _ _ _ h => Or.inl h)
    | unlink n => exact fun r => ih r (h r) hm
    | read n => exact fun d hd => ih _ (h d hd) hm
    | write n b => exact ⟨h.1, ih _ h.2.1 hm, ih _ h.2.2 hm⟩
    | writeFront n b => exact ⟨h.1, ih _ h.2 hm⟩

theorem obeys_index {D : Str → Prop} (hD : ∀ x, D x → S x) {q : Prog α} (h : Uses D anyEnd q (memHandle p)) (hm : MemKnown S p K) :
    Obeys E S Ok anyOut q W K :=
  obeys_of_uses hD h (by
    rintro j ⟨ix, hix, rfl⟩
    obtain ⟨x, b, h1, h2⟩ := hm ix hix
    exact ⟨x, b, h1, h2⟩)

theorem obeys_call (hO : Seen Ok) (hU : OwnOK E p.pre U) (hn : ∀ ix, p.index = .tag ix → ix.name = indexName p.pre)
    (hm : MemKnown (fun x => ¬ ownBlocks p.pre U x) p K) (o : PadCall V) (ho : o.On U) (hW : (Puts c p.pre o).le W) :
    Obeys E (fun x => ¬ ownBlocks p.pre U x) Ok (fun W r _ => OutOK c isNone Ok p.pre W o r) (o.run E c isNone p) W K := by
  have slots : ∀ sl : Slot, (fun x => ¬ ownBlocks p.pre U x) (sl.addr (indexName p.pre)) := slots_off hU
  cases o with
  | get k =>
    refine obeys_bind (Q1 := fun W r _ => ReadFrom c isNone Ok (W (padAddr p.pre k.text)) (r.map .val)) ?_
      (fun v W' K' _ _ h => h) fun e W' K' _ h => h
    unfold padGet remember fetchBlockBytes
    refine obeys_bind (Q1 := fun W (r : Except PyErr V) _ => r = .error .fileNotFound ∨
      ∃ b d, W (padAddr p.pre k.text) b ∧ Ok b d ∧ r = c.decode d) ?_ ?_ ?_
    · refine obeys_bind (Q1 := fun W (r : Except PyErr Bytes) _ => r = .error .fileNotFound ∨
        ∃ b d, W (padAddr p.pre k.text) b ∧ Ok b d ∧ r = .ok d) ?_ ?_ ?_
      · intro W' b hW' r h1 h2
        rcases r with e | j
        · refine Or.inl ?_
          rcases h2 e rfl with h2 | h2
          · rw [h2]
          · rw [hU.ok _ ho] at h2; cases h2
        · intro d hd
          refine Or.inr ⟨b, d, ?_, ?_, rfl⟩
          · rcases h1 j rfl with h1 | h1
            · exact absurd ⟨_, ho, rfl⟩ h1
            · exact h1
          · rcases hd _ _ (Or.inr ⟨rfl, rfl, rfl⟩) with h3 | h3
            · exact absurd ⟨_, ho, rfl⟩ h3
            · exact h3
      · rintro d W' K' _ _ (h | ⟨b, d', h1, h2, h3⟩)
        · cases h
        · injection h3 with h3
          subst h3
          cases hd : c.decode d with
          | error e => exact Or.inr ⟨b, d, h1, h2, hd.symm⟩
          | ok v => exact Or.inr ⟨b, d, h1, h2, hd.symm⟩
      · rintro e W' K' _ (h | ⟨b, d', h1, h2, h3⟩)
        · exact Or.inl (by injection h with h; rw [h])
        · cases h3
    · rintro v W' K' _ _ (h | ⟨b, d, h1, h2, h3⟩)
      · cases h
      · by_cases hv : isNone v = true
        · rw [if_pos hv]
          exact Or.inr ⟨b, d, h1, h2, by rw [← h3]; simp [getOut, hv, Except.map]⟩
        · rw [if_neg hv]
          exact Or.inr ⟨b, d, h1, h2, by rw [← h3]; simp [getOut, hv, Except.map]⟩
    · rintro e W' K' _ (h | ⟨b, d, h1, h2, h3⟩)
      · exact Or.inl (by injection h with h; rw [h]; rfl)
      · exact Or.inr ⟨b, d, h1, h2, by rw [← h3]; rfl⟩
  | set k v eo =>
    refine obeys_then ?_ fun _ _ _ _ _ => trivial
    unfold padSet
    split
    · trivial
    · refine obeys_try (obeys_then ?_ fun _ W1 K1 h1 _ => obeys_then (obeys_memorize hO fun b hb => h1 _ _ (hW _ _ ⟨rfl, hb⟩))
        fun _ _ _ _ _ => trivial) fun r W1 K1 _ _ => ?_
      · unfold padIndexAdd
        cases hp : p.index with
        | fake => trivial
        | tag ix =>
          simp only [Bool.false_eq_true, if_false]
          exact obeys_then (obeys_index (fun _ h => h) (uses_indexAdd slots (hn ix hp) ⟨ix, hp, rfl⟩ _ _ _) hm) fun _ _ _ _ _ => trivial
      · rcases r with e | u
        · cases e <;> trivial
        · trivial
  | del k =>
    refine obeys_then ?_ fun _ _ _ _ _ => trivial
    unfold padDel
    split
    · trivial
    · refine obeys_try (obeys_then obeys_deleteBlock fun _ W1 K1 _ hK => ?_) fun r W1 K1 _ _ => ?_
      · unfold padIndexDel
        cases hp : p.index with
        | fake => trivial
        | tag ix =>
          exact obeys_then (obeys_index (fun _ h => h) (uses_indexDel slots (hn ix hp) ⟨ix, hp, rfl⟩ _ _) (hm.mono hK)) fun _ _ _ _ _ => trivial
      · rcases r with e | u
        · cases e <;> trivial
        · trivial
  | keys =>
    refine obeys_then ?_ fun _ _ _ _ _ => trivial
    unfold padKeys
    cases hp : p.index with
    | fake => trivial
    | tag ix => exact obeys_then (obeys_index (fun _ h => h) (uses_indexUpdate slots (hn ix hp) ⟨ix, hp, rfl⟩) hm) fun _ _ _ _ _ => trivial

/-! ## scripts -/

theorem reaches_app {sc sc' sc'' : PadScript V ρ} {h h' : List (PadCall V × Except PyErr (PadOut V))} (h1 : sc.Reaches h sc')
    (h2 : sc'.Reaches h' sc'') : sc.Reaches (h ++ h') sc'' := by
  induction h generalizing sc with
  | nil => cases sc <;> (subst h1; exact h2)
  | cons a h ih =>
    obtain ⟨o, x⟩ := a
    cases sc with
    | ret r => exact h1.elim
    | raise e => exact h1.elim
    | call o' k => exact ⟨h1.1, ih h1.2⟩

theorem reaches_self (sc : PadScript V ρ) : sc.Reaches [] sc := by cases sc <;> rfl

/-- the program `q` is where the script `sc` begins, or in the midst of its first call -/
def AtNode (E : Env) (c : Codec V) (isNone : V → Bool) (S : Str → Prop) (Ok : Bytes → Bytes → Prop) (p : Pad)
    (run : PadCall V → Prog (PadOut V)) (sc : PadScript V ρ) (q : Prog ρ) (W : Meant) (K : Knows) : Prop :=
  (∃ r, sc = .ret r ∧ q = .ret r) ∨ (∃ e, sc = .raise e ∧ q = .raise e) ∨
  ∃ o k a, sc = .call o k ∧ q = a.bind (fun r => (k r).progOf run) ∧ (∀ x, a ≠ .ret x) ∧ (∀ e, a ≠ .raise e) ∧
    Obeys E S Ok (fun W r K => (∃ x, r = .ok x ∧ OutOK c isNone Ok p.pre W o x) ∧ MemKnown S p K) a W K

theorem AtNode.grow {run : PadCall V → Prog (PadOut V)} {sc : PadScript V ρ} {q : Prog ρ} {W W' : Meant} (hW : W.le W')
    (h : AtNode E c isNone S Ok p run sc q W K) : AtNode E c isNone S Ok p run sc q W' K := by
  rcases h with h | h | ⟨o, k, a, h1, h2, h3, h4, h5⟩
  · exact Or.inl h
  · exact Or.inr (Or.inl h)
  · exact Or.inr (Or.inr ⟨o, k, a, h1, h2, h3, h4, obeys_grow (fun W W' r K hW h =>
      ⟨h.1.imp fun x hx => ⟨hx.1, hx.2.grow hW⟩, h.2⟩) hW h5⟩)

/-- the calls' programs obey -/
def RunsOK (E : Env) (c : Codec V) (isNone : V → Bool) (Ok : Bytes → Bytes → Prop) (U : Str → Prop) (p : Pad)
    (run : PadCall V → Prog (PadOut V)) : Prop :=
  ∀ (o : PadCall V) (W : Meant) (K : Knows), o.On U → MemKnown (fun x => ¬ ownBlocks p.pre U x) p K → (Puts c p.pre o).le W →
    Obeys E (fun x => ¬ ownBlocks p.pre U x) Ok (fun W r _ => OutOK c isNone Ok p.pre W o r) (run o) W K

/-- what an outcome of a process's calls is -/
def HistOK (c : Codec V) (isNone : V → Bool) (Ok : Bytes → Bytes → Prop) (pre : Str) (W : Meant)
    (h : List (PadCall V × Except PyErr (PadOut V))) : Prop := ∀ x ∈ h, OutOK c isNone Ok pre W x.1 x.2

theorem HistOK.grow {pre : Str} {W W' : Meant} (hW : W.le W') {h : List (PadCall V × Except PyErr (PadOut V))}
    (hh : HistOK c isNone Ok pre W h) : HistOK c isNone Ok pre W' h := fun x hx => (hh x hx).grow hW

/-- from where a script begins to where its program has an operation to do -/
theorem enter {run : PadCall V → Prog (PadOut V)} (hr : RunsOK E c isNone Ok U p run) (sc : PadScript V ρ) (ho : sc.On U)
    (W : Meant) (hm : MemKnown (fun x => ¬ ownBlocks p.pre U x) p K) :
    ∃ h sc' W', W.le W' ∧ (∀ x b, W' x b → W x b ∨ ∃ o ∈ begun h sc', Puts c p.pre o x b) ∧ sc.Reaches h sc' ∧ sc'.On U ∧
      HistOK c isNone Ok p.pre W' h ∧
      AtNode E c isNone (fun x => ¬ ownBlocks p.pre U x) Ok p run sc' (sc.progOf run) W' K := by
  induction sc generalizing W with
  | ret r =>
    exact ⟨[], .ret r, W, Meant.le_refl W, fun _ _ h => Or.inl h, rfl, trivial, by (intro x hx; cases hx),
      Or.inl ⟨r, rfl, rfl⟩⟩
  | raise e =>
    exact ⟨[], .raise e, W, Meant.le_refl W, fun _ _ h => Or.inl h, rfl, trivial, by (intro x hx; cases hx),
      Or.inr (Or.inl ⟨e, rfl, rfl⟩)⟩
  | call o k ih =>
    let W1 : Meant := fun x b => W x b ∨ Puts c p.pre o x b
    have hW1 : W.le W1 := fun _ _ h => Or.inl h
    have hob : Obeys E (fun x => ¬ ownBlocks p.pre U x) Ok (fun W r K => (∃ x, r = .ok x ∧ OutOK c isNone Ok p.pre W o x) ∧
        MemKnown (fun x => ¬ ownBlocks p.pre U x) p K) (run o).attempt W1 K :=
      obeys_keeps (obeys_attempt (hr o W1 K ho.1 hm fun _ _ h => Or.inr h) fun r W' K' h => ⟨r, rfl, h⟩) hm
    have here : (∀ x, (run o).attempt ≠ .ret x) → (∀ e, (run o).attempt ≠ .raise e) → ∃ h sc' W', W.le W' ∧
        (∀ x b, W' x b → W x b ∨ ∃ o ∈ begun h sc', Puts c p.pre o x b) ∧ (PadScript.call o k).Reaches h sc' ∧ sc'.On U ∧
        HistOK c isNone Ok p.pre W' h ∧
        AtNode E c isNone (fun x => ¬ ownBlocks p.pre U x) Ok p run sc' ((PadScript.call o k).progOf run) W' K :=
      fun h1 h2 => ⟨[], .call o k, W1, hW1, fun x b h => h.imp_right fun h => ⟨o, by simp [begun, PadScript.next], h⟩,
        reaches_self _, ho, by (intro x hx; cases hx), Or.inr (Or.inr ⟨o, k, _, rfl, rfl, h1, h2, hob⟩)⟩
    cases ha : (run o).attempt with
    | ret x =>
      rw [ha] at hob
      obtain ⟨⟨y, hy, hout⟩, _⟩ := hob
      injection hy with hy
      subst hy
      obtain ⟨h, sc', W', h1, h2, h3, h4, h5, h6⟩ := ih x (ho.2 x) W1
      refine ⟨(o, x) :: h, sc', W', Meant.le_trans hW1 h1, fun y b hyb => ?_, ⟨rfl, h3⟩, h4, ?_, ?_⟩
      · rcases h2 y b hyb with (h | h) | ⟨o', ho', h⟩
        · exact Or.inl h
        · exact Or.inr ⟨o, by simp [begun], h⟩
        · refine Or.inr ⟨o', ?_, h⟩
          simp only [begun, List.map_cons, List.cons_append] at ho' ⊢
          exact List.mem_cons_of_mem _ ho'
      · rintro z hz
        rcases List.mem_cons.1 hz with rfl | hz
        · exact hout.grow h1
        · exact h5 z hz
      · simp only [PadScript.progOf, ha]
        exact h6
    | raise e =>
      rw [ha] at hob
      obtain ⟨⟨y, hy, _⟩, _⟩ := hob
      cases hy
    | stuck => exact here (by rw [ha]; intro x h; cases h) (by rw [ha]; intro x h; cases h)
    | op o' k' => exact here (by rw [ha]; intro x h; cases h) (by rw [ha]; intro x h; cases h)

/-- one operation of a process -/
theorem node_step {run : PadCall V → Prog (PadOut V)} (hr : RunsOK E c isNone Ok U p run) {sc : PadScript V ρ} (ho : sc.On U)
    {q q' : Prog ρ} {s s' : Store} {born : Nat → Str × Bytes}
    (hq : AtNode E c isNone (fun x => ¬ ownBlocks p.pre U x) Ok p run sc q W K)
    (hc : Cells (fun x => ¬ ownBlocks p.pre U x) Ok W born s) (hK : K.True (fun x => ¬ ownBlocks p.pre U x) born s)
    (hst : q.step E s = some (q', s')) :
    ∃ h sc' W' born' K', Later W born s W' born' s' ∧ Cells (fun x => ¬ ownBlocks p.pre U x) Ok W' born' s' ∧
      K'.True (fun x => ¬ ownBlocks p.pre U x) born' s' ∧
      (∀ x b, W' x b → W x b ∨ ∃ o ∈ begun h sc', Puts c p.pre o x b) ∧ sc.Reaches h sc' ∧ sc'.On U ∧
      HistOK c isNone Ok p.pre W' h ∧ AtNode E c isNone (fun x => ¬ ownBlocks p.pre U x) Ok p run sc' q' W' K' := by
  rcases hq with ⟨r, _, rfl⟩ | ⟨e, _, rfl⟩ | ⟨o, k, a, rfl, rfl, h1, h2, h3⟩
  · cases hst
  · cases hst
  · cases a with
    | ret x => exact absurd rfl (h1 x)
    | raise e => exact absurd rfl (h2 e)
    | stuck => cases hst
    | op oo kk =>
      simp only [Prog.bind, Prog.step, Option.some.injEq, Prod.mk.injEq] at hst
      obtain ⟨rfl, rfl⟩ := hst
      obtain ⟨born', K', l1, l2, l3, l4⟩ := obeys_step h3 hc hK
      have stay : (∀ x, kk (oo.step E s).1 ≠ .ret x) → (∀ e, kk (oo.step E s).1 ≠ .raise e) → ∃ h sc' W' born' K',
          Later W born s W' born' (oo.step E s).2 ∧ Cells (fun x => ¬ ownBlocks p.pre U x) Ok W' born' (oo.step E s).2 ∧
          K'.True (fun x => ¬ ownBlocks p.pre U x) born' (oo.step E s).2 ∧
          (∀ x b, W' x b → W x b ∨ ∃ o ∈ begun h sc', Puts c p.pre o x b) ∧ (PadScript.call o k).Reaches h sc' ∧ sc'.On U ∧
          HistOK c isNone Ok p.pre W' h ∧ AtNode E c isNone (fun x => ¬ ownBlocks p.pre U x) Ok p run sc'
            ((kk (oo.step E s).1).bind fun r => (k r).progOf run) W' K' :=
        fun g1 g2 => ⟨[], .call o k, W, born', K', l1, l2, l3, fun _ _ h => Or.inl h, reaches_self _, ho,
          by (intro x hx; cases hx), Or.inr (Or.inr ⟨o, k, _, rfl, rfl, g1, g2, l4⟩)⟩
      cases ha : kk (oo.step E s).1 with
      | ret x =>
        rw [ha] at l4
        obtain ⟨⟨y, hy, hout⟩, hmk⟩ := l4
        injection hy with hy
        subst hy
        obtain ⟨h, sc', W', g1, g2, g3, g4, g5, g6⟩ := enter hr (k x) (ho.2 x) W hmk
        refine ⟨(o, x) :: h, sc', W', born', K', l1.trans ⟨g1, Nat.le_refl _, fun _ _ => rfl⟩, l2.grow g1, l3, fun y b hyb => ?_,
          ⟨rfl, g3⟩, g4, ?_, g6⟩
        · rcases g2 y b hyb with h | ⟨o', ho', h⟩
          · exact Or.inl h
          · refine Or.inr ⟨o', ?_, h⟩
            simp only [begun, List.map_cons, List.cons_append] at ho' ⊢
            exact List.mem_cons_of_mem _ ho'
        · rintro z hz
          rcases List.mem_cons.1 hz with rfl | hz
          · exact hout.grow g1
          · exact g5 z hz
      | raise e =>
        rw [ha] at l4
        obtain ⟨⟨y, hy, _⟩, _⟩ := l4
        cases hy
      | stuck => rw [← ha]; exact stay (by rw [ha]; intro x h; cases h) (by rw [ha]; intro x h; cases h)
      | op o' k' => rw [← ha]; exact stay (by rw [ha]; intro x h; cases h) (by rw [ha]; intro x h; cases h)

/-! ## the system -/

/-- the calls a process has ended and the outcomes, and how its script goes on -/
abbrev Record (V ρ : Type) := List (PadCall V × Except PyErr (PadOut V)) × PadScript V ρ

theorem begun_app {h h' : List (PadCall V × Except PyErr (PadOut V))} {sc sc' : PadScript V ρ} (hr : sc.Reaches h' sc') (o : PadCall V)
    (ho : o ∈ begun h sc) : o ∈ begun (h ++ h') sc' := by
  simp only [begun, List.map_append, List.mem_append] at ho ⊢
  rcases ho with ho | ho
  · exact Or.inl (Or.inl ho)
  · cases sc with
    | ret r => cases ho
    | raise e => cases ho
    | call o' k =>
      simp only [PadScript.next, List.mem_singleton] at ho
      subst ho
      cases h' with
      | nil => rw [show sc' = PadScript.call o k from hr]; exact Or.inr (by simp [PadScript.next])
      | cons a t =>
        obtain ⟨a1, a2⟩ := a
        obtain ⟨rfl, _⟩ := hr
        exact Or.inl (Or.inr (by simp))

structure SysInv (E : Env) (c : Codec V) (isNone : V → Bool) (Ok : Bytes → Bytes → Prop) (pre : Str) (U : Str → Prop)
    (run : Pad → PadCall V → Prog (PadOut V)) (init : Meant) (procs : List (Pad × PadScript V ρ)) (rec : Nat → Record V ρ)
    (qs : List (Prog ρ)) (s : Store) (W : Meant) (born : Nat → Str × Bytes) : Prop where
  cells : Cells (fun x => ¬ ownBlocks pre U x) Ok W born s
  meant : ∀ x b, W x b → init x b ∨ ∃ i x', procs[i]? = some x' ∧ ∃ o ∈ begun (rec i).1 (rec i).2, Puts c pre o x b
  proc : ∀ i p sc q, procs[i]? = some (p, sc) → qs[i]? = some q → sc.Reaches (rec i).1 (rec i).2 ∧ (rec i).2.On U ∧
    HistOK c isNone Ok pre W (rec i).1 ∧ ∃ K : Knows, K.True (fun x => ¬ ownBlocks pre U x) born s ∧
      AtNode E c isNone (fun x => ¬ ownBlocks pre U x) Ok p (run p) (rec i).2 q W K

theorem SysInv.step {pre : Str} {run : Pad → PadCall V → Prog (PadOut V)} {init : Meant} {procs : List (Pad × PadScript V ρ)}
    (hr : ∀ x ∈ procs, x.1.pre = pre ∧ RunsOK E c isNone Ok U x.1 (run x.1)) {rec : Nat → Record V ρ} {qs : List (Prog ρ)}
    {s : Store} {born : Nat → Str × Bytes} (h : SysInv E c isNone Ok pre U run init procs rec qs s W born)
    (hlen : qs.length = procs.length) {i : Nat} {q q' : Prog ρ} {s' : Store} (hi : qs[i]? = some q) (hst : q.step E s = some (q', s')) :
    ∃ rec' W' born', SysInv E c isNone Ok pre U run init procs rec' (qs.set i q') s' W' born' := by
  obtain ⟨x, hx⟩ : ∃ x, procs[i]? = some x := by
    have : i < qs.length := (List.getElem?_eq_some_iff.1 hi).1
    exact ⟨procs[i], List.getElem?_eq_getElem (by omega)⟩
  obtain ⟨p, sc⟩ := x
  obtain ⟨rfl, hrun⟩ := hr _ (List.mem_of_getElem? hx)
  obtain ⟨g1, g2, g3, K, g4, g5⟩ := h.proc i p sc q hx hi
  obtain ⟨h', sc', W', born', K', l1, l2, l3, l4, l5, l6, l7, l8⟩ := node_step hrun g2 g5 h.cells g4 hst
  refine ⟨fun j => if j = i then ((rec i).1 ++ h', sc') else rec j, W', born', l2, ?_, ?_⟩
  · intro x b hxb
    rcases l4 x b hxb with h1 | ⟨o, ho, h1⟩
    · rcases h.meant x b h1 with h1 | ⟨j, y, hy, o, ho, h1⟩
      · exact Or.inl h1
      · refine Or.inr ⟨j, y, hy, o, ?_, h1⟩
        by_cases hji : j = i
        · subst hji
          simp only [if_pos]
          exact begun_app l5 o ho
        · simp only [if_neg hji]
          exact ho
    · refine Or.inr ⟨i, _, hx, o, ?_, h1⟩
      simp only [if_pos, begun, List.map_append, List.append_assoc, List.mem_append] at ho ⊢
      exact Or.inr ho
  · intro j p' sc2 q2 hj hq2
    by_cases hji : j = i
    · subst hji
      simp only [if_pos]
      rw [hx] at hj
      injection hj with hj
      injection hj with e1 e2
      subst e1 e2
      rw [List.getElem?_set_self (List.getElem?_eq_some_iff.1 hi).1] at hq2
      injection hq2 with hq2
      subst hq2
      refine ⟨reaches_app g1 l5, l6, ?_, K', l3, l8⟩
      intro z hz
      rcases List.mem_append.1 hz with hz | hz
      · exact (g3 z hz).grow l1.meant
      · exact l7 z hz
    · simp only [if_neg hji]
      rw [List.getElem?_set_ne (Ne.symm hji)] at hq2
      obtain ⟨m1, m2, m3, K2, m4, m5⟩ := h.proc j p' sc2 q2 hj hq2
      exact ⟨m1, m2, m3.grow l1.meant, K2, m4.later l1, m5.grow l1.meant⟩

theorem SysInv.run {pre : Str} {run : Pad → PadCall V → Prog (PadOut V)} {init : Meant} {procs : List (Pad × PadScript V ρ)}
    (hr : ∀ x ∈ procs, x.1.pre = pre ∧ RunsOK E c isNone Ok U x.1 (run x.1)) (sched : List Nat) {rec : Nat → Record V ρ}
    {qs : List (Prog ρ)} {s : Store} {born : Nat → Str × Bytes} (h : SysInv E c isNone Ok pre U run init procs rec qs s W born)
    (hlen : qs.length = procs.length) :
    ∃ rec' W' born', SysInv E c isNone Ok pre U run init procs rec' (interleave E sched qs s).1 (interleave E sched qs s).2 W' born' := by
  induction sched generalizing rec qs s W born with
  | nil => exact ⟨rec, W, born, h⟩
  | cons i sched ih =>
    rw [interleave]
    cases hi : qs[i]? with
    | none => exact ih h hlen
    | some q =>
      simp only
      cases hst : q.step E s with
      | none => exact ih h hlen
      | some x =>
        obtain ⟨q', s'⟩ := x
        obtain ⟨rec', W', born', h'⟩ := h.step hr hlen hi hst
        exact ih h' (by simpa using hlen)

end Verif.Lemmas
