import Verif.Lemmas.JsonSpec
import Verif.Spec.TrackerJson
import Mathlib.Data.List.Induction
/-! # Reading the log file of a Tracker -/
namespace Verif.Lemmas
open Verif Verif.Model Verif.Spec
variable {F : Type} {FT : Floats F} {lim : Nat}

/-- a text that is read as a value, and begins as one -/
def ReadsDoc (FT : Floats F) (lim : Nat) (t : Text) (v : PyVal F) : Prop := Begins t ∧ ReadsAs FT lim t v

/-- documents with `,` and a new line between them -/
def sepText : List Text → Text
  | [] => []
  | [d] => d
  | d :: t => d ++ [44, 10] ++ sepText t

theorem sepText_map (docs : List (List UInt8)) : (commaSep docs).map UInt8.toNat = sepText (docs.map fun d => d.map UInt8.toNat) := by
  induction docs with
  | nil => rfl
  | cons d t ih =>
    cases t with
    | nil => rfl
    | cons e t =>
      simp only [commaSep, List.map_cons, sepText, List.map_append] at ih ⊢
      rw [ih]
      rfl

theorem sepText_begins {docs : List Text} {vs : List (PyVal F)} (h : List.Forall₂ (ReadsDoc FT lim) docs vs) (hne : docs ≠ []) :
    Begins (sepText docs) := by
  cases h with
  | nil => exact absurd rfl hne
  | cons h1 h2 =>
    rename_i d v ds vs
    obtain ⟨⟨c, r, rfl, hc⟩, _⟩ := h1
    cases ds with
    | nil => exact ⟨c, r, rfl, hc⟩
    | cons e t => exact ⟨c, r ++ [44, 10] ++ sepText (e :: t), by simp [sepText], hc⟩

/-- what the loop of arrays makes of documents, of a following bracket, and of a following comma -/
theorem elems_docs {docs : List Text} {vs : List (PyVal F)} (h : List.Forall₂ (ReadsDoc FT lim) docs vs) (hne : docs ≠ []) :
    (∀ rest f, (sepText docs).length + 1 < f → scanElems FT lim f (sepText docs ++ 93 :: rest) = .ok (vs, rest)) ∧
    (∀ r, (∀ g, scanElems FT lim g (skipWs r) = .error .valueError) → ∀ f, (sepText docs).length + 1 < f →
      scanElems FT lim f (sepText docs ++ 44 :: r) = .error .valueError) := by
  induction h with
  | nil => exact absurd rfl hne
  | cons h1 h2 ih =>
    rename_i d v ds vs
    have st : ∀ r, Stops (44 :: r) := fun r => stops_cons _ rfl (by decide) (by decide) (by decide)
    cases ds with
    | nil =>
      cases h2
      refine ⟨?_, ?_⟩
      · intro rest f hf
        simp only [sepText] at hf ⊢
        obtain ⟨f, rfl⟩ : ∃ g, f = g + 1 := ⟨f - 1, by omega⟩
        simp only [scanElems]
        rw [h1.2 _ f (stops_cons _ rfl (by decide) (by decide) (by decide)) (by omega)]
        rfl
      · intro r hr f hf
        simp only [sepText] at hf ⊢
        obtain ⟨f, rfl⟩ : ∃ g, f = g + 1 := ⟨f - 1, by omega⟩
        simp only [scanElems]
        rw [h1.2 _ f (st r) (by omega)]
        simp only [bind, Except.bind, skipWs_cons (show isWs 44 = false from rfl), show ¬ (44 : Nat) = 93 by decide, if_false,
          ne_eq, not_true_eq_false]
        rw [hr f]
    | cons e t =>
      obtain ⟨ih1, ih2⟩ := ih (by simp)
      have hb := sepText_begins h2 (by simp)
      have hs : ∀ r, skipWs (10 :: (sepText (e :: t) ++ r)) = sepText (e :: t) ++ r := by
        intro r
        have := skipWs_ws (w := [10]) (by simp [isWs]) (sepText (e :: t) ++ r)
        rw [hb.skip] at this
        exact this
      have eq : ∀ r, sepText (d :: e :: t) ++ r = d ++ 44 :: 10 :: (sepText (e :: t) ++ r) := by intro r; simp [sepText]
      have hl : (sepText (d :: e :: t)).length = d.length + 2 + (sepText (e :: t)).length := by simp [sepText]; omega
      refine ⟨?_, ?_⟩
      · intro rest f hf
        rw [hl] at hf
        rw [eq]
        obtain ⟨f, rfl⟩ : ∃ g, f = g + 1 := ⟨f - 1, by omega⟩
        simp only [scanElems]
        rw [h1.2 _ f (st _) (by omega)]
        simp only [bind, Except.bind, skipWs_cons (show isWs 44 = false from rfl), show ¬ (44 : Nat) = 93 by decide, if_false,
          ne_eq, not_true_eq_false]
        rw [hs, ih1 rest f (by omega)]
      · intro r hr f hf
        rw [hl] at hf
        rw [eq]
        obtain ⟨f, rfl⟩ : ∃ g, f = g + 1 := ⟨f - 1, by omega⟩
        simp only [scanElems]
        rw [h1.2 _ f (st _) (by omega)]
        simp only [bind, Except.bind, skipWs_cons (show isWs 44 = false from rfl), show ¬ (44 : Nat) = 93 by decide, if_false,
          ne_eq, not_true_eq_false]
        rw [hs, ih2 r hr f (by omega)]

/-- no value begins with a comma -/
theorem scanOnce_comma (f : Nat) (r : Text) : scanOnce FT lim f (44 :: r) = .error .valueError := by
  cases f with
  | zero => rfl
  | succ f => rfl

theorem scanElems_nil (f : Nat) : scanElems FT lim f [] = .error .valueError := by
  cases f with
  | zero => rfl
  | succ f =>
    cases f with
    | zero => rfl
    | succ f => rfl

theorem scanElems_comma (f : Nat) (r : Text) : scanElems FT lim f (44 :: r) = .error .valueError := by
  cases f with
  | zero => rfl
  | succ f => simp only [scanElems, scanOnce_comma]; rfl

/-- the array of documents -/
theorem loads_docs {docs : List Text} {vs : List (PyVal F)} (h : List.Forall₂ (ReadsDoc FT lim) docs vs) (hne : docs ≠ []) :
    loads FT lim (91 :: (sepText docs ++ [93])) = .ok (.list vs) := by
  have hb := sepText_begins h hne
  have h1 := (elems_docs h hne).1 [] ((sepText docs).length + 2) (by omega)
  have e : (91 :: (sepText docs ++ [93])).length + 1 = ((sepText docs).length + 2) + 1 := by simp
  have hs := hb.skip [93]
  unfold loads
  rw [skipWs_cons rfl, e]
  simp only [scanOnce, show ¬ (91 : Nat) = 34 by decide, show ¬ (91 : Nat) = 123 by decide, if_false, if_true]
  rw [hs]
  obtain ⟨c, a', hd, _, hc, _⟩ := hb
  rw [hd] at h1 ⊢
  simp only [List.cons_append, List.length_cons, if_neg hc] at h1 ⊢
  rw [h1]
  rfl

/-- an array that goes wrong after a comma -/
theorem loads_docs_error {docs : List Text} {vs : List (PyVal F)} (h : List.Forall₂ (ReadsDoc FT lim) docs vs) (hne : docs ≠ [])
    (r : Text) (hr : ∀ g, scanElems FT lim g (skipWs r) = .error .valueError) :
    loads FT lim (91 :: (sepText docs ++ 44 :: r)) = .error .valueError := by
  have hb := sepText_begins h hne
  have h1 := (elems_docs h hne).2 r hr ((sepText docs).length + r.length + 2) (by omega)
  have e : (91 :: (sepText docs ++ 44 :: r)).length + 1 = ((sepText docs).length + r.length + 2) + 1 := by simp; omega
  have hs := hb.skip (44 :: r)
  unfold loads
  rw [skipWs_cons rfl, e]
  simp only [scanOnce, show ¬ (91 : Nat) = 34 by decide, show ¬ (91 : Nat) = 123 by decide, if_false, if_true]
  rw [hs]
  obtain ⟨c, a', hd, _, hc, _⟩ := hb
  rw [hd] at h1 ⊢
  simp only [List.cons_append, List.length_cons, if_neg hc] at h1 ⊢
  rw [h1]
  rfl

theorem loads_comma (r : Text) : loads FT lim (44 :: r) = .error .valueError := by
  unfold loads
  rw [skipWs_cons rfl, scanOnce_comma]
  rfl

/-! ## numerals -/

theorem natStrAux_mono : ∀ (f m g n : Nat), m < f → n < g → m ≤ n → (natStrAux f m).length ≤ (natStrAux g n).length := by
  intro f
  induction f with
  | zero => intro m g n h; omega
  | succ f ih =>
    intro m g n hm hn hmn
    obtain ⟨g, rfl⟩ : ∃ k, g = k + 1 := ⟨g - 1, by omega⟩
    simp only [natStrAux]
    by_cases h1 : m < 10
    · rw [if_pos h1]
      split
      · simp
      · simp
    · rw [if_neg h1, if_neg (by omega)]
      have := ih (m / 10) g (n / 10) (by omega) (by omega) (Nat.div_le_div_right hmn)
      simpa using this

theorem short_mono {m n : Nat} (h : Short lim (n : Nat)) (hmn : m ≤ n) : Short lim (m : Nat) := by
  rcases h with h | h
  · exact Or.inl h
  · refine Or.inr (Nat.le_trans ?_ h)
    simp only [decNat, codes, List.length_map, natStr, Int.natAbs_natCast]
    exact natStrAux_mono _ _ _ _ (by omega) (by omega) hmn

/-! ## values of records and documents -/

theorem textOK_str (s : Str) : TextOK (codes s) := by
  intro c hc
  obtain ⟨d, _, rfl⟩ := List.mem_map.1 hc
  have := d.valid
  simp only [UInt32.isValidChar, Nat.isValidChar] at this
  show d.val.toNat < 1114112
  omega

theorem mem_set {κ α : Type} [DecidableEq κ] {d : Dict κ α} {k : κ} {v : α} {p : κ × α} (h : p ∈ d.set k v) : p ∈ d ∨ p.2 = v := by
  induction d with
  | nil => simp only [Dict.set, List.mem_singleton] at h; exact Or.inr (by rw [h])
  | cons x t ih =>
    obtain ⟨a, b⟩ := x
    simp only [Dict.set] at h
    split at h
    · rcases List.mem_cons.1 h with rfl | h
      · exact Or.inr rfl
      · exact Or.inl (List.mem_cons_of_mem _ h)
    · rcases List.mem_cons.1 h with rfl | h
      · exact Or.inl (by simp)
      · rcases ih h with h | h
        · exact Or.inl (List.mem_cons_of_mem _ h)
        · exact Or.inr h

theorem mem_update {κ α : Type} [DecidableEq κ] {e : Dict κ α} : ∀ {d : Dict κ α} {p : κ × α}, p ∈ d.update e → p ∈ d ∨ ∃ q ∈ e, p.2 = q.2 := by
  induction e with
  | nil => intro d p h; exact Or.inl h
  | cons x t ih =>
    intro d p h
    rcases ih (d := d.set x.1 x.2) h with h | ⟨q, hq, e⟩
    · rcases mem_set h with h | h
      · exact Or.inl h
      · exact Or.inr ⟨x, by simp, h⟩
    · exact Or.inr ⟨q, List.mem_cons_of_mem _ hq, e⟩

theorem recOf_update {P : PyVal F → Prop} {d e : LogRec (PyVal F)} (hd : RecOf P d) (he : ∀ p ∈ e, P p.2) : RecOf P (d.update e) := by
  refine ⟨Dict.wf_update hd.1 e, fun p hp => ?_⟩
  rcases mem_update hp with h | ⟨q, hq, e⟩
  · exact hd.2 p h
  · rw [e]; exact he q hq

theorem able_items {r : List (PyVal F × PyVal F)} (h : ∀ p ∈ r, JsonKey lim p.1 ∧ JsonAble lim p.2) : JsonAbleItems lim r := by
  induction r with
  | nil => simp [JsonAbleItems]
  | cons p r ih =>
    obtain ⟨k, v⟩ := p
    have := h (k, v) (by simp)
    simp only [JsonAbleItems]
    exact ⟨this.1, this.2, ih fun q hq => h q (List.mem_cons_of_mem _ hq)⟩

theorem proper_items {r : List (PyVal F × PyVal F)} (h : ∀ p ∈ r, Proper p.1 ∧ Proper p.2) : ProperItems r := by
  induction r with
  | nil => simp [ProperItems]
  | cons p r ih =>
    obtain ⟨k, v⟩ := p
    have := h (k, v) (by simp)
    simp only [ProperItems]
    exact ⟨this.1, this.2, ih fun q hq => h q (List.mem_cons_of_mem _ hq)⟩

theorem ables_list {r : List (PyVal F)} (h : ∀ p ∈ r, JsonAble lim p) : JsonAbles lim r := by
  induction r with
  | nil => simp [JsonAbles]
  | cons p r ih => simp only [JsonAbles]; exact ⟨h p (by simp), ih fun q hq => h q (List.mem_cons_of_mem _ hq)⟩

theorem propers_list {r : List (PyVal F)} (h : ∀ p ∈ r, Proper p) : Propers r := by
  induction r with
  | nil => simp [Propers]
  | cons p r ih => simp only [Propers]; exact ⟨h p (by simp), ih fun q hq => h q (List.mem_cons_of_mem _ hq)⟩

theorem proper_recVal {r : LogRec (PyVal F)} (h : RecOf Proper r) : Proper (recVal r) := by
  simp only [recVal, Proper]
  refine ⟨?_, proper_items ?_⟩
  · rw [List.map_map]
    have := h.1
    unfold Dict.WF Dict.keys at this
    have e : (Prod.fst ∘ fun p : Str × PyVal F => ((PyVal.str (codes p.1) : PyVal F), p.2)) = (fun s => PyVal.str (codes s)) ∘ Prod.fst := rfl
    rw [e, ← List.map_map]
    refine List.Pairwise.map _ ?_ this
    intro a b hab hc
    injection hc with hc
    exact hab (codes_injective hc)
  · intro p hp
    obtain ⟨q, hq, rfl⟩ := List.mem_map.1 hp
    exact ⟨by simp only [Proper]; exact textOK_str _, h.2 q hq⟩

theorem able_recVal {r : LogRec (PyVal F)} (h : RecOf (JsonAble lim) r) : JsonAble lim (recVal r) := by
  simp only [recVal, JsonAble]
  refine able_items fun p hp => ?_
  obtain ⟨q, hq, rfl⟩ := List.mem_map.1 hp
  exact ⟨trivial, h.2 q hq⟩

/-- a document of values with a property -/
def DocOf (P : PyVal F → Prop) (d : LogDoc (PyVal F)) : Prop :=
  P d.name ∧ P d.initStamp ∧ P d.writeStamp ∧ ∀ r ∈ d.history, RecOf P r

theorem proper_docVal {d : LogDoc (PyVal F)} (h : DocOf Proper d) : Proper (docVal d) := by
  obtain ⟨h1, h2, h3, h4⟩ := h
  simp only [docVal, Proper, ProperItems]
  refine ⟨by simp [codes], textOK_str _, h1, textOK_str _, h2, textOK_str _, h3, textOK_str _, propers_list ?_, trivial⟩
  intro p hp
  obtain ⟨r, hr, rfl⟩ := List.mem_map.1 hp
  exact proper_recVal (h4 r hr)

theorem able_docVal {d : LogDoc (PyVal F)} (h : DocOf (JsonAble lim) d) : JsonAble lim (docVal d) := by
  obtain ⟨h1, h2, h3, h4⟩ := h
  simp only [docVal, JsonAble, JsonAbleItems]
  refine ⟨trivial, h1, trivial, h2, trivial, h3, trivial, ables_list ?_, trivial⟩
  intro p hp
  obtain ⟨r, hr, rfl⟩ := List.mem_map.1 hp
  exact able_recVal (h4 r hr)

/-! ## the state of a Tracker -/

theorem tracked_le (ops : List (TrkOp (PyVal F))) : tracked ops ≤ ops.length := by
  induction ops with
  | nil => exact Nat.le_refl _
  | cons op r ih => cases op <;> simp only [tracked, List.length_cons] <;> omega

theorem metaAfter_of {P : PyVal F → Prop} {ops : List (TrkOp (PyVal F))} (h : ∀ op ∈ ops, OpOf P op) : RecOf P (metaAfter ops) := by
  induction ops with
  | nil => exact ⟨Dict.wf_nil, fun p hp => by cases hp⟩
  | cons op r ih =>
    have ih := ih fun o ho => h o (List.mem_cons_of_mem _ ho)
    have ho := h op (by simp)
    cases op with
    | setMetadata m => exact recOf_update ih ho.2
    | track => exact ih
    | pause => exact ih
    | dump => exact ih
    | clear => exact ih

theorem recordsAfter_of {P : PyVal F → Prop} (hs : ∀ s, P (.str (codes s))) {ops : List (TrkOp (PyVal F))}
    (h : ∀ op ∈ ops, OpOf P op) (hn : ∀ n, n ≤ ops.length → P (.int (n : Nat))) : ∀ r ∈ recordsAfter ops, RecOf P r := by
  induction ops with
  | nil => intro r hr; cases hr
  | cons op t ih =>
    have h' : ∀ o ∈ t, OpOf P o := fun o ho => h o (List.mem_cons_of_mem _ ho)
    have ih := ih h' fun n hl => hn n (by simp; omega)
    have ho := h op (by simp)
    cases op with
    | track a b n m =>
      intro r hr
      rcases List.mem_append.1 hr with hr | hr
      · exact ih r hr
      · rw [List.mem_singleton.1 hr]
        refine recOf_update (recOf_update ⟨?_, ?_⟩ (metaAfter_of h').2) ho.2.2
        · unfold Dict.WF Dict.keys
          simp
        · intro p hp
          simp only [List.mem_cons, List.not_mem_nil, or_false] at hp
          rcases hp with rfl | rfl | rfl | rfl
          · exact hs _
          · exact hs _
          · exact ho.1
          · have := tracked_le t
            exact hn _ (by simp; omega)
    | setMetadata m => exact ih
    | pause => exact ih
    | dump => exact ih
    | clear => intro r hr; cases hr

theorem dump_state {J : Type} (dumps : Dumps J) (t : Trk J) (st : J) :
    (dump dumps t st).2.history = t.history ∧ (dump dumps t st).2.metadata = t.metadata ∧
    (dump dumps t st).2.counter = t.counter ∧ (dump dumps t st).2.paused = t.paused ∧
    (dump dumps t st).2.name = t.name ∧ (dump dumps t st).2.initStamp = t.initStamp := by
  unfold dump
  split
  · exact ⟨rfl, rfl, rfl, rfl, rfl, rfl⟩
  · cases writeHead t.file with
    | error e => exact ⟨rfl, rfl, rfl, rfl, rfl, rfl⟩
    | ok h => cases dumps (logDoc t st) <;> exact ⟨rfl, rfl, rfl, rfl, rfl, rfl⟩

/-- the state is what the specification says -/
theorem trk_after {J : Type} [Jval J] (dumps : Dumps J) (name init : J) (file : Option (List UInt8)) (ops : List (TrkOp J)) :
    let s := trkRun dumps { name, initStamp := init, file } ops
    s.history = recordsAfter ops.reverse ∧ s.metadata = metaAfter ops.reverse ∧ s.counter = tracked ops.reverse + 1 ∧
    s.paused = pausedAfter ops.reverse ∧ s.name = name ∧ s.initStamp = init := by
  induction ops using List.reverseRecOn with
  | nil => exact ⟨rfl, rfl, rfl, rfl, rfl, rfl⟩
  | append_singleton ops op ih =>
    simp only [trkRun, List.foldl_append, List.foldl_cons, List.foldl_nil, List.reverse_append, List.reverse_cons,
      List.reverse_nil, List.nil_append, List.singleton_append]
    change _ at ih
    simp only [trkRun] at ih
    generalize List.foldl (trkOp dumps) { name, initStamp := init, file } ops = s at ih
    obtain ⟨h1, h2, h3, h4, h5, h6⟩ := ih
    cases op with
    | track a b n m =>
      refine ⟨?_, h2, ?_, h4, h5, h6⟩
      · simp only [trkOp, track, recordsAfter, h1, h2, h3]
        rfl
      · simp only [trkOp, track, tracked, h3]
    | setMetadata m => exact ⟨h1, by simp only [trkOp, setMetadata, metaAfter, h2], h3, h4, h5, h6⟩
    | pause b => exact ⟨h1, h2, h3, rfl, h5, h6⟩
    | dump st =>
      obtain ⟨e1, e2, e3, e4, e5, e6⟩ := dump_state dumps s st
      simp only [trkOp, e1, e2, e3, e4, e5, e6]
      exact ⟨h1, h2, h3, h4, h5, h6⟩
    | clear => exact ⟨rfl, h2, rfl, h4, h5, h6⟩

/-! ## what is dumped -/

theorem toUInt8_toNat {t : Text} (h : Ascii t) : (t.map Nat.toUInt8).map UInt8.toNat = t := by
  rw [List.map_map]
  conv_rhs => rw [← List.map_id t]
  refine List.map_congr_left fun c hc => ?_
  have := (h c hc).1
  simp only [Function.comp, id, Nat.toUInt8, UInt8.toNat_ofNat']
  omega

/-- what a document was dumped as is read as its image -/
theorem jsonLog_reads (hF : FloatsOK FT) {d : LogDoc (PyVal F)} (h : DocOf Proper d) {b : List UInt8} (hb : jsonLog FT lim d = .ok b) :
    ReadsDoc FT lim (b.map UInt8.toNat) (jsonImage FT (docVal d)) ∧ Ascii (b.map UInt8.toNat) := by
  cases ht : dumps FT lim (indented 2) 0 (docVal d) with
  | error e => simp [jsonLog, ht, Except.map] at hb
  | ok t =>
    have ha := dumps_ascii hF (indented_ok 2) _ _ _ ht
    simp only [jsonLog, ht, Except.map] at hb
    injection hb with hb
    subst hb
    rw [toUInt8_toNat ha]
    exact ⟨⟨dumps_begins hF ht, reads_dumps hF (indented_ok 2) _ _ _ (proper_docVal h) ht⟩, ha⟩

theorem jsonLog_iff (d : LogDoc (PyVal F)) : (∃ b, jsonLog FT lim d = .ok b) ↔ JsonAble lim (docVal d) := by
  rw [← dumps_iff (FT := FT) (L := indented 2) (docVal d) 0]
  simp only [jsonLog]
  cases dumps FT lim (indented 2) 0 (docVal d) with
  | ok t => simp [Except.map]
  | error x => simp [Except.map]

end Verif.Lemmas
