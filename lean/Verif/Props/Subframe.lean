import Verif.Lemmas.Subframe
/-!
# C104: `scrape_subframe`
-/
namespace Verif.Props
open Verif Verif.Model Verif.Spec Verif.Lemmas
variable {F : Type}

/-- C104: every text has one block, or none; every block has its runs of digits -/
theorem C104_block_or_none (nd : Nat → Bool) (t : Text) :
    (NoBlock t ∨ ∃ pre mid post l, IsBlock t pre mid post ∧ Runs nd (firstWord ++ (mid ++ lastWord)) l) ∧
    ∀ pre mid post pre' mid' post', IsBlock t pre mid post → IsBlock t pre' mid' post' → mid = mid' ∧ post = post' := by
  refine ⟨?_, fun _ _ _ _ _ _ h h' => block_unique h h'⟩
  cases h : searchRe subframeGroup t with
  | none => exact Or.inl (search_none h)
  | some p =>
    obtain ⟨m, post⟩ := p
    obtain ⟨pre, mid, hb, _⟩ := search_some h
    obtain ⟨l, hl⟩ := runs_exist nd (firstWord ++ (mid ++ lastWord))
    exact Or.inr ⟨pre, mid, post, l, hb, hl⟩

theorem scrape_block {nd : Nat → Bool} {lim : Nat} {t pre mid post : Text} (hb : IsBlock t pre mid post) {l : List Text}
    (hl : Runs nd (firstWord ++ (mid ++ lastWord)) l) :
    scrapeSubframe (F := F) nd lim t = evalNumerals lim (joinWith 44 l) := by
  unfold scrapeSubframe
  cases h : searchRe subframeGroup t with
  | none => exact absurd hb.text (search_none h pre mid post)
  | some p =>
    obtain ⟨m, post'⟩ := p
    obtain ⟨pre', mid', hb', rfl⟩ := search_some h
    obtain ⟨rfl, _⟩ := block_unique hb hb'
    simp only []
    rw [findAll_runs hl _ (by omega)]

/-- C104: without a block it raises `AttributeError` -/
theorem C104_no_block (nd : Nat → Bool) (lim : Nat) (t : Text) (h : NoBlock t) :
    scrapeSubframe (F := F) nd lim t = .error .attributeError := by
  unfold scrapeSubframe
  cases hs : searchRe subframeGroup t with
  | none => rfl
  | some p =>
    obtain ⟨m, post⟩ := p
    obtain ⟨pre, mid, hb, _⟩ := search_some hs
    exact absurd hb.text (h _ _ _)

theorem eval_runs {nd : Nat → Bool} (hnd : ∀ c, c < 128 → nd c = isDigit c) {lim : Nat} {t : Text} {l : List Text}
    (hl : Runs nd t l) (hne : l ≠ []) (hg : ∀ r ∈ l, GoodNumeral lim r) :
    numerals lim (cutAt 44 (joinWith 44 l)) = some (l.map textNat) := by
  have hp := runs_parts hl
  rw [cutAt_join hne, numerals_good fun r hr => ⟨(hp r hr).1, hg r hr⟩]
  intro a ha c hc hc44
  have := (hp a ha).2 c hc
  rw [hc44, hnd 44 (by omega)] at this
  revert this; decide

/-- C104, as far as it holds: if the block has at least two runs of digits, and Python takes each for a numeral, the result is
the tuple of their numbers, in order -/
theorem C104_numbers_partial (nd : Nat → Bool) (hnd : ∀ c, c < 128 → nd c = isDigit c) (lim : Nat) (t pre mid post : Text)
    (hb : IsBlock t pre mid post) (l : List Text) (hl : Runs nd (firstWord ++ (mid ++ lastWord)) l) (h2 : 2 ≤ l.length)
    (hg : ∀ r ∈ l, GoodNumeral lim r) :
    scrapeSubframe (F := F) nd lim t = .ok (.tuple (l.map fun r => .int (textNat r : Nat))) := by
  have hne : l ≠ [] := by rintro rfl; simp at h2
  rw [scrape_block hb hl, evalNumerals, eval_runs hnd hl hne hg]
  match l, h2 with
  | a :: b :: l, _ => simp

/-- C104: with one run of digits the result is a number and no tuple -/
theorem C104_one_number (nd : Nat → Bool) (hnd : ∀ c, c < 128 → nd c = isDigit c) (lim : Nat) (t pre mid post : Text)
    (hb : IsBlock t pre mid post) (r : Text) (hl : Runs nd (firstWord ++ (mid ++ lastWord)) [r]) (hg : GoodNumeral lim r) :
    scrapeSubframe (F := F) nd lim t = .ok (.int (textNat r : Nat)) := by
  rw [scrape_block hb hl, evalNumerals, eval_runs hnd hl (by simp) (by simpa using hg)]
  rfl

/-- C104: with none, or with one that Python does not take for a numeral, it raises `SyntaxError` -/
theorem C104_bad_numeral (nd : Nat → Bool) (hnd : ∀ c, c < 128 → nd c = isDigit c) (lim : Nat) (t pre mid post : Text)
    (hb : IsBlock t pre mid post) (l : List Text) (hl : Runs nd (firstWord ++ (mid ++ lastWord)) l)
    (hg : l = [] ∨ ∃ r ∈ l, ¬ GoodNumeral lim r) : scrapeSubframe (F := F) nd lim t = .error .syntaxError := by
  rw [scrape_block hb hl, evalNumerals]
  rcases hg with rfl | hg
  · rfl
  · have hne : l ≠ [] := by rintro rfl; simp at hg
    have hp := runs_parts hl
    rw [cutAt_join hne, numerals_bad hg]
    intro a ha c hc hc44
    have := (hp a ha).2 c hc
    rw [hc44, hnd 44 (by omega)] at this
    revert this; decide

/-- C104, in full: whenever there is a block, the result is the tuple of its numbers -/
def C104_full : Prop :=
  ∀ (nd : Nat → Bool), (∀ c, c < 128 → nd c = isDigit c) → ∀ (lim : Nat) (t pre mid post : Text), IsBlock t pre mid post →
    ∀ l, Runs nd (firstWord ++ (mid ++ lastWord)) l →
      scrapeSubframe (F := Unit) nd lim t = .ok (.tuple (l.map fun r => .int (textNat r : Nat)))

/-! ## examples -/

theorem isBlock_of_search {t m post : Text} (h : searchRe subframeGroup t = some (m, post)) :
    ∃ pre mid, IsBlock t pre mid post ∧ firstWord ++ (mid ++ lastWord) = m := by
  obtain ⟨pre, mid, h1, h2⟩ := search_some h
  exact ⟨pre, mid, h1, h2.symm⟩

/-- a label with two blocks -/
def subframeLabel : Text :=
  codes "GROUP = SUBFRAME_PARMS\n FIRST_LINE = 1\n FIRST_LINE_SAMPLE = 17\n LINES = 1200\n LINE_SAMPLES = 1648\nEND_GROUP = SUBFRAME_PARMS\nX = 5\nEND".toList

/-- a run of digits after other characters -/
theorem runs_cons {nd : Nat → Bool} {a r rest t : Text} {l : List Text} (e : t = a ++ (r ++ rest)) (ha : ∀ c ∈ a, nd c = false)
    (hne : r ≠ []) (hr : ∀ c ∈ r, nd c = true) (hrest : ∀ c t, rest = c :: t → nd c = false) (hl : Runs nd rest l) :
    Runs nd t (r :: l) := by
  subst e
  exact .some ha hne hr hrest hl

/-- the result is the tuple of four numbers -/
example : scrapeSubframe (F := Unit) isDigit 4300 subframeLabel = .ok (.tuple [.int 1, .int 17, .int 1200, .int 1648]) := by
  have hs : searchRe subframeGroup subframeLabel = some (codes
      "SUBFRAME_PARMS\n FIRST_LINE = 1\n FIRST_LINE_SAMPLE = 17\n LINES = 1200\n LINE_SAMPLES = 1648\nEND".toList,
      codes "_GROUP = SUBFRAME_PARMS\nX = 5\nEND".toList) := by decide +kernel
  obtain ⟨pre, mid, hb, hm⟩ := isBlock_of_search hs
  have hr : Runs isDigit (firstWord ++ (mid ++ lastWord)) [[49], [49, 55], [49, 50, 48, 48], [49, 54, 52, 56]] := by
    rw [hm]
    refine runs_cons (a := codes "SUBFRAME_PARMS\n FIRST_LINE = ".toList)
      (rest := codes "\n FIRST_LINE_SAMPLE = 17\n LINES = 1200\n LINE_SAMPLES = 1648\nEND".toList) (by decide) (by decide) (by decide) (by decide)
      (by intro c t e; simp [codes] at e; rw [← e.1]; decide) ?_
    refine runs_cons (a := codes "\n FIRST_LINE_SAMPLE = ".toList)
      (rest := codes "\n LINES = 1200\n LINE_SAMPLES = 1648\nEND".toList) (by decide) (by decide) (by decide) (by decide)
      (by intro c t e; simp [codes] at e; rw [← e.1]; decide) ?_
    refine runs_cons (a := codes "\n LINES = ".toList)
      (rest := codes "\n LINE_SAMPLES = 1648\nEND".toList) (by decide) (by decide) (by decide) (by decide)
      (by intro c t e; simp [codes] at e; rw [← e.1]; decide) ?_
    refine runs_cons (a := codes "\n LINE_SAMPLES = ".toList)
      (rest := codes "\nEND".toList) (by decide) (by decide) (by decide) (by decide)
      (by intro c t e; simp [codes] at e; rw [← e.1]; decide) ?_
    exact .none (by decide)
  exact C104_numbers_partial isDigit (fun _ _ => rfl) 4300 _ _ _ _ hb _ hr (by decide) (by simp [GoodNumeral])

example : scrapeSubframe (F := Unit) isDigit 4300 (codes "LINES = 1200 END".toList) = .error .attributeError :=
  C104_no_block _ _ _ (search_none (by decide))

/-- one number, no number, a leading zero, a digit that is not ASCII -/
example : scrapeSubframe (F := Unit) isDigit 4300 (codes "SUBFRAME 7 END".toList) = .ok (.int 7) ∧
    scrapeSubframe (F := Unit) isDigit 4300 (codes "SUBFRAME END".toList) = .error .syntaxError ∧
    scrapeSubframe (F := Unit) isDigit 4300 (codes "SUBFRAME 1 012 END".toList) = .error .syntaxError ∧
    scrapeSubframe (F := Unit) (fun c => isDigit c || c == 0x661) 4300 (codes "SUBFRAME 1 ١ END".toList) = .error .syntaxError :=
  ⟨rfl, rfl, rfl, rfl⟩

theorem seven_block : ∃ pre mid post, IsBlock (codes "SUBFRAME 7 END".toList) pre mid post ∧
    Runs isDigit (firstWord ++ (mid ++ lastWord)) [[55]] := by
  have hs : searchRe subframeGroup (codes "SUBFRAME 7 END".toList) = some (codes "SUBFRAME 7 END".toList, []) := by decide +kernel
  obtain ⟨pre, mid, hb, hm⟩ := isBlock_of_search hs
  refine ⟨pre, mid, [], hb, ?_⟩
  rw [hm]
  exact runs_cons (a := codes "SUBFRAME ".toList) (rest := codes " END".toList) (by decide) (by decide) (by decide) (by decide)
      (by intro c t e; simp [codes] at e; rw [← e.1]; decide) (.none (by decide))

example : scrapeSubframe (F := Unit) isDigit 4300 (codes "SUBFRAME 7 END".toList) = .ok (.int 7) := by
  obtain ⟨_, _, _, hb, hr⟩ := seven_block
  exact C104_one_number isDigit (fun _ _ => rfl) 4300 _ _ _ _ hb _ hr (by refine ⟨?_, ?_, ?_⟩ <;> decide)

example : scrapeSubframe (F := Unit) isDigit 4300 (codes "SUBFRAME 012 END".toList) = .error .syntaxError := by
  have hs : searchRe subframeGroup (codes "SUBFRAME 012 END".toList) = some (codes "SUBFRAME 012 END".toList, []) := by decide +kernel
  obtain ⟨pre, mid, hb, hm⟩ := isBlock_of_search hs
  refine C104_bad_numeral isDigit (fun _ _ => rfl) 4300 _ _ _ _ hb [[48, 49, 50]] ?_ (Or.inr ⟨[48, 49, 50], by simp, fun h => ?_⟩)
  · rw [hm]
    exact runs_cons (a := codes "SUBFRAME ".toList) (rest := codes " END".toList) (by decide) (by decide) (by decide) (by decide)
      (by intro c t e; simp [codes] at e; rw [← e.1]; decide) (.none (by decide))
  · rcases h.2.1 with h | h
    · simp at h
    · simpa using h 49 (by simp)

/-- C104: the full statement is false: `SUBFRAME 7 END` gives 7 and not (7,) -/
theorem C104_full_false : ¬ C104_full := by
  intro h
  obtain ⟨_, _, _, hb, hr⟩ := seven_block
  have h1 := h isDigit (fun _ _ => rfl) 4300 _ _ _ _ hb _ hr
  have h2 := C104_one_number (F := Unit) isDigit (fun _ _ => rfl) 4300 _ _ _ _ hb _ hr (by refine ⟨?_, ?_, ?_⟩ <;> decide)
  have h3 := h1.symm.trans h2
  simp at h3

end Verif.Props
