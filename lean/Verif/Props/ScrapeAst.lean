import Verif.Model.ScrapeAst
import Verif.Props.Ast
/-!
# C105: what `make_scraper` makes of a group
-/
namespace Verif.Props
open Verif Verif.Model Verif.Spec Verif.Lemmas
variable {F Pat : Type}

/-- the searches of a text: whatever `re` does -/
abbrev Search (Pat : Type) := Pat → Str → Except PyErr (Option (Except PyErr (Option Str)))

/-- C105: a group that is the text of a finite value of the built-in types gives that value -/
theorem C105_literals (E : PyLits F) (hE : LitsOK E) (search : Search Pat) (text : Str) (p : Pat) (s : Str)
    (h : search p text = .ok (some (.ok (some s)))) (v : PyVal F) (hs : Sound E v) (hf : AllFinite v) (hd : depth v ≤ E.nesting)
    (hv : pyRepr E v = .ok (codes s)) : scrape (astRegex E search) text p = .ok v := by
  have h1 := (literalEval_repr hE hs hd hv).1 hf
  simp only [scrape, astRegex, h, h1, litResult]

/-- C105: a group with nan or an infinity in it, written as `repr` does, stays a text -/
theorem C105_nan (E : PyLits F) (hE : LitsOK E) (search : Search Pat) (text : Str) (p : Pat) (s : Str)
    (h : search p text = .ok (some (.ok (some s)))) (v : PyVal F) (hs : Sound E v) (hf : ¬ AllFinite v) (hd : depth v ≤ E.nesting)
    (hv : pyRepr E v = .ok (codes s)) : scrape (astRegex E search) text p = .ok (.str (codes s)) := by
  have h1 := (literalEval_repr hE hs hd hv).2 hf
  simp only [scrape, astRegex, h, h1, litResult]

/-- C105: a group that is a word stays a text -/
theorem C105_words (E : PyLits F) (search : Search Pat) (text : Str) (p : Pat) (s : Str)
    (h : search p text = .ok (some (.ok (some s)))) (hw : IsWord (codes s)) : scrape (astRegex E search) text p = .ok (.str (codes s)) := by
  have h1 : literalEval E (codes s) = .error .valueError := by
    obtain ⟨b, hb, hd⟩ := C103_words_raise E (codes s) hw
    have hu : utf8Decode b = .ok (codes s) := by
      refine utf8Decode_encode (fun c hc => ?_) hb
      obtain ⟨d, r, e, hc1, hr, _⟩ := hw
      rw [e] at hc
      rcases List.mem_cons.1 hc with rfl | hc
      · unfold Letter at hc1; omega
      · have := hr c hc; unfold Letter at this; omega
    simpa only [astCodec, hu, bind, Except.bind] using hd
  simp only [scrape, astRegex, h, h1, litResult]

/-- C105: so the result does not tell whether the pattern was found: a group `None` gives None, as no match does -/
theorem C105_none_ambiguous (E : PyLits F) (hE : LitsOK E) (search : Search Pat) (text text' : Str) (p p' : Pat)
    (h : search p text = .ok (some (.ok (some "None".toList)))) (h' : search p' text' = .ok none) :
    scrape (astRegex E search) text p = scrape (astRegex E search) text' p' := by
  rw [C105_literals E hE search text p _ h .none (by simp [Sound]) (by simp [AllFinite]) (by simp [depth]) rfl]
  simp only [scrape, astRegex, h']

/-! ## examples -/

/-- a search that takes the text after the first character that is the pattern for the group -/
def afterSearch : Search Char := fun p t =>
  match t.dropWhile (· ≠ p) with
  | [] => .ok none
  | _ :: r => .ok (some (.ok (some r)))

example : scrape (astRegex wholeLits afterSearch) "LINES=(12, -3.0)".toList '=' = .ok (.tuple [.int 12, .float (.fin (-3))]) :=
  C105_literals wholeLits wholeLits_ok afterSearch _ _ "(12, -3.0)".toList rfl _ (by simp [Sound, Sounds])
    (by simp [AllFinite, AllFinites]) (by decide) rfl

example : scrape (astRegex wholeLits afterSearch) "TARGET=MOON".toList '=' = .ok (.str (codes "MOON".toList)) :=
  C105_words wholeLits afterSearch _ _ "MOON".toList rfl ⟨77, codes "OON".toList, rfl, by simp [Letter], by simp [Letter, codes], by decide⟩

example : scrape (astRegex wholeLits afterSearch) "L=[nan]".toList '=' = .ok (.str (codes "[nan]".toList)) :=
  C105_nan wholeLits wholeLits_ok afterSearch _ _ "[nan]".toList rfl (.list [.float .nan]) (by simp [Sound, Sounds])
    (by simp [AllFinite, AllFinites]) (by decide) rfl

example : scrape (astRegex wholeLits afterSearch) "L=None".toList '=' = scrape (astRegex wholeLits afterSearch) "L".toList '=' :=
  C105_none_ambiguous wholeLits wholeLits_ok afterSearch _ _ _ _ rfl rfl

end Verif.Props
