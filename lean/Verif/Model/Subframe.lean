import Verif.Py.Lit
/-!
# scrape.py:43-59: `SUBFRAME_GROUP` and `scrape_subframe`

`re.search` and `re.findall` are modelled for the patterns used: characters, sequences, and `*` or `*?` of one character. What
`ast.literal_eval` does is modelled for numerals with commas between them, which is all it gets here (Python's grammar: leading
zeros and characters that are not ASCII are syntax errors, and so are numerals of too many digits; one numeral is a number,
several with commas are a tuple).
-/
namespace Verif.Model
open Verif

/-- patterns -/
inductive Re where
  | sat (p : Nat → Bool)
  | seq (a b : Re)
  | star (isLazy : Bool) (p : Nat → Bool)
  | empty

/-- `p*?` and then `k`: as few as possible -/
def starLazy (p : Nat → Bool) (k : Text → Option Text) : Text → Option Text
  | [] => k []
  | c :: r =>
    match k (c :: r) with
    | some x => some x
    | none => if p c then starLazy p k r else none

/-- `p*` and then `k`: as many as possible -/
def starGreedy (p : Nat → Bool) (k : Text → Option Text) : Text → Option Text
  | [] => k []
  | c :: r =>
    if p c then
      match starGreedy p k r with
      | some x => some x
      | none => k (c :: r)
    else k (c :: r)

/-- match a pattern at the beginning of a text, then go on with `k`; the result is what remains of the text -/
def Re.run : Re → (Text → Option Text) → Text → Option Text
  | .sat p, k, c :: r => if p c then k r else none
  | .sat _, _, [] => none
  | .seq a b, k, t => a.run (b.run k) t
  | .star true p, k, t => starLazy p k t
  | .star false p, k, t => starGreedy p k t
  | .empty, k, t => k t

/-- `re.search(p, t)`: the text of the match and what remains -/
def searchRe (p : Re) : Text → Option (Text × Text)
  | [] => (p.run some []).map fun r => ([], r)
  | c :: t =>
    match p.run some (c :: t) with
    | some r => some ((c :: t).take ((c :: t).length - r.length), r)
    | none => searchRe p t

/-- `re.findall(p, t)`, for patterns that do not match the empty text. The number bounds the steps -/
def findAll (p : Re) : Nat → Text → List Text
  | 0, _ => []
  | f + 1, t =>
    match searchRe p t with
    | none => []
    | some (m, r) => m :: findAll p f r

/-- a literal text -/
def litRe : Text → Re
  | [] => .empty
  | c :: t => .seq (.sat (· == c)) (litRe t)

def subframeWord : Text := codes "SUBFRAME".toList
def endWord : Text := codes "END".toList

/-- scrape.py:44 `SUBFRAME.*?END`, with DOTALL -/
def subframeGroup : Re := .seq (litRe subframeWord) (.seq (.star true fun _ => true) (litRe endWord))

/-- `\d+`; `nd` are the decimal digits of Unicode -/
def digitsRe (nd : Nat → Bool) : Re := .seq (.sat nd) (.star false nd)

/-- `sep.join(l)` for a character -/
def joinWith (sep : Nat) : List Text → Text
  | [] => []
  | [a] => a
  | a :: b :: l => a ++ sep :: joinWith sep (b :: l)

/-- a text cut at a character -/
def cutAt (sep : Nat) : Text → List Text
  | [] => [[]]
  | c :: t => if c = sep then [] :: cutAt sep t else
    match cutAt sep t with
    | [] => [[c]]
    | a :: l => (c :: a) :: l

/-- the number of a decimal numeral in source code; `lim` is the most digits it may have, 0 is no limit -/
def numeral (lim : Nat) (t : Text) : Option Nat :=
  if t ≠ [] ∧ t.all isDigit = true ∧ (t.head? ≠ some 48 ∨ t.all (· == 48) = true) ∧ (lim = 0 ∨ t.length ≤ lim) then some (textNat t)
  else none

/-- all of them, or none -/
def numerals (lim : Nat) : List Text → Option (List Nat)
  | [] => some []
  | t :: r =>
    match numeral lim t, numerals lim r with
    | some n, some ns => some (n :: ns)
    | _, _ => none

/-- `ast.literal_eval` of numerals with commas between them (a comma at the end, which is allowed, does not occur) -/
def evalNumerals {F : Type} (lim : Nat) (t : Text) : Except PyErr (PyVal F) :=
  match numerals lim (cutAt 44 t) with
  | none => .error .syntaxError
  | some [n] => .ok (.int (n : Nat))
  | some ns => .ok (.tuple (ns.map fun n => .int (n : Nat)))

/-- scrape.py:47-59 `scrape_subframe` -/
def scrapeSubframe {F : Type} (nd : Nat → Bool) (lim : Nat) (t : Text) : Except PyErr (PyVal F) :=
  match searchRe subframeGroup t with
  | none => .error .attributeError                                     -- `None.group()`
  | some (m, _) => evalNumerals lim (joinWith 44 (findAll (digitsRe nd) (m.length + 1) m))

end Verif.Model
