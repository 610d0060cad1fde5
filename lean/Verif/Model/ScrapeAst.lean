import Verif.Model.Scrape
import Verif.Model.Ast
/-!
# scrape.py:16-30 with `ast.literal_eval` as it is

`make_scraper` (`Verif/Model/Scrape.lean`) with the `literal_eval` of `Verif/Model/Ast.lean` in place of an abstract one.
`re.search` stays abstract.
-/
namespace Verif.Model
open Verif
variable {F Pat : Type}

/-- scrape.py:25-28: `ValueError` (`UnicodeEncodeError` is one) and `SyntaxError` are caught -/
def litResult : Except PyErr (PyVal F) → LitResult (PyVal F)
  | .ok v => .value v
  | .error .valueError => .notLiteral
  | .error .syntaxError => .notLiteral
  | .error .unicodeDecode => .notLiteral
  | .error e => .raises e

/-- regular expressions with Python's literals -/
def astRegex (E : PyLits F) (search : Pat → Str → Except PyErr (Option (Except PyErr (Option Str)))) : Regex Pat (PyVal F) where
  search := search
  literalEval s := litResult (literalEval E (codes s))
  ofStr s := .str (codes s)
  none := .none

end Verif.Model
