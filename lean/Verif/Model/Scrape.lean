import Verif.Py.Dict
import Verif.Py.Err
import Verif.Py.Str
/-!
# scrape.py

Abstract: `bytes.decode()`, `re.search`, `ast.literal_eval`. `scrape_subframe` is in `Model/Subframe.lean`. Not modelled:
`cached_ls` and `cached_exists` beyond what holds of every `functools.cache`, readers in place of file names.
-/
namespace Verif.Model
open Verif

/-- `file.read(n)`: everything for negative `n` -/
def readBytes (content : Bytes) (n : Int) : Bytes := if n < 0 then content else content.take n.toNat

/-- `KNOWN_LABEL_ENDINGS` (scrape.py:85-88): `END\r\n`, and three NULs -/
def endPVL : Bytes := [69, 78, 68, 13, 10]
def endNul : Bytes := [0, 0, 0]

/-- `re.search(ending, head)` for such an ending: the end of the first match -/
def findEnd (needle : Bytes) : Bytes → Option Nat
  | [] => if needle = [] then some 0 else none
  | b :: t => if needle.isPrefixOf (b :: t) then some needle.length else (findEnd needle t).map (· + 1)

/-- the loop of 94-96 -/
def trimAt (head : Bytes) : List Bytes → Option Bytes
  | [] => none
  | e :: t => match findEnd e head with
    | some n => some (head.take n)
    | none => trimAt head t

/-- scrape.py:91-99 `trim_label`, of a file with this content -/
def trimLabel (decode : Bytes → Except PyErr Str) (content : Bytes) (maxSize : Int) (raiseForFailure : Bool) : Except PyErr Str :=
  let head := readBytes content maxSize                               -- 92, 75-82
  match trimAt head [endPVL, endNul] with                             -- 94-96
  | some b => decode b
  | none => if raiseForFailure then .error .valueError else decode head   -- 97-99

/-- scrape.py:33-40 `get_label_text`, of a file with this content -/
def getLabelText (decode : Bytes → Except PyErr Str) (content : Bytes) (byteSize : Int) : Except PyErr Str :=
  decode (readBytes content byteSize)

/-- what `ast.literal_eval` does with a text: a value; `ValueError` or `SyntaxError`; another exception -/
inductive LitResult (V : Type) where
  | value (v : V)
  | notLiteral
  | raises (e : PyErr)

/-- regular expressions and literals. A match gives `group(1)`: raising if the pattern has no group, `none` if the group
has not taken part in the match. `ofStr` and `none` are strings and `None` as values. -/
structure Regex (Pat V : Type) where
  search : Pat → Str → Except PyErr (Option (Except PyErr (Option Str)))
  literalEval : Str → LitResult V
  ofStr : Str → V
  none : V

variable {Pat V Label Field : Type}

/-- scrape.py:16-30 `make_scraper(label_text)(pattern)`. `literal_eval(None)` raises `ValueError`. -/
def scrape (re : Regex Pat V) (text : Str) (pattern : Pat) : Except PyErr V :=
  match re.search pattern text with
  | .error e => .error e
  | .ok .none => .ok re.none                                          -- 23-24
  | .ok (some (.error e)) => .error e                                 -- group(1)
  | .ok (some (.ok .none)) => .ok re.none                             -- 27-28
  | .ok (some (.ok (some s))) => match re.literalEval s with          -- 25-28
    | .value v => .ok v
    | .notLiteral => .ok (re.ofStr s)
    | .raises e => .error e

/-- the fields (118-120) -/
def scrapeFields (re : Regex Pat V) (text : Str) : Dict Field Pat → Except PyErr (Dict Field V)
  | [] => .ok []
  | (f, p) :: t => match scrape re text p with
    | .error e => .error e
    | .ok v => match scrapeFields re text t with
      | .error e => .error e
      | .ok d => .ok ((f, v) :: d)

/-- scrape.py:105-125 `scrape_patterns` -/
def scrapePatterns [DecidableEq Field] (re : Regex Pat V) (label : Label) (regexes : Dict Field Pat)
    (supplemental : Option (Label → Str → Except PyErr (Dict Field V))) (loader : Label → Except PyErr Str) :
    Except PyErr (Dict Field V) :=
  match loader label with                                             -- 114
  | .error e => .error e
  | .ok text => match scrapeFields re text regexes with
    | .error e => .error e
    | .ok d => match supplemental with                                -- 123-124
      | .none => .ok d
      | some f => match f label text with
        | .error e => .error e
        | .ok x => .ok (d.update x)

/-- scrape.py:128-137 `bulk_scrape_metadata` -/
def bulkScrape (scraper : Label → Except PyErr V) : List Label → Except PyErr (List V)
  | [] => .ok []
  | l :: t => match scraper l with
    | .error e => .error e
    | .ok v => match bulkScrape scraper t with
      | .error e => .error e
      | .ok vs => .ok (v :: vs)

/-! ## Caches -/

/-- a call through `functools.cache`: exceptions are not kept -/
def cached {K R : Type} [DecidableEq K] (c : Dict K R) (k : K) (compute : Except PyErr R) : Except PyErr R × Dict K R :=
  match c.get? k with
  | some r => (.ok r, c)
  | none => match compute with
    | .ok r => (.ok r, c.set k r)
    | .error e => (.error e, c)

/-- file system and caches. A file that cannot be opened gives the exception. The keys are the arguments as given. `reads`
notes the calls that have read a file to the end of the function without an exception. -/
structure Scr (Label Pat V : Type) where
  files : Label → Except PyErr Bytes
  loader : Dict (Label × Option Int) Str := []
  trimmer : Dict (Label × Option Int × Option Bool) Str := []
  scraped : Dict (Label × Pat) V := []
  reads : List ((Label × Option Int) ⊕ (Label × Option Int × Option Bool)) := []

/-- what the functions use -/
structure ScrEnv (Pat V : Type) where
  re : Regex Pat V
  decode : Bytes → Except PyErr Str

/-- `byte_size` and `MAX_LABEL_SIZE` -/
def defaultByteSize : Int := 35592
def maxLabelSize : Int := 500 * 1024

variable [DecidableEq Label] [DecidableEq Pat]

/-- the file's text, when the loader computes it -/
def loadText (env : ScrEnv Pat V) (s : Scr Label Pat V) (k : Label × Option Int) : Except PyErr Str :=
  match s.files k.1 with
  | .error e => .error e
  | .ok b => getLabelText env.decode b (k.2.getD defaultByteSize)

/-- note a successful reading, if the cache had not the key -/
def noteRead {R : Type} (had : Bool) (r : Except PyErr R) (k : (Label × Option Int) ⊕ (Label × Option Int × Option Bool))
    (l : List ((Label × Option Int) ⊕ (Label × Option Int × Option Bool))) :
    List ((Label × Option Int) ⊕ (Label × Option Int × Option Bool)) :=
  match had, r with
  | false, .ok _ => l ++ [k]
  | _, _ => l

/-- scrape.py:63 `cached_label_loader` -/
def loadLabel (env : ScrEnv Pat V) (k : Label × Option Int) (s : Scr Label Pat V) : Except PyErr Str × Scr Label Pat V :=
  let r := cached s.loader k (loadText env s k)
  (r.1, { s with loader := r.2, reads := noteRead (s.loader.get? k).isSome r.1 (.inl k) s.reads })

/-- the file's trimmed text, when the trimmer computes it -/
def trimText (env : ScrEnv Pat V) (s : Scr Label Pat V) (k : Label × Option Int × Option Bool) : Except PyErr Str :=
  match s.files k.1 with
  | .error e => .error e
  | .ok b => trimLabel env.decode b (k.2.1.getD maxLabelSize) (k.2.2.getD false)

/-- scrape.py:102 `cached_label_trimmer` -/
def trimCached (env : ScrEnv Pat V) (k : Label × Option Int × Option Bool) (s : Scr Label Pat V) :
    Except PyErr Str × Scr Label Pat V :=
  let r := cached s.trimmer k (trimText env s k)
  (r.1, { s with trimmer := r.2, reads := noteRead (s.trimmer.get? k).isSome r.1 (.inr k) s.reads })

/-- scrape.py:66-68 `scrape_from_file` -/
def scrapeFromFile (env : ScrEnv Pat V) (label : Label) (pattern : Pat) (s : Scr Label Pat V) :
    Except PyErr V × Scr Label Pat V :=
  match s.scraped.get? (label, pattern) with
  | some v => (.ok v, s)
  | none => match loadLabel env (label, none) s with
    | (.error e, s1) => (.error e, s1)
    | (.ok text, s1) => match scrape env.re text pattern with
      | .error e => (.error e, s1)
      | .ok v => (.ok v, { s1 with scraped := s1.scraped.set (label, pattern) v })

/-- what can happen: the three functions are called, files change -/
inductive ScrOp (Label Pat : Type) where
  | load (k : Label × Option Int)
  | trim (k : Label × Option Int × Option Bool)
  | scrape (label : Label) (pattern : Pat)
  | modify (label : Label) (content : Except PyErr Bytes)

/-- results are put aside -/
def scrOp (env : ScrEnv Pat V) (s : Scr Label Pat V) : ScrOp Label Pat → Scr Label Pat V
  | .load k => (loadLabel env k s).2
  | .trim k => (trimCached env k s).2
  | .scrape l p => (scrapeFromFile env l p s).2
  | .modify l c => { s with files := fun l' => if l' = l then c else s.files l' }

/-- a history -/
def scrRun (env : ScrEnv Pat V) (s : Scr Label Pat V) (ops : List (ScrOp Label Pat)) : Scr Label Pat V := ops.foldl (scrOp env) s

end Verif.Model
