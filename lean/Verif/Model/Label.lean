import Verif.Model.Scrape
import Verif.Py.Utf8
/-!
# Labels in UTF-8

`/repo/dustgoggles/scrape.py`: `get_label_text` and `trim_label` of `Model/Scrape.lean`, with `bytes.decode()` as it is:
strict UTF-8 (`Py/Utf8.lean`).
-/
namespace Verif.Model
open Verif

/-- `blob.decode()` (scrape.py:40, 96, 99) -/
def labelDecode (b : Bytes) : Except PyErr Str := (utf8Decode b).map fun t => t.map Char.ofNat

/-- scrape.py:33-40 `get_label_text(label, byte_size)`, of a file with this content -/
def labelText (content : Bytes) (byteSize : Int) : Except PyErr Str := getLabelText labelDecode content byteSize

/-- scrape.py:91-99 `trim_label(fn, max_size, raise_for_failure)`, of a file with this content -/
def labelTrim (content : Bytes) (maxSize : Int) (raiseForFailure : Bool) : Except PyErr Str :=
  trimLabel labelDecode content maxSize raiseForFailure

end Verif.Model
