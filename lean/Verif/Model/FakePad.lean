import Verif.Model.PadClients
/-!
# Notepads with `index_type=FakeIndex` (`/repo/dustgoggles/codex/implements.py`, lines 18-33, 318-335)

The methods are those of `Verif/Model/Notepad.lean`, with the index `.fake`.
-/
namespace Verif.Model
open Verif

/-- implements.py:604-647 `Notepad(prefix, create, index_type=FakeIndex)`: `FakeIndex.__init__` (319-320) ignores what it is given, so
nothing is looked for or made, whatever `create` is -/
def padInitFake (pre : Str) (_create : Bool) (mode : LockMode) : Prog Pad := pure { pre, index := .fake, mode }

end Verif.Model
