import Verif.Model.Codecs
/-!
# `/repo/dustgoggles/test_utils/core.py:67-92`: `piped`, `wrap_piped`

A function runs in a child process (fork) and its result comes back through a duplex `Pipe()`, a pair of connected
sockets. CPython 3.11's `multiprocessing/connection.py` (`Connection._send_bytes`, `_send`, `_recv_bytes`, `_recv`) is
modelled with its message header; the kernel's buffer holds `cap` bytes (a simplification: the kernel counts more than
the bytes of the message). A write or read moves any positive number of bytes that fits.
-/
namespace Verif.Model
open Verif

/-- how a call of the function ends in the child: with a result, with an `Exception` (here the exception object), or in
any other way (`KeyboardInterrupt`, `SystemExit`, a signal) -/
inductive CallEnd (V : Type) where
  | returned (v : V)
  | raised (e : V)
  | escaped

/-- test_utils/core.py:71-75: the object handed to `there.send` -/
def toSend {V : Type} : CallEnd V → Option V
  | .returned v => some v                                                      -- 72
  | .raised e => some e                                                        -- 73-74
  | .escaped => none

/-- `width` bytes, most significant first (`struct.pack("!i" / "!Q", n)` for the numbers used) -/
def beBytes : Nat → Nat → Bytes
  | 0, _ => []
  | w + 1, n => beBytes w (n / 256) ++ [n % 256]

/-- the number the bytes denote -/
def beNat (b : Bytes) : Nat := b.foldl (fun a x => a * 256 + x) 0

/-- connection.py `_send_bytes`: everything written for a message -/
def framed (b : Bytes) : Bytes :=
  if b.length > 0x7fffffff then [255, 255, 255, 255] ++ beBytes 8 b.length ++ b
  else beBytes 4 b.length ++ b

/-- connection.py `_recv_bytes`, `_recv`: how many bytes are still waited for after `got` -/
def awaited (got : Bytes) : Nat :=
  if got.length < 4 then 4 - got.length
  else
    let size := beNat (got.take 4)
    if size = 0xffffffff then                                                  -- -1
      if got.length < 12 then 12 - got.length
      else 12 + beNat ((got.drop 4).take 8) - got.length
    else if size > 0x7fffffff then 4 - got.length                              -- another negative number: nothing is read
    else 4 + size - got.length

/-- the message in the bytes received -/
def unframed (got : Bytes) : Bytes := if beNat (got.take 4) = 0xffffffff then got.drop 12 else got.drop 4

/-- the child: computing, writing (these bytes are left), ended -/
inductive ChildAt where
  | computing
  | writing (rest : Bytes)
  | ended

/-- the parent in test_utils/core.py:80-90: in `join`, in `recv` (these bytes have been read), returned or raised, or
(with `block=False`) returned with the process -/
inductive ParentAt (V : Type) where
  | joining                                                                    -- 85
  | receiving (got : Bytes)                                                    -- 86
  | finished (r : Except PyErr V)                                              -- 88
  | away                                                                       -- 89

structure PipeState (V : Type) where
  child : ChildAt
  buffer : Bytes
  parent : ParentAt V

/-- `proc.start()` has returned (83) -/
def pipeStart {V : Type} (block : Bool) : PipeState V :=
  ⟨.computing, [], if block then .joining else .away⟩

/-- one step of either process; `fin` is how the call ends -/
inductive PipeStep {V : Type} (c : Codec V) (cap : Nat) (fin : CallEnd V) : PipeState V → PipeState V → Prop
  /-- the function is done and its result pickled: the child begins to write -/
  | send (v : V) (b buf : Bytes) (p : ParentAt V) : toSend fin = some v → c.encode v = .ok b →
      PipeStep c cap fin ⟨.computing, buf, p⟩ ⟨.writing (framed b), buf, p⟩
  /-- nothing to send, or pickling raises: the child ends -/
  | fail (buf : Bytes) (p : ParentAt V) : (∀ v, toSend fin = some v → ∃ e, c.encode v = .error e) →
      PipeStep c cap fin ⟨.computing, buf, p⟩ ⟨.ended, buf, p⟩
  /-- `os.write` takes some bytes -/
  | write (x y buf : Bytes) (p : ParentAt V) : x ≠ [] → buf.length + x.length ≤ cap →
      PipeStep c cap fin ⟨.writing (x ++ y), buf, p⟩ ⟨.writing y, buf ++ x, p⟩
  /-- all is written: `sendback` returns, the child ends -/
  | quit (buf : Bytes) (p : ParentAt V) : PipeStep c cap fin ⟨.writing [], buf, p⟩ ⟨.ended, buf, p⟩
  /-- `proc.join()` returns when the child has ended -/
  | join (buf : Bytes) : PipeStep c cap fin ⟨.ended, buf, .joining⟩ ⟨.ended, buf, .receiving []⟩
  /-- `os.read` gives some of the bytes there are. There is no end of file: the parent has the other end open itself -/
  | read (ch : ChildAt) (x y got : Bytes) : x ≠ [] → x.length ≤ awaited got →
      PipeStep c cap fin ⟨ch, x ++ y, .receiving got⟩ ⟨ch, y, .receiving (got ++ x)⟩
  /-- the message is complete: unpickle -/
  | load (ch : ChildAt) (buf got : Bytes) : awaited got = 0 →
      PipeStep c cap fin ⟨ch, buf, .receiving got⟩ ⟨ch, buf, .finished (c.decode (unframed got))⟩

end Verif.Model
