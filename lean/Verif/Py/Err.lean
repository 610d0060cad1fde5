/-!
# Python exceptions as values

The model represents a raised exception by a value of `PyErr`. Only the exception *classes* that the code of
`/repo/dustgoggles` raises, catches or lets escape are distinguished; `user n` stands for any other subclass of
`Exception` (raised by a caller-supplied function), `keyboardInterrupt` / `systemExit` for the `BaseException`s
that are not `Exception`s.
-/
namespace Verif

inductive PyErr where
  | keyError | indexError | typeError | valueError | attributeError | stopIteration
  | fileExists | fileNotFound | osError | overflowError | timeoutError | notImplemented
  | runtimeError | assertionError | unicodeDecode | alreadyLoaded | unready | zeroDivision
  | syntaxError | nameError | unicodeEncode
  | user (n : Nat)
  | keyboardInterrupt | systemExit
  deriving DecidableEq, Repr, Inhabited

/-- `isinstance(e, Exception)`: everything but the two pure `BaseException`s. -/
def PyErr.isException : PyErr → Bool
  | .keyboardInterrupt => false
  | .systemExit => false
  | _ => true

end Verif
