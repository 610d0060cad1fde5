import Verif.Py.Lit
/-! # What is abstract of Python's literals -/
namespace Verif

/-- how Python writes and reads literals, where that is abstract -/
structure PyLits (F : Type) where
  /-- `float.__repr__` of finite floats -/
  repr : F → Text
  /-- the float of an unsigned numeral -/
  read : Text → PyFloat F
  /-- `-x` -/
  neg : F → F
  /-- `str.isprintable` of a character that is not ASCII -/
  printable : Nat → Bool
  /-- `a == b` as `dict` and `set` see it -/
  same : PyVal F → PyVal F → Bool
  /-- `str` of objects of other types -/
  shown : Nat → Text
  /-- `sys.get_int_max_str_digits()`, 0 is no limit -/
  digits : Nat
  /-- brackets may be nested as deep as this in source code -/
  nesting : Nat
  /-- `ast.literal_eval` of texts outside the modelled part of the grammar -/
  elsewhere : Text → Except PyErr (PyVal F)

end Verif
