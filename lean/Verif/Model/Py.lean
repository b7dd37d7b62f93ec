/-!
Python exceptions as values, shared by all model files.
-/

namespace SvgPy

/-- The exception classes that the modelled code raises.  `dom` stands for the
`DOMException` subclasses of `/repo/svgpy/exception.py`, named by a string. -/
inductive PyErr where
  | typeError
  | valueError
  | indexError
  | keyError
  | attributeError
  | notImplemented
  | zeroDivision
  | dom (name : String)
deriving DecidableEq, Repr

abbrev Py (α : Type _) := Except PyErr α

end SvgPy
