import Verif.Model.Py
import Verif.Model.PyStr
import Verif.Model.PyDict

/-!
`DOMException` and its subclasses, `/repo/svgpy/exception.py` 16-213.
-/

namespace SvgPy.DomError

/-- The object: svgpy/exception.py 55-62, with the `args` of Python's `Exception`. -/
structure Exn (α : Type) where
  message : Str
  name : Str
  code : Nat
  args : List α
deriving DecidableEq, Repr

/-- `_error_names_map`, svgpy/exception.py 193-213, with the numbers of 19-43. -/
def errorNames : Dict Str Nat :=
  [("HierarchyRequestError".toList, 3), ("WrongDocumentError".toList, 4), ("InvalidCharacterError".toList, 5),
   ("NoModificationAllowedError".toList, 7), ("NotFoundError".toList, 8), ("NotSupportedError".toList, 9),
   ("InUseAttributeError".toList, 10), ("InvalidStateError".toList, 11), ("SyntaxError".toList, 12),
   ("InvalidModificationError".toList, 13), ("NamespaceError".toList, 14), ("SecurityError".toList, 18),
   ("NetworkError".toList, 19), ("AbortError".toList, 20), ("URLMismatchError".toList, 21),
   ("QuotaExceededError".toList, 22), ("TimeoutError".toList, 23), ("InvalidNodeTypeError".toList, 24),
   ("DataCloneError".toList, 25)]

/-- `_error_names_map.get(name, 0)`, svgpy/exception.py 62. -/
def codeOf (n : Str) : Nat := (errorNames.get? n).getD 0

/-- `' '.join(t)`, svgpy/exception.py 54. -/
def joinSpace : List Str → Str
  | [] => []
  | [s] => s
  | s :: t => s ++ ' ' :: joinSpace t

/-- The keyword `message`, svgpy/exception.py 46. -/
def kMessage : Str := "message".toList

/-- The keyword `name`, svgpy/exception.py 47. -/
def kName : Str := "name".toList

/-- The default name, svgpy/exception.py 47. -/
def kError : Str := "Error".toList

/-- The name of the base class, svgpy/exception.py 16 and 59. -/
def kBase : Str := "DOMException".toList

/-- `DOMException.__init__`, svgpy/exception.py 45-62.  `cls` is the name of the class of the object; a
subclass that is called `DOMException` itself is left out.  Arguments are of any type: `str` is
Python's `str()`, which is the identity on texts, and `ofStr` the text as an argument.  The values of the
keywords are texts. -/
def construct {α : Type} (str : α → Str) (ofStr : Str → α) (cls : Str) (args : List α) (kwargs : Dict Str Str) :
    Py (Exn α) :=
  let message := (kwargs.get? kMessage).getD []
  let kwargs1 := kwargs.del kMessage
  let name := (kwargs1.get? kName).getD kError
  let kwargs2 := kwargs1.del kName
  if kwargs2.length > 0 then .error .typeError
  else
    let message := if message.length = 0 ∧ args.length > 0 then joinSpace (args.map str) else message
    let args := if args.length = 0 ∧ message.length > 0 then [ofStr message] else args
    let name := if cls ≠ kBase then cls else name
    .ok ⟨message, name, codeOf name, args⟩

end SvgPy.DomError
