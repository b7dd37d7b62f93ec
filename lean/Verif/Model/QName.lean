import Verif.Model.Py
import Verif.Model.PyStr

/-! Model of `QualifiedName`, `/repo/svgpy/utils.py` 306-393. -/

namespace SvgPy.QName

/-- `is_ascii_whitespace`, utils.py 28 and 173-176: does the string contain an
ASCII white space character? -/
def hasAsciiWhitespace (s : Str) : Bool :=
  s.any (fun c => c == '\t' || c == '\n' || c == '\x0c' || c == '\r' || c == ' ')

/-- `_RE_QUALIFIED_NAME.match`, utils.py 30-31 and 331: `{`, then everything up
to the first `}` (greedy `[^}]*` has to stop there), then the rest of the string.
The rest is matched by `.*`, which stops at a newline; the caller has already
rejected newlines, so it is the whole rest. -/
def matchBraces : Str → Option (Str × Str)
  | '{' :: s => PyStr.cut '}' s
  | _ => none

/-- `qualified_name.split(':', maxsplit=1)` when the string contains a colon,
utils.py 339-345. -/
def splitPrefix (s : Str) : Option (Str × Str) := PyStr.cut ':' s

/-- The members set by the constructor, utils.py 366-371. -/
structure QN where
  namespace_ : Option Str
  localName : Str
  name : Str
deriving DecidableEq, Repr

/-- The last lines of the constructor, utils.py 366-371. -/
def mk (ns : Option Str) (l : Str) : QN :=
  ⟨ns, l, match ns with
    | none => l
    | some n => ['{'] ++ n ++ ['}'] ++ l⟩

/-- The prefix, local name and namespace named by the string, utils.py 331-349. -/
def analyse (nsmap : Str → Option Str) (qn : Str) : Option Str × Str × Option Str :=
  match matchBraces qn with
  | some (n, l) => (none, l, some n)
  | none =>
    match splitPrefix qn with
    | some (p, l) => (some p, l, nsmap p)
    | none => (none, qn, none)

/-- The treatment of the namespace argument, utils.py 320-325. -/
def cleanNs : Option Str → Py (Option Str)
  | none => .ok none
  | some n =>
    if n = [] then .ok none
    else if hasAsciiWhitespace n then .error (.dom "InvalidCharacterError")
    else .ok (some n)

/-- The checks after the analysis and the result, utils.py 350-371.  `ns'` is the
namespace argument, `pre`, `l`, `ns` what the string names. -/
def finish (ns' : Option Str) (pre : Option Str) (l : Str) (ns : Option Str) : Py QN :=
  -- utils.py 350-354
  if pre = some [] ∨ l = [] ∨ ns = some [] then .error .valueError
  -- utils.py 355-363
  else if (pre ≠ none ∧ (ns' = none ∨ ns = none)) ∨ (ns' ≠ none ∧ ns ≠ none ∧ ns ≠ ns') then
    .error (.dom "NamespaceError")
  -- utils.py 364-371
  else .ok (mk (match ns', ns with
    | none, some n => some n
    | ns', _ => ns') l)

/-- `QualifiedName.__init__`, utils.py 309-371. -/
def resolve (nsmap : Str → Option Str) (namespace_ : Option Str) (qn : Str) : Py QN :=
  match cleanNs namespace_ with
  | .error e => .error e
  | .ok ns' =>
    -- utils.py 326-330
    if qn = [] then .error .valueError
    else if hasAsciiWhitespace qn then .error (.dom "InvalidCharacterError")
    else
      let a := analyse nsmap qn
      finish ns' a.1 a.2.1 a.2.2

end SvgPy.QName
