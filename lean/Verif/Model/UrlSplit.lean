import Verif.Model.Py
import Verif.Model.PyStr
import Verif.Model.Formatter

/-! What `/repo/svgpy/url.py` uses of Python's `urllib.parse.urlsplit` and `posixpath` (imported at
url.py 16-20).  This file models the standard library (Python 3.6), not a file in `/repo`. -/

namespace SvgPy.UrlSplit

/-- `s.rpartition(c)` if `c` occurs. -/
def rcut (c : Char) (s : Str) : Option (Str × Str) :=
  match PyStr.cut c s.reverse with
  | none => none
  | some (a, b) => some (b.reverse, a.reverse)

/-- The result of `urlsplit`. -/
structure Split where
  scheme : Str
  netloc : Str
  path : Str
  query : Str
  fragment : Str
deriving DecidableEq

/-- `scheme_chars`. -/
def schemeChar (c : Char) : Bool := c.isAlphanum || c == '+' || c == '-' || c == '.'

/-- The scheme and the rest: a prefix up to the first colon counts if it consists of scheme
characters, unless what follows are digits only. -/
def splitScheme (url : Str) : Str × Str :=
  match PyStr.cut ':' url with
  | none => ([], url)
  | some (a, rest) =>
    if a = [] then ([], url)
    else if a = "http".toList then (a, rest)
    else if a.all schemeChar && (rest.isEmpty || rest.any (fun c => !c.isDigit)) then (a.map Char.toLower, rest)
    else ([], url)

/-- The network location after `//` and the rest. -/
def splitNetloc (url : Str) : Str × Str :=
  match url with
  | '/' :: '/' :: r => r.span fun c => !(c == '/' || c == '?' || c == '#')
  | _ => ([], url)

/-- Cut at the first `c`; the second part is empty if there is none. -/
def cutOr (c : Char) (s : Str) : Str × Str := (PyStr.cut c s).getD (s, [])

/-- `urlsplit(url)`.  The check of non-ASCII network locations for characters that NFKC turns into
delimiters is left out. -/
def urlsplit (url : Str) : Py Split :=
  let s := splitScheme url
  let n := splitNetloc s.2
  if (n.1.contains '[') != (n.1.contains ']') then .error .valueError
  else
    let f := cutOr '#' n.2
    let q := cutOr '?' f.1
    .ok ⟨s.1, n.1, q.1, q.2, f.2⟩

/-- The part of the network location after the last `@`. -/
def hostinfo (netloc : Str) : Str :=
  match rcut '@' netloc with
  | none => netloc
  | some (_, b) => b

/-- `SplitResult.username`, `SplitResult.password`. -/
def userinfo (netloc : Str) : Option Str × Option Str :=
  match rcut '@' netloc with
  | none => (none, none)
  | some (u, _) => match PyStr.cut ':' u with
    | none => (some u, none)
    | some (a, b) => (some a, some b)

/-- `SplitResult._hostinfo`: host name and port as texts. -/
def hostPort (netloc : Str) : Str × Str :=
  match PyStr.cut '[' (hostinfo netloc) with
  | some (_, br) =>
    let h := cutOr ']' br
    (h.1, (cutOr ':' h.2).2)
  | none => cutOr ':' (hostinfo netloc)

/-- `SplitResult.hostname`. -/
def hostname (netloc : Str) : Option Str :=
  if (hostPort netloc).1 = [] then none else some ((hostPort netloc).1.map Char.toLower)

/-- `int(s)` of ASCII digits; signs, white space, underscores and other digits, which `int`
accepts, are left out. -/
def intVal (s : Str) : Nat := s.foldl (fun n c => 10 * n + (c.toNat - 48)) 0

/-- `str(n)`. -/
def strNat (n : Nat) : Str := Formatter.decimal n

/-- `SplitResult.port`. -/
def port (netloc : Str) : Py (Option Nat) :=
  let p := (hostPort netloc).2
  if p = [] then .ok none
  else if !p.all Char.isDigit || intVal p > 65535 then .error .valueError
  else .ok (some (intVal p))

/-! ### `posixpath` -/

/-- `os.path.isabs`. -/
def isabs (s : Str) : Bool := s.head? == some '/'

/-- `s.rstrip('/')`. -/
def rstripSlash (s : Str) : Str := (s.reverse.dropWhile (· == '/')).reverse

/-- `os.path.dirname`. -/
def dirname (p : Str) : Str :=
  match rcut '/' p with
  | none => []
  | some (a, _) => if a.all (· == '/') then a ++ ['/'] else rstripSlash (a ++ ['/'])

/-- `os.path.join(a, b)`. -/
def joinPath (a b : Str) : Str :=
  if isabs b then b
  else if a = [] ∨ a.getLast? = some '/' then a ++ b
  else a ++ '/' :: b

/-- The loop of `os.path.normpath`; `acc` holds the components kept so far, the last one first. -/
def normLoop (slashes : Bool) (acc : List Str) : List Str → List Str
  | [] => acc.reverse
  | c :: cs =>
    if c = [] ∨ c = ['.'] then normLoop slashes acc cs
    else if c ≠ ['.', '.'] ∨ (slashes = false ∧ acc = []) ∨ (acc ≠ [] ∧ acc.head? = some ['.', '.']) then normLoop slashes (c :: acc) cs
    else normLoop slashes acc.tail cs

/-- The number of slashes kept in front. -/
def initialSlashes : Str → Nat
  | '/' :: '/' :: '/' :: _ => 1
  | '/' :: '/' :: _ => 2
  | '/' :: _ => 1
  | _ => 0

/-- `os.path.normpath`. -/
def normpath (p : Str) : Str :=
  if p = [] then ['.']
  else
    let n := initialSlashes p
    let r := List.replicate n '/' ++ PyStr.join ['/'] (normLoop (decide (n ≠ 0)) [] (PyStr.splitOn '/' p))
    if r = [] then ['.'] else r

end SvgPy.UrlSplit
