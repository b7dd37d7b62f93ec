import Verif.Model.PyStr
import Verif.Model.PyDict

/-! `URLSearchParams`, `/repo/svgpy/url.py` 587-629, with `urlencode` of `urllib.parse` for texts. -/

namespace SvgPy.SearchParams

open SvgPy.PyStr

/-- `URLSearchParams._data`, url.py 590-592. -/
abbrev Params := Dict Str Str

/-- `URLSearchParams(pairs)`, url.py 590-592. -/
def init (ps : List (Str × Str)) : Params := Dict.update [] (Dict.ofPairs ps)

/-- `__setitem__`, url.py 609-610. -/
def set (d : Params) (k v : Str) : Params := Dict.set d k v

/-- `__delitem__`, url.py 594-595: `KeyError` as `none`. -/
def del (d : Params) (k : Str) : Option Params := if Dict.contains d k then some (Dict.del d k) else none

/-- `__getitem__`, url.py 597-598: `KeyError` as `none`. -/
def get (d : Params) (k : Str) : Option Str := Dict.get? d k

/-- One digit of `'%{:02X}'.format(byte)`. -/
def hexDigit (n : Nat) : Char := if n < 10 then Char.ofNat (48 + n) else Char.ofNat (55 + n)

/-- `_ALWAYS_SAFE` of `urllib.parse`; `~` since Python 3.7 (`tilde`). -/
def alwaysSafe (tilde : Bool) (c : Char) : Bool :=
  c.isAlpha || c.isDigit || c == '_' || c == '.' || c == '-' || (tilde && c == '~')

/-- `Quoter.__missing__` of `urllib.parse`. -/
def quoteByte (safe : Char → Bool) (b : UInt8) : Str :=
  if b.toNat < 128 && safe (Char.ofNat b.toNat) then [Char.ofNat b.toNat]
  else ['%', hexDigit (b.toNat / 16), hexDigit (b.toNat % 16)]

/-- `urllib.parse.quote(string, safe)` in UTF-8. -/
def quote (safe : Char → Bool) (s : Str) : Str := (s.flatMap String.utf8EncodeChar).flatMap (quoteByte safe)

/-- `urllib.parse.quote_plus(string, safe)`. -/
def quotePlus (safe : Char → Bool) (s : Str) : Str :=
  if ' ' ∈ s then (quote (fun c => safe c || c == ' ') s).map fun c => if c = ' ' then '+' else c
  else quote safe s

/-- `safe='*-._'` and the characters that are always safe, url.py 627. -/
def formSafe (tilde : Bool) (c : Char) : Bool := alwaysSafe tilde c || "*-._".toList.contains c

/-- `urlencode({key: value}, safe='*-._')`, url.py 627. -/
def urlencode (tilde : Bool) (k v : Str) : Str := quotePlus (formSafe tilde) k ++ '=' :: quotePlus (formSafe tilde) v

/-- `URLSearchParams.tostring`, url.py 612-629. -/
def tostring (tilde : Bool) (d : Params) : Str :=
  if d.length = 0 then []
  else join ['&'] ((sorted (Dict.keys d)).map fun k => urlencode tilde k ((get d k).getD []))

/-- `[0-9a-f]` with `re.IGNORECASE`. -/
def isHex (c : Char) : Bool := c.isDigit || (97 ≤ c.toNat && c.toNat ≤ 102) || (65 ≤ c.toNat && c.toNat ≤ 70)

/-- A match of `_RE_NUMERIC_CHARACTER_REFERENCE` at the beginning of the text: what is between `&#` and `;`, and the rest; url.py 32-34. -/
def refAt (s : Str) : Option (Str × Str) :=
  match s with
  | '&' :: '#' :: a :: b :: c :: d :: ';' :: r =>
    if [a, b, c, d].all Char.isDigit then some ([a, b, c, d], r) else none
  | '&' :: '#' :: x :: a :: b :: c :: d :: ';' :: r =>
    if (x == 'x' || x == 'X') && [a, b, c, d].all isHex then some ([x, a, b, c, d], r) else none
  | _ => none

/-- The loop of `quote_numeric_character_references`, url.py 44-54: `acc` is the text since the last reference, in reverse;
`quote_via` gets it as a whole. The number is a bound for the length of the text. -/
def quoteRefsN (quoteVia : Str → Str) : Nat → Str → Str → Str
  | 0, acc, _ => if acc = [] then [] else quoteVia acc.reverse
  | n + 1, acc, s =>
    match refAt s with
    | some (body, r) => (if acc = [] then [] else quoteVia acc.reverse) ++ "%26%23".toList ++ body ++ "%3B".toList ++ quoteRefsN quoteVia n [] r
    | none =>
      match s with
      | [] => if acc = [] then [] else quoteVia acc.reverse
      | c :: s => quoteRefsN quoteVia n (c :: acc) s

/-- `quote_numeric_character_references`, url.py 37-55. -/
def quoteRefs (quoteVia : Str → Str) (s : Str) : Str := quoteRefsN quoteVia (s.length + 1) [] s

/-- The safe characters of a query, url.py 448, and those that are always safe. -/
def querySafe (tilde : Bool) (c : Char) : Bool := alwaysSafe tilde c || "!$%()*+,-./:;=?@[\\]^_`{|}~".toList.contains c

/-- One name or value in a query, url.py 452-457. -/
def queryText (tilde : Bool) (s : Str) : Str := quoteRefs (quotePlus (querySafe tilde)) s

/-- `URL.search` (getter), url.py 440-460. -/
def search (tilde : Bool) (d : Params) : Str :=
  if d.length = 0 then []
  else '?' :: join ['&'] ((sorted (Dict.keys d)).map fun k => queryText tilde k ++ '=' :: queryText tilde ((get d k).getD []))

end SvgPy.SearchParams
