import Verif.Model.PyStr

/-! Model of `CSS.escape`, `/repo/svgpy/css/__init__.py` 300-324. -/

namespace SvgPy.CssEscape

/-- One hexadecimal digit of `'{:x}'`. -/
def hexDigit (n : Nat) : Char := if n < 10 then Char.ofNat (48 + n) else Char.ofNat (87 + n)

/-- `'{:x}'.format(n)` for `n < 256` (only control characters and digits get here). -/
def hex (n : Nat) : Str := if n < 16 then [hexDigit n] else [hexDigit (n / 16), hexDigit (n % 16)]

/-- `'0' <= ch <= '9'`. -/
def isDigit (ch : Char) : Bool := '0'.toNat ≤ ch.toNat && ch.toNat ≤ '9'.toNat

/-- `'\u0001' <= ch <= '\u001f' or ch == '\u007f'`. -/
def isControl (ch : Char) : Bool := (1 ≤ ch.toNat && ch.toNat ≤ 0x1f) || ch.toNat = 0x7f

/-- The characters left alone, css/__init__.py 315-320. -/
def isSafe (ch : Char) : Bool :=
  0x80 ≤ ch.toNat || ch = '-' || ch = '_' || isDigit ch ||
  ('A'.toNat ≤ ch.toNat && ch.toNat ≤ 'Z'.toNat) || ('a'.toNat ≤ ch.toNat && ch.toNat ≤ 'z'.toNat)

/-- The body of the loop, css/__init__.py 303-323, for the character `ch` at index `i`
of a text that starts with `-` (`dash`) and has length one (`single`). -/
def escapeChar (dash single : Bool) (i : Nat) (ch : Char) : Str :=
  if ch = '\x00' then ['�']
  else if isControl ch || (i = 0 && isDigit ch) || (i = 1 && isDigit ch && dash) then
    '\\' :: hex ch.toNat ++ [' ']
  else if i = 0 && ch = '-' && single then ['\\', ch]
  else if isSafe ch then [ch]
  else ['\\', ch]

/-- The loop from index `i`. -/
def escapeFrom (dash single : Bool) : Nat → Str → Str
  | _, [] => []
  | i, ch :: s => escapeChar dash single i ch ++ escapeFrom dash single (i + 1) s

/-- `CSS.escape`, css/__init__.py 300-324. -/
def escape (ident : Str) : Str :=
  escapeFrom (ident.head? = some '-') (ident.length = 1) 0 ident

end SvgPy.CssEscape
