import Verif.Model.PyStr

/-! White space of text content: `CSSUtils.normalize_text_content`, `/repo/svgpy/core.py` 82-85
and 245-328.  `html.unescape` and `unicodedata.east_asian_width` are arbitrary functions. -/

namespace SvgPy.TextContent

open SvgPy.PyStr

/-- What the code takes from the Python library: `html.unescape(text)` and
`unicodedata.east_asian_width(ch) in 'FWH'`. -/
structure Lib where
  unescape : Str → Str
  wide : Char → Bool

/-- The values of `white-space`; `other` for all the code does not know. -/
inductive WhiteSpace
  | normal | nowrap | pre | preWrap | preLine | other
  deriving DecidableEq

/-- `\x20|\t`. -/
def blank (c : Char) : Bool := c == ' ' || c == '\t'

/-- `\r|\n`. -/
def isBreak (c : Char) : Bool := c == '\r' || c == '\n'

/-- `_RE_PRECEDING_TAB_WHITESPACE.sub('', text)`: blanks at the beginning of the text and after a
line feed; the flag is set at these places. -/
def lead (start : Bool) : Str → Str
  | [] => []
  | c :: s => if start && blank c then lead start s else c :: lead (c == '\n') s

/-- After blanks the text or the line ends. -/
def lineEnds : Str → Bool
  | [] => true
  | c :: s => if blank c then lineEnds s else c == '\n'

/-- `_RE_FOLLOWING_TAB_WHITESPACE.sub('', text)`: blanks before a line feed and at the end. -/
def trail : Str → Str
  | [] => []
  | c :: s => if blank c && lineEnds s then trail s else c :: trail s

/-- `_is_hangul`, core.py 251-256. -/
def isHangul (c : Char) : Bool :=
  (0xAC00 ≤ c.toNat && c.toNat ≤ 0xD7AF) || (0x1100 ≤ c.toNat && c.toNat ≤ 0x11FF) ||
  (0x3130 ≤ c.toNat && c.toNat ≤ 0x318F) || (0xA960 ≤ c.toNat && c.toNat ≤ 0xA97F) ||
  (0xD7B0 ≤ c.toNat && c.toNat ≤ 0xD7FF)

/-- ZERO WIDTH SPACE. -/
def zwsp : Char := Char.ofNat 0x200B

/-- What stands for a run of line breaks between two characters (`none` at the ends of the text),
core.py 276-288. -/
def breakText (lib : Lib) (prev next : Option Char) : Str :=
  if prev = some zwsp ∨ next = some zwsp then []
  else match prev, next with
    | some a, some b => if lib.wide a && !isHangul a && lib.wide b && !isHangul b then [] else [' ']
    | _, _ => [' ']

/-- The loop over the runs of line breaks, core.py 272-293: `prev` is the character before the
run, `run` is set inside a run. -/
def segments (lib : Lib) (prev : Option Char) (run : Bool) : Str → Str
  | [] => if run then breakText lib prev none else []
  | c :: s =>
    if isBreak c then segments lib prev true s
    else (if run then breakText lib prev (some c) else []) ++ c :: segments lib (some c) false s

/-- `text.replace('\r\n', '\n').replace('\r', '\n')`; the flag is set after `\r`. -/
def crlf (cr : Bool) : Str → Str
  | [] => []
  | c :: s => if c = '\r' then '\n' :: crlf true s else if c = '\n' ∧ cr then crlf false s else c :: crlf false s

/-- `_transform_segment_break`, core.py 258-293. -/
def segmentBreaks (lib : Lib) (ws : WhiteSpace) (s : Str) : Str :=
  if ws = .pre ∨ ws = .preWrap ∨ ws = .preLine then crlf false s else segments lib none false s

/-- `text.replace('\t', ' ')`. -/
def tabs (s : Str) : Str := s.map fun c => if c = '\t' then ' ' else c

/-- `_RE_COLLAPSIBLE_WHITESPACE.sub(' ', text)`; the flag is set after a space. -/
def collapse (space : Bool) : Str → Str
  | [] => []
  | c :: s => if space && c == ' ' then collapse true s else c :: collapse (c == ' ') s

/-- The text by its own, core.py 302-315. -/
def process (lib : Lib) (ws : WhiteSpace) (s : Str) : Str :=
  if ws = .normal ∨ ws = .nowrap ∨ ws = .preLine then collapse false (tabs (segmentBreaks lib ws (trail (lead true s))))
  else if ws = .pre ∨ ws = .preWrap then segmentBreaks lib ws s
  else s

/-- After the text before, core.py 317-321. -/
def after (prev : Option Str) (s : Str) : Str :=
  match prev with
  | none => s
  | some p =>
    if p.getLast? = some ' ' ∧ s.head? = some ' ' then lstrip s
    else if p.getLast? ≠ some ' ' ∧ s.head? ≠ some ' ' then ' ' :: s
    else s

/-- `text.lstrip(' ')`. -/
def lstripSpace (s : Str) : Str := s.dropWhile (· == ' ')

/-- `text.rstrip(' ')`. -/
def rstripSpace (s : Str) : Str := (s.reverse.dropWhile (· == ' ')).reverse

/-- `normalize_text_content`, core.py 245-328. -/
def normalizeText (lib : Lib) (ws : WhiteSpace) (text : Str) (prev : Option Str) (first tail : Bool) : Str :=
  let s := after prev (process lib ws (lib.unescape text))
  let s := if first then lstripSpace s else s
  if tail then rstripSpace s else s

end SvgPy.TextContent
