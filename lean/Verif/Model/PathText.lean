import Verif.Model.Path
import Verif.Model.NumText
import Verif.Model.Formatter

/-! Parsing and printing path data, `/repo/svgpy/path.py` 359-377, 517-550, 1168-1199,
1468-1514. -/

namespace SvgPy.PathText

open PyStr Path

/-- The letter of a command, path.py 267-291. -/
def letter : Kind → Bool → Char
  | .A, false => 'A' | .A, true => 'a'
  | .B, false => 'B' | .B, true => 'b'
  | .C, false => 'C' | .C, true => 'c'
  | .H, false => 'H' | .H, true => 'h'
  | .L, false => 'L' | .L, true => 'l'
  | .M, false => 'M' | .M, true => 'm'
  | .Q, false => 'Q' | .Q, true => 'q'
  | .S, false => 'S' | .S, true => 's'
  | .T, false => 'T' | .T, true => 't'
  | .V, false => 'V' | .V, true => 'v'
  | .Z, false => 'Z' | .Z, true => 'z'

/-- `[AaBbCcHhLlMmQqSsTtVvZz]`, path.py 1174. -/
def cmdOf (c : Char) : Option (Kind × Bool) :=
  if c = 'A' then some (.A, false) else if c = 'a' then some (.A, true)
  else if c = 'B' then some (.B, false) else if c = 'b' then some (.B, true)
  else if c = 'C' then some (.C, false) else if c = 'c' then some (.C, true)
  else if c = 'H' then some (.H, false) else if c = 'h' then some (.H, true)
  else if c = 'L' then some (.L, false) else if c = 'l' then some (.L, true)
  else if c = 'M' then some (.M, false) else if c = 'm' then some (.M, true)
  else if c = 'Q' then some (.Q, false) else if c = 'q' then some (.Q, true)
  else if c = 'S' then some (.S, false) else if c = 's' then some (.S, true)
  else if c = 'T' then some (.T, false) else if c = 't' then some (.T, true)
  else if c = 'V' then some (.V, false) else if c = 'v' then some (.V, true)
  else if c = 'Z' then some (.Z, false) else if c = 'z' then some (.Z, true)
  else none

/-- No command letter. -/
def notCmd (c : Char) : Bool := (cmdOf c).isNone

/-- A match of `RE_PATH_SEGMENT_LIST` at the start of a text, path.py 1173-1175: the
command, its values (with the white space around them, which `parse` strips) and the
rest.  The values must not be empty except at the end of the text. -/
def segAt : Str → Option ((Kind × Bool) × Str × Str)
  | [] => none
  | c :: r => match cmdOf c with
    | none => none
    | some k =>
      if r.takeWhile notCmd = [] ∧ r ≠ [] then none
      else some (k, r.takeWhile notCmd, r.dropWhile notCmd)

/-- `finditer`, path.py 1480; what does not match is skipped. -/
def findN : Nat → Str → List ((Kind × Bool) × Str)
  | 0, _ => []
  | _ + 1, [] => []
  | n + 1, c :: s => match segAt (c :: s) with
    | some (k, v, r) => (k, v) :: findN n r
    | none => findN n s

/-- All matches in a text. -/
def find (s : Str) : List ((Kind × Bool) × Str) := findN (s.length + 1) s

/-- `_PATH_SEGMENT_VALUES_LENGTH`, path.py 1185-1196. -/
def arity : Kind → Nat
  | .A => 7 | .B => 1 | .C => 6 | .H => 1 | .L => 2 | .M => 2 | .Q => 4 | .S => 4 | .T => 2 | .V => 1
  | .Z => 0

/-- `zip(*[iter(numbers)] * argc)`, path.py 1493: groups of `argc`, an incomplete last
group is dropped; each becomes a segment, path.py 1494-1495. -/
def chunkN : Nat → Kind × Bool → List ℚ → List (Seg ℚ)
  | 0, _, _ => []
  | n + 1, k, l =>
    if l.length < arity k.1 ∨ arity k.1 = 0 then []
    else match mkSeg k.2 k.1 (l.take (arity k.1)) with
      | none => []
      | some s => s :: chunkN n k (l.drop (arity k.1))

/-- One iteration of `parse`, path.py 1481-1495. -/
def segsOf (k : Kind × Bool) (v : Str) : List (Seg ℚ) :=
  if k.1 = .Z then [.close k.2]
  else if strip v = [] then []
  else
    let l := NumText.nums (strip v)
    chunkN (l.length + 1) k l

/-- `PathParser.parse`, path.py 1468-1496. -/
def parse (text : Str) : List (Seg ℚ) := (find (strip text)).flatMap fun m => segsOf m.1 m.2

/-- The values as text, path.py 359-377, 517-550. -/
def argText (p : Nat) : Seg ℚ → Str
  | .arc _ rx ry rot fa fs x y =>
    join [' '] [join [','] [Formatter.formatNum p rx, Formatter.formatNum p ry], Formatter.formatNum p rot,
      Formatter.formatNum p fa, Formatter.formatNum p fs, join [','] [Formatter.formatNum p x, Formatter.formatNum p y]]
  | .bearing _ a => join [' '] [Formatter.formatNum p a]
  | .horiz _ a => join [' '] [Formatter.formatNum p a]
  | .vert _ a => join [' '] [Formatter.formatNum p a]
  | .curve _ x1 y1 x2 y2 x y => Formatter.formatPairs p (Formatter.toPairs [x1, y1, x2, y2, x, y])
  | .quad _ x1 y1 x y => Formatter.formatPairs p (Formatter.toPairs [x1, y1, x, y])
  | .smooth _ x2 y2 x y => Formatter.formatPairs p (Formatter.toPairs [x2, y2, x, y])
  | .tsmooth _ x y => Formatter.formatPairs p (Formatter.toPairs [x, y])
  | .line _ x y => join [','] [Formatter.formatNum p x, Formatter.formatNum p y]
  | .move _ x y => join [','] [Formatter.formatNum p x, Formatter.formatNum p y]
  | .close _ => []

/-- `SVGPathSegment.tostring`, path.py 517-550. -/
def segText (p : Nat) (s : Seg ℚ) : Str := letter s.kind s.rel :: argText p s

/-- The loop of `PathParser.tostring`, path.py 1504-1512: the letter is left out after a
segment of the same type. -/
def pieces (p : Nat) : Option (Kind × Bool) → List (Seg ℚ) → List Str
  | _, [] => []
  | last, s :: l =>
    (if last = some (s.kind, s.rel) then (segText p s).tail else segText p s) :: pieces p (some (s.kind, s.rel)) l

/-- `PathParser.tostring`, path.py 1499-1514. -/
def pathText (p : Nat) (l : List (Seg ℚ)) : Str := join [' '] ((pieces p none l).filter (· ≠ []))

end SvgPy.PathText
