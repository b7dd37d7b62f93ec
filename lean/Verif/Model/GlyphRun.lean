import Verif.Model.Py
import Mathlib.Algebra.Order.Floor.Ring
import Mathlib.Algebra.Order.Field.Basic

/-!
The places of the glyphs of a text: the loop over glyphs in `_get_text_path_data` and the loop over
texts in `_get_descendant_chars_info`, `/repo/svgpy/text.py` 162-190, 211-233, 318-323, 398-484,
`PathParser.from_glyph`, `/repo/svgpy/path.py` 1198-1256, with `FTMatrix`, `/repo/svgpy/freetype.py`
27-29, 933-1022, 1095-1106, 1156-1165, and `get_sub_string_length`, text.py 684-710.

Simplifications: numbers are the elements of an ordered field; the shaping of the text (HarfBuzz) and
the outlines (FreeType) are given, one glyph for each character, in the order of the characters; text
from left to right or from top to bottom; FreeType's rounding of rotated outlines to 1/64 and of the
matrix to 1/65536 is left out, the truncation of the translation is not.
-/

namespace SvgPy.GlyphRun

variable {K : Type} [Field K] [LinearOrder K] [FloorRing K]

/-- A glyph: the points of its outline (y upwards), its offset, and its advance, which is horizontal
or vertical. -/
structure Glyph (K : Type) where
  outline : List (K × K)
  xo : K
  yo : K
  ax : K
  ay : K

/-- Where a glyph is drawn. -/
structure Placed (K : Type) where
  x : K
  y : K
  rotate : K
  deriving DecidableEq

/-- The state of the loop: the current position and the rest of the lists. -/
structure Pen (K : Type) where
  cx : K
  cy : K
  xs : List K
  ys : List K
  dxs : List K
  dys : List K
  rots : List K

/-- `rotate`, text.py 418-422. It is 0 before the first value, text.py 320. -/
def rotateOf : List K → K
  | [] => 0
  | r :: _ => r

/-- The rest of the list after `rotate` has been read, text.py 418-422. -/
def rotateRest : List K → List K
  | [] => []
  | [r] => [r]
  | _ :: r :: rs => r :: rs

/-- One round of the loop, text.py 401-484. -/
def stepGlyph (p : Pen K) (g : Glyph K) : Pen K × Placed K :=
  let x := p.xs.headD p.cx + (p.dxs.headD 0 + g.xo)
  let y := p.ys.headD p.cy + (p.dys.headD 0 - g.yo)
  ({ cx := x + (g.ax - g.xo), cy := y + (g.ay + g.yo), xs := p.xs.tail, ys := p.ys.tail,
     dxs := p.dxs.tail, dys := p.dys.tail, rots := rotateRest p.rots },
   { x := x, y := y, rotate := rotateOf p.rots })

/-- The loop over the glyphs. -/
def runGlyphs (p : Pen K) : List (Glyph K) → Pen K × List (Placed K)
  | [] => (p, [])
  | g :: gs =>
    let (p', q) := stepGlyph p g
    let (p'', qs) := runGlyphs p' gs
    (p'', q :: qs)

/-- The attributes with lists. -/
inductive Key
  | x
  | y
  | dx
  | dy
  | rotate
  deriving DecidableEq

/-- The lists of the elements, `style_map`. -/
abbrev Lists (K : Type) := Nat → Key → Option (List K)

/-- `_get_inherited_attribute`, text.py 211-225: the list of the first element that has one. The chain
is the element and its ancestors. -/
def inherited (st : Lists K) (k : Key) : List Nat → List K
  | [] => []
  | e :: es => match st e k with
    | some l => l
    | none => inherited st k es

/-- The list belongs to the element: what the loop has taken from it is gone. -/
def writeBack (st : Lists K) (k : Key) (l : List K) : List Nat → Lists K
  | [] => st
  | e :: es => match st e k with
    | some _ => fun e' k' => if e' = e ∧ k' = k then some l else st e' k'
    | none => writeBack st k l es

/-- A text with the chain of its element. -/
structure Chunk (K : Type) where
  chain : List Nat
  glyphs : List (Glyph K)

/-- `_get_text_path_data`, text.py 228-233, 318-323 and 398-504. -/
def layoutChunk (st : Lists K) (cx cy : K) (c : Chunk K) : Lists K × K × K × List (Placed K) :=
  let r := runGlyphs ⟨cx, cy, inherited st .x c.chain, inherited st .y c.chain,
    inherited st .dx c.chain, inherited st .dy c.chain, inherited st .rotate c.chain⟩ c.glyphs
  (writeBack (writeBack (writeBack (writeBack (writeBack st .x r.1.xs c.chain) .y r.1.ys c.chain)
    .dx r.1.dxs c.chain) .dy r.1.dys c.chain) .rotate r.1.rots c.chain, r.1.cx, r.1.cy, r.2)

/-- The loop over the texts, text.py 180-190. -/
def layout (st : Lists K) (cx cy : K) : List (Chunk K) → List (List (Placed K))
  | [] => []
  | c :: cs =>
    let r := layoutChunk st cx cy c
    r.2.2.2 :: layout r.1 r.2.1 r.2.2.1 cs

/-- `int(t * 64) / 64`, path.py 1249 and 1210-1234. -/
def trunc64 (t : K) : K := (if 0 ≤ t then (⌊t * 64⌋ : K) else (⌈t * 64⌉ : K)) / 64

/-- The matrix of a glyph, text.py 461-464: `rotate_self` by an angle with cosine and sine `cs`, then
`translate_self(x, -y)`; the entries a, b, c, d, e, f. -/
def glyphMatrix (cs : K × K) (x y : K) : K × K × K × K × K × K :=
  (cs.1, cs.2, -cs.2, cs.1, cs.1 * x + -cs.2 * -y, cs.2 * x + cs.1 * -y)

/-- `PathParser.from_glyph`, path.py 1236-1256. The setters of `FTMatrix` put b at the place of xy and
c at the place of yx, freetype.py 988-1001. -/
def fromGlyph (m : K × K × K × K × K × K) (outline : List (K × K)) : List (K × K) :=
  outline.map (fun p =>
    ((m.1 * (p.1 + trunc64 m.2.2.2.2.1) + m.2.1 * (p.2 + trunc64 m.2.2.2.2.2)),
     (-m.2.2.1 * (p.1 + trunc64 m.2.2.2.2.1) + -m.2.2.2.1 * (p.2 + trunc64 m.2.2.2.2.2))))

/-- The outline of a glyph that is drawn at a place, text.py 461-475; `turn` gives cosine and sine of
an angle in degrees. -/
def drawn (turn : K → K × K) (g : Glyph K) (q : Placed K) : List (K × K) :=
  fromGlyph (glyphMatrix (if q.rotate ≠ 0 then turn q.rotate else (1, 0)) q.x q.y) g.outline

/-- `sum(advance_list[char_num:last])`, text.py 706-710, for numbers that are not negative. -/
def subLength (advances : List K) (charNum : Nat) (nchars : Option Nat) : K :=
  let last := match nchars with
    | none => advances.length
    | some n => charNum + n
  ((advances.take last).drop charNum).sum

/-- `get_sub_string_length`, text.py 684-710: the advances of all texts for `text`, those of the first
text of the element for the others. -/
def subStringLength (isText : Bool) (self : Nat) (infos : List (Nat × List K)) (charNum : Nat)
    (nchars : Option Nat) : K :=
  if isText then subLength (infos.flatMap Prod.snd) charNum nchars
  else match infos.find? (fun i => i.1 = self) with
    | none => 0
    | some i => subLength i.2 charNum nchars

end SvgPy.GlyphRun
