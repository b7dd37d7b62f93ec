import Mathlib.Algebra.Order.Round
import Mathlib.Data.Rat.Floor
import Verif.Model.Py
import Verif.Model.PyStr

/-!
Model of the measures of a font: `Font`, `/repo/svgpy/core.py` 635-742, and the size that
`FontManager.get_face` asks for, core.py 903-921.

FreeType is modelled as a face with measures in font units that are scaled by the size asked for
last, and a glyph slot that keeps the glyph loaded last.  Simplified: FreeType's hinting and its
rounding of scaled measures to whole 1/64 pixels are left out, numbers are exact, and loading a
glyph does not fail.
-/

namespace SvgPy.FontMeasure
open SvgPy

/-- The measures of a glyph, freetype.py 439-480: here in font units. -/
structure Glyph where
  height : ℤ
  hori : ℤ
  vert : ℤ

/-- What is read of a face, freetype.py 163-440. -/
structure Face where
  unitsPerEm : ℕ
  ascender : ℤ
  descender : ℤ
  /-- distance of base lines, in font units -/
  line : ℤ
  /-- `get_char_index`: zero when there is no glyph -/
  index : Char → ℕ
  /-- the glyph with an index -/
  glyph : ℕ → Glyph

/-- `FT_Glyph_Metrics` of the glyph in the slot, in 1/64 pixels, freetype.py 439-480. -/
structure Slot where
  height : ℚ
  hori : ℚ
  vert : ℚ

/-- The properties a `Font` object reads of its style, core.py 640-645, 679-685. -/
structure Style where
  family : List Str
  size : ℚ
  sizeAdjust : Str
  stretch : Str
  style : Str
  weight : ℤ
  writingMode : Str
  textOrientation : Str
  deriving DecidableEq

/-- A `Font` object with the state of its face, core.py 623-633: `ppem` is the size of the em square
in pixels that was asked for last. -/
structure Font where
  style : Style
  face : Face
  ppem : ℚ
  slot : Slot

/-- Font units in 1/64 pixels at the size of the font. -/
def scaled (f : Font) (u : ℤ) : ℚ := u * (f.ppem * 64) / f.face.unitsPerEm

/-- `load_glyph`, freetype.py 357-360. -/
def loadGlyph (f : Font) (i : ℕ) : Font :=
  { f with slot := ⟨scaled f (f.face.glyph i).height, scaled f (f.face.glyph i).hori,
      scaled f (f.face.glyph i).vert⟩ }

/-- `load_char`, freetype.py 350-355: the glyph with the index of the character. -/
def loadChar (f : Font) (c : Char) : Font := loadGlyph f (f.face.index c)

/-- `int(x)`: towards zero. -/
def toInt (x : ℚ) : ℤ := if x < 0 then -⌊-x⌋ else ⌊x⌋

/-- `request_size(NOMINAL, 0, height, h, v)`, freetype.py 393-403: `height` is in 1/64 points; the
width is not given and follows the height. -/
def requestSize (f : Font) (height : ℤ) (vert : ℚ) : Font :=
  { f with ppem := height / 64 * vert / 72 }

/-- `set_point_size`, core.py 738-742 (the width is always zero). -/
def setPointSize (f : Font) (height : ℤ) (vert : ℚ) : Font := requestSize f height vert

/-- The default of the vertical resolution, css/screen.py 20. -/
def defaultResolution : ℚ := 96

/-- `Font.__init__` with `FontManager.get_face`, core.py 623-633, 903-921: the size in points is
asked for. `screen` is the vertical resolution of the screen of the document; `none` without document
or window. -/
def openFont (style : Style) (face : Face) (screen : Option ℚ) : Font :=
  requestSize ⟨style, face, 0, ⟨0, 0, 0⟩⟩ (toInt (style.size / (96 / 72) * 64))
    (match screen with
      | some r => r
      | none => defaultResolution)

/-- core.py 680, 717. -/
def isHorizontal (m : Str) : Bool :=
  ["horizontal-tb".toList, "lr".toList, "lr-tb".toList, "rl".toList, "rl-tb".toList].contains m

/-- The advance of the glyph in the slot, core.py 679-688, 716-725. -/
def advance (f : Font) : ℚ :=
  if isHorizontal f.style.writingMode then f.slot.hori / 64
  else if f.style.textOrientation == "upright".toList then 0
  else f.slot.vert / 64

/-- The loop of `cap_height`, core.py 667-672; after it `FTSize` has no `height`, core.py 672 and
freetype.py 862-874. -/
def capLoop (f : Font) : List Char → Py ℚ × Font
  | [] => (.error .attributeError, f)
  | c :: cs =>
    if f.face.index c != 0 then (.ok ((loadChar f c).slot.vert / 64), loadChar f c)
    else capLoop f cs

/-- What can be asked of a font. -/
inductive Ask
  | ascent | capHeight | chAdvance | descent | height | icAdvance | lineHeight | xHeight

/-- The answer and the font afterwards, core.py 657-736. -/
def ask (f : Font) : Ask → Py ℚ × Font
  | .ascent => (.ok (f.face.ascender / 64), f)
  | .capHeight => capLoop f ['H', 'h']
  | .chAdvance => (.ok (advance (loadChar f '0')), loadChar f '0')
  | .descent => (.ok (f.face.descender / 64), f)
  | .height => (.ok f.ppem, f)
  | .icAdvance =>
    if f.face.index '水' == 0 then (.ok 0, f)
    else (.ok (advance (loadGlyph f (f.face.index '水'))), loadGlyph f (f.face.index '水'))
  | .lineHeight => (.ok (scaled f f.face.line / 64), f)
  | .xHeight => (.ok ((loadChar f 'x').slot.height / 64), loadChar f 'x')

/-- What can be done with a font: ask it, set its size. -/
inductive Step
  | ask (a : Ask)
  | size (height : ℤ) (vert : ℚ)

/-- One step, core.py 657-742. -/
def step (f : Font) : Step → Font
  | .ask a => (ask f a).2
  | .size h v => setPointSize f h v

/-- Some steps. -/
def run (f : Font) : List Step → Font
  | [] => f
  | s :: ss => run (step f s) ss

/-- The units of lengths that are measures of a font, core.py 1445-1451. -/
inductive FontUnit
  | ex | cap | ch | ic

/-- The measure of a unit, core.py 1444-1451. -/
def measure : FontUnit → Ask
  | .ex => .xHeight
  | .cap => .capHeight
  | .ch => .chAdvance
  | .ic => .icAdvance

/-- How many pixels a unit has, core.py 1444-1454; `em` is the font size of the element. -/
def unitPx (f : Font) (em : ℚ) (u : FontUnit) : Py ℚ :=
  match (ask f (measure u)).1 with
  | .error e => .error e
  | .ok k => .ok (if k = 0 then em else k)

/-- `__eq__`, core.py 635-646. -/
def eq (f g : Font) : Bool :=
  f.style.family == g.style.family && f.style.size == g.style.size
    && f.style.sizeAdjust == g.style.sizeAdjust && f.style.stretch == g.style.stretch
    && f.style.style == g.style.style && f.style.weight == g.style.weight

end SvgPy.FontMeasure
