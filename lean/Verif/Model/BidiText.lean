import Verif.Model.Rect

/-!
Text in two directions: the loops over runs, lines and glyphs of `_get_text_path_data`,
`/repo/svgpy/text.py` 337-358, 398-504, for horizontal text without lists of positions, rotation and
vertical offsets.

Simplifications: numbers are the elements of an ordered field; the runs (ICU), the lines and the shaping
(HarfBuzz) are given, the glyphs of a line in the order of its characters (text.py 356-358); instead of
outlines, the cells of the glyphs are followed: their left edges and widths, as in their boxes.
-/

namespace SvgPy.BidiText

open SvgPy.Rect

variable {K : Type} [Field K] [LinearOrder K]

/-- A glyph: a name for it, its advance and its horizontal offset. -/
structure Glyph (K : Type) where
  id : Nat
  adv : K
  off : K

/-- Where a glyph is drawn: the left edge and the width of its cell. -/
structure Cell (K : Type) where
  id : Nat
  x : K
  w : K
  deriving DecidableEq

/-- A run of characters of one level of embedding, with its lines. -/
structure Run (K : Type) where
  level : Nat
  lines : List (List (Glyph K))

/-- One round of the loop over glyphs, text.py 426-431 and 479-483: the cell and the next position. -/
def stepCell (rtl : Bool) (cx : K) (g : Glyph K) : Cell K × K :=
  let x := cx + g.off
  let x := if rtl then x - g.adv else x
  (⟨g.id, x, g.adv⟩, if rtl then x else x + (g.adv - g.off))

/-- The loop over the glyphs of a line, text.py 401-484. -/
def runCells (rtl : Bool) (cx : K) : List (Glyph K) → List (Cell K) × K
  | [] => ([], cx)
  | g :: gs =>
    let s := stepCell rtl cx g
    let r := runCells rtl s.2 gs
    (s.1 :: r.1, r.2)

/-- The box of a glyph, text.py 432-435 and 482: `top` and `height` are those of the font. -/
def cellBox (top height : K) (c : Cell K) : DRect K := ⟨some c.x, some top, c.w, height⟩

/-- A line, text.py 398-499: glyphs against the direction of the text are moved by the width of the line.  The
cells, the box of the line and the next position.  A line has a glyph, so that the box has a position. -/
def drawLine (ltr rtl : Bool) (top height cx : K) (gs : List (Glyph K)) : List (Cell K) × DRect K × K :=
  let r := runCells rtl cx gs
  let b := (r.1.map (cellBox top height)).foldl DRect.unite DRect.new
  if ltr == rtl then
    let d := (if ltr then 1 else -1) * b.width
    let left := b.x.getD 0 + d
    (r.1.map (fun c => { c with x := c.x + d }), { b with x := some left }, if ltr then left + b.width else left)
  else (r.1, b, r.2)

/-- Lines one after the other, text.py 347, 499-500: cells, boxes and the next position. -/
def drawLines (ltr rtl : Bool) (top height cx : K) : List (List (Glyph K)) → List (Cell K) × List (DRect K) × K
  | [] => ([], [], cx)
  | l :: ls =>
    let r := drawLine ltr rtl top height cx l
    let q := drawLines ltr rtl top height r.2.2 ls
    (r.1 ++ q.1, r.2.1 :: q.2.1, q.2.2)

/-- A run, text.py 338-347: only the parity of the level is used, and lines against the direction of the text are
drawn in reverse order. -/
def drawRun (ltr : Bool) (top height cx : K) (r : Run K) : List (Cell K) × List (DRect K) × K :=
  let rtl := r.level % 2 == 1
  drawLines ltr rtl top height cx (if ltr == rtl then r.lines.reverse else r.lines)

/-- All runs, text.py 337-502. -/
def drawRuns (ltr : Bool) (top height cx : K) : List (Run K) → List (Cell K) × List (DRect K) × K
  | [] => ([], [], cx)
  | r :: rs =>
    let a := drawRun ltr top height cx r
    let q := drawRuns ltr top height a.2.2 rs
    (a.1 ++ q.1, a.2.1 ++ q.2.1, q.2.2)

/-- `text_bbox`, text.py 324 and 500. -/
def textBox (bs : List (DRect K)) : DRect K := bs.foldl DRect.unite DRect.new

end SvgPy.BidiText
