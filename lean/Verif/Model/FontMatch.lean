import Verif.Model.PyStr
import Mathlib.Data.Rat.Defs
import Mathlib.Algebra.Order.Field.Rat
import Mathlib.Algebra.Order.Group.Abs

/-!
Model of the choice of a font face, `FontManager._find_face`, `/repo/svgpy/core.py` 754-900, and
of the tables it reads, `/repo/svgpy/fontconfig.py` 153-173.
Numbers are rational. What fontconfig and FreeType answer is a parameter: the family
that a name stands for, the faces of a family, and the characters that a face has.
-/

namespace SvgPy.FontMatch

/-- What `FontManager.list` keeps of a face, core.py 923-946 (the family and the font format, which
are not read, are left out). -/
structure Face where
  file : Str
  index : Nat
  width : ℚ
  slant : ℚ
  weight : ℚ
  size : ℚ
  deriving DecidableEq

/-- The fontconfig and FreeType libraries: `FontManager.match` (core.py 948-953), `FontManager.list`
(923-946) and `face.get_char_index(ch) != 0` (874). -/
structure Library where
  family : Str → Option Str
  faces : Str → List Face
  has : Face → Char → Bool

/-- What `_find_face` reads of the style, core.py 756-764. -/
structure Wanted where
  families : List Str
  stretch : Str
  style : Str
  weight : ℚ
  size : ℚ

/-- `FC_SLANT_MAP.get`, fontconfig.py 155-159. -/
def slantMap (s : Str) : Option ℚ :=
  if s = "normal".toList then some 0
  else if s = "italic".toList then some 100
  else if s = "oblique".toList then some 110
  else none

/-- `FC_WIDTH_MAP.get`, fontconfig.py 163-173. -/
def widthMap (s : Str) : Option ℚ :=
  if s = "ultra-condensed".toList then some 50
  else if s = "extra-condensed".toList then some 63
  else if s = "condensed".toList then some 75
  else if s = "semi-condensed".toList then some 87
  else if s = "normal".toList then some 100
  else if s = "semi-expanded".toList then some 113
  else if s = "expanded".toList then some 125
  else if s = "extra-expanded".toList then some 150
  else if s = "ultra-expanded".toList then some 200
  else none

/-- Insertion of a number into a table in the given order; a number that is there already is not
inserted again. -/
def insertNum (le : ℚ → ℚ → Bool) (x : ℚ) : List ℚ → List ℚ
  | [] => [x]
  | y :: ys => if x = y then y :: ys else if le x y then x :: y :: ys else y :: insertNum le x ys

/-- `sorted(set(xs))`, core.py 782-790: the result does not depend on the algorithm. -/
def table (le : ℚ → ℚ → Bool) : List ℚ → List ℚ
  | [] => []
  | x :: xs => insertNum le x (table le xs)

/-- Ascending order: `sorted(...)`, core.py 787. -/
def up (a b : ℚ) : Bool := decide (a ≤ b)

/-- Descending order: `sorted(..., reverse=True)`, core.py 790. -/
def down (a b : ℚ) : Bool := decide (b ≤ a)

/-- `table[np.abs(np.asarray(table) - v).argmin()]`, core.py 791-794: the first of the entries whose
distance is least. -/
def nearest (v : ℚ) : List ℚ → Option ℚ
  | [] => none
  | x :: xs =>
    match nearest v xs with
    | none => some x
    | some y => if |y - v| < |x - v| then some y else some x

/-- The narrowing done for the width, the weight and the size, core.py 774-794, 821-835 and 845-855:
the faces with exactly the value, otherwise those with the nearest. -/
def narrow (get : Face → ℚ) (le : ℚ → ℚ → Bool) (v : ℚ) (matched : List Face) : List Face :=
  let group := matched.filter (fun x => decide (v = get x))
  if group.isEmpty then
    match nearest v (table le (matched.map get)) with
    | none => []
    | some w => matched.filter (fun x => decide (w = get x))
  else group

/-- `s.endswith(t)`, core.py 785 and 788. -/
def endsWith (s t : Str) : Bool := t.reverse.isPrefixOf s.reverse

/-- By `font-stretch`, core.py 774-794. Without a width (`fc_width` is `None`) no face is left. The
order is `up` for `normal` and `*condensed`, and `down` for the rest, which in the table
of widths are `*expanded`. -/
def byWidth (stretch : Str) (matched : List Face) : List Face :=
  match widthMap stretch with
  | none => []
  | some v =>
    if stretch = "normal".toList ∨ endsWith stretch "condensed".toList then
      narrow Face.width up v matched
    else narrow Face.width down v matched

/-- The order of the styles, core.py 803-808. -/
def styleOrder (style : Str) : List Str :=
  if style = "italic".toList then ["italic".toList, "oblique".toList, "normal".toList]
  else if style = "oblique".toList then ["oblique".toList, "italic".toList, "normal".toList]
  else ["normal".toList, "oblique".toList, "italic".toList]

/-- The loop over the order, core.py 809-815: the first style that some face has; if there is none,
all faces stay. -/
def byStyleLoop (matched : List Face) : List Str → List Face
  | [] => matched
  | s :: ss =>
    let group := matched.filter (fun x => decide (slantMap s = some x.slant))
    if group.isEmpty then byStyleLoop matched ss else group

/-- By `font-style`, core.py 801-815. -/
def byStyle (style : Str) (matched : List Face) : List Face :=
  byStyleLoop matched (styleOrder style)

/-- By `font-weight`, core.py 818-839 (`Font.WEIGHT_NORMAL` is 400). -/
def byWeight (weight : ℚ) (matched : List Face) : List Face :=
  if weight < 400 then narrow Face.weight down weight matched
  else narrow Face.weight up weight matched

/-- By `font-size`, core.py 842-858. -/
def bySize (size : ℚ) (matched : List Face) : List Face :=
  narrow Face.size up size matched

/-- Insertion of a face into a list in the order of the files, before the faces with the same
file. -/
def insertFace (x : Face) : List Face → List Face
  | [] => [x]
  | y :: ys => if PyStr.le x.file y.file then x :: y :: ys else y :: insertFace x ys

/-- `sorted(matched, key=lambda x: x['file'])`, core.py 859-863: stable. -/
def sortFaces : List Face → List Face
  | [] => []
  | x :: xs => insertFace x (sortFaces xs)

/-- The faces of a family that are left, core.py 768-863. That each of the `continue`s leaves no
face is the empty list. -/
def candidates (w : Wanted) (faces : List Face) : List Face :=
  sortFaces (bySize w.size (byWeight w.weight (byStyle w.style (byWidth w.stretch faces))))

/-- The check of the glyphs, core.py 867-894. -/
def covers (has : Face → Char → Bool) (text : Option Str) (f : Face) : Bool :=
  match text with
  | none => true
  | some t => t.all (fun ch =>
      ch == '\t' || ch == '\r' || ch == '\n' || ch == ' ' || has f ch)

/-- The names of the families, core.py 755-759. -/
def familyNames (family : Str → Option Str) : List Str → List Str → List Str
  | acc, [] => acc
  | acc, n :: ns =>
    match family n with
    | none => familyNames family acc ns
    | some m => if m ∈ acc then familyNames family acc ns else familyNames family (acc ++ [m]) ns

/-- The loop over the families, core.py 767-895. `none` is the fallback font. -/
def findIn (lib : Library) (w : Wanted) (text : Option Str) : List Str → Option Face
  | [] => none
  | n :: ns =>
    match (candidates w (lib.faces n)).find? (covers lib.has text) with
    | some f => some f
    | none => findIn lib w text ns

/-- `FontManager._find_face`, core.py 754-900; `none` is the fallback font of lines 898-900. -/
def findFace (lib : Library) (w : Wanted) (text : Option Str) : Option Face :=
  findIn lib w text (familyNames lib.family [] w.families)

end SvgPy.FontMatch
