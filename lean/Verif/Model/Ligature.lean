import Verif.Model.GlyphRun

/-!
Lists of positions and ligatures: the re-positioning in `_get_text_path_data`, `/repo/svgpy/text.py`
348-393.

Simplifications: the shaping of a line (HarfBuzz) is given as the list of the clusters of its glyphs, in
the order of the characters; the rest as in `GlyphRun`.
-/

namespace SvgPy.Ligature

open SvgPy.GlyphRun

variable {K : Type} [Field K] [LinearOrder K] [FloorRing K]

/-- `max((cluster_max - cluster_min) // len(clusters), 1)`, text.py 351-355. -/
def clusterInc (cs : List Nat) : Nat :=
  max ((cs.foldl max 0 - cs.foldl min (cs.headD 0)) / cs.length) 1

/-- The offsets at which the loop finds a ligature, text.py 357-366 and 393; it does not look at the lists. -/
def ligatures (inc : Nat) : Option Nat → Nat → List Nat → List Nat
  | _, _, [] => []
  | none, off, c :: cs => ligatures inc (some c) (off + 1) cs
  | some l, off, c :: cs =>
    if l = c ∨ l + inc = c then ligatures inc (some c) (off + 1) cs
    else off :: ligatures inc (some c) (off + 1) cs

/-- `if index < len(l): l.pop(index)`, text.py 369-372. -/
def popAt (l : List K) (i : Nat) : List K := l.eraseIdx i

/-- The value is added to the next one, if there is one, text.py 373-382. -/
def popAdd (l : List K) (i : Nat) : List K :=
  match l[i]? with
  | none => l
  | some d => if i + 1 < l.length then (l.eraseIdx i).modify i (· + d) else l.eraseIdx i

/-- A single angle stays, text.py 383-385. -/
def popRotate (l : List K) (i : Nat) : List K := if l.length > 1 then l.eraseIdx i else l

/-- The body for a ligature, text.py 367-385. -/
def dropAt (p : Pen K) (i : Nat) : Pen K :=
  { p with xs := popAt p.xs i, ys := popAt p.ys i, dxs := popAdd p.dxs i, dys := popAdd p.dys i, rots := popRotate p.rots i }

/-- The re-positioning before a line is rendered, text.py 348-393: `chars` is the number of its characters and
`start` the index of the first character of the run (`logical_start`). -/
def reposition (chars start : Nat) (clusters : List Nat) (p : Pen K) : Pen K :=
  if clusters.length = chars then p
  else ((ligatures (clusterInc clusters) none 0 clusters).map (start + ·)).foldl dropAt p

/-- A line: re-positioning and rendering, text.py 348-480. -/
def line (chars start : Nat) (clusters : List Nat) (p : Pen K) (gs : List (Glyph K)) : Pen K × List (Placed K) :=
  runGlyphs (reposition chars start clusters p) gs

end SvgPy.Ligature
