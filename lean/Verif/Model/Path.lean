/-! Path segments, `SVGPathSegment` of `/repo/svgpy/path.py` 266-550. -/

namespace SvgPy.Path

/-- The commands, path.py 267-291, without the unsupported Catmull-Rom curves. -/
inductive Kind
  | A | B | C | H | L | M | Q | S | T | V | Z
  deriving DecidableEq

/-- An `SVGPathSegment` with a known type and the right number of values, path.py 292-295;
`rel` is true for the lower case (relative) form.  Segments without values (`isvalid()`
false, path.py 402-407), which every function skips, are not represented. -/
inductive Seg (K : Type)
  | arc (rel : Bool) (rx ry rot fa fs x y : K)
  | bearing (rel : Bool) (a : K)
  | curve (rel : Bool) (x1 y1 x2 y2 x y : K)
  | horiz (rel : Bool) (x : K)
  | line (rel : Bool) (x y : K)
  | move (rel : Bool) (x y : K)
  | quad (rel : Bool) (x1 y1 x y : K)
  | smooth (rel : Bool) (x2 y2 x y : K)
  | tsmooth (rel : Bool) (x y : K)
  | vert (rel : Bool) (y : K)
  | close (rel : Bool)
  deriving DecidableEq

variable {K : Type}

/-- The type of a segment without its case, path.py 349-352. -/
def Seg.kind : Seg K → Kind
  | .arc .. => .A
  | .bearing .. => .B
  | .curve .. => .C
  | .horiz .. => .H
  | .line .. => .L
  | .move .. => .M
  | .quad .. => .Q
  | .smooth .. => .S
  | .tsmooth .. => .T
  | .vert .. => .V
  | .close .. => .Z

/-- `isrelative()`, path.py 397-400. -/
def Seg.rel : Seg K → Bool
  | .arc r .. => r
  | .bearing r .. => r
  | .curve r .. => r
  | .horiz r .. => r
  | .line r .. => r
  | .move r .. => r
  | .quad r .. => r
  | .smooth r .. => r
  | .tsmooth r .. => r
  | .vert r .. => r
  | .close r => r

/-- `values`, path.py 354-357. -/
def Seg.values : Seg K → List K
  | .arc _ a b c d e f g => [a, b, c, d, e, f, g]
  | .bearing _ a => [a]
  | .curve _ a b c d e f => [a, b, c, d, e, f]
  | .horiz _ a => [a]
  | .line _ a b => [a, b]
  | .move _ a b => [a, b]
  | .quad _ a b c d => [a, b, c, d]
  | .smooth _ a b c d => [a, b, c, d]
  | .tsmooth _ a b => [a, b]
  | .vert _ a => [a]
  | .close _ => []

/-- `SVGPathSegment(type, *values)` with the right number of values. -/
def mkSeg (rel : Bool) : Kind → List K → Option (Seg K)
  | .A, [a, b, c, d, e, f, g] => some (.arc rel a b c d e f g)
  | .B, [a] => some (.bearing rel a)
  | .C, [a, b, c, d, e, f] => some (.curve rel a b c d e f)
  | .H, [a] => some (.horiz rel a)
  | .L, [a, b] => some (.line rel a b)
  | .M, [a, b] => some (.move rel a b)
  | .Q, [a, b, c, d] => some (.quad rel a b c d)
  | .S, [a, b, c, d] => some (.smooth rel a b c d)
  | .T, [a, b] => some (.tsmooth rel a b)
  | .V, [a] => some (.vert rel a)
  | .Z, [] => some (.close rel)
  | _, _ => none

end SvgPy.Path
