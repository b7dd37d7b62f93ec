import Verif.Model.SeqSplit
import Verif.Model.PyDict

/-! Model of `SVGPreserveAspectRatio`, `/repo/svgpy/base.py` 659-776, and of
`SVGZoomAndPan`, 799-831. -/

namespace SvgPy.Aspect

open PyStr

/-- `_TYPE_ALIGN_MAP`, base.py 678-705. -/
def typeAlign : Dict Nat Str :=
  [(1, "none".toList), (2, "xMinYMin".toList), (3, "xMidYMin".toList), (4, "xMaxYMin".toList),
   (5, "XMinYMid".toList), (6, "xMidYMid".toList), (7, "xMaxYMid".toList), (8, "xMinYMax".toList),
   (9, "xMidYMax".toList), (10, "xMaxYMax".toList)]

/-- `_TYPE_MEETORSLICE_MAP`, base.py 707-710. -/
def typeMeet : Dict Nat Str := [(1, "meet".toList), (2, "slice".toList)]

/-- `dict((v, k) for k, v in m.items())`, base.py 705, 712-713. -/
def swap (m : Dict Nat Str) : Dict Str Nat := m.map (fun p => (p.2, p.1))

/-- The pair `align`, `meet_or_slice`. -/
structure Par where
  align : Nat
  meet : Nat
  deriving DecidableEq

/-- The body of `parse` once the text is split, base.py 757-765. -/
def parseItems : List Str → Par
  | [] => ⟨6, 1⟩
  | [a] => ⟨(Dict.get? (swap typeAlign) a).getD 6, 1⟩
  | a :: b :: _ => ⟨(Dict.get? (swap typeAlign) a).getD 6, (Dict.get? (swap typeMeet) b).getD 1⟩

/-- `parse`, base.py 752-765. -/
def parse (text : Str) : Par := parseItems (SeqSplit.split (strip text))

/-- `tostring`, base.py 767-776. -/
def tostring (p : Par) : Str :=
  if p.align = 1 then "none".toList
  else join [' '] [(Dict.get? typeAlign p.align).getD "xMidYMid".toList,
    (Dict.get? typeMeet p.meet).getD "meet".toList]

/-- `_TYPE_ZOOMANDPAN_MAP`, base.py 810-813. -/
def typeZoom : Dict Nat Str := [(1, "disable".toList), (2, "magnify".toList)]

/-- The getter of `zoom_and_pan`, base.py 817-824; the argument is the attribute. -/
def getZoom (attr : Option Str) : Nat := (Dict.get? (swap typeZoom) (attr.getD "disable".toList)).getD 0

/-- The setter of `zoom_and_pan`, base.py 826-831. -/
def setZoom (attr : Option Str) (v : Nat) : Option Str :=
  match Dict.get? typeZoom v with
  | none => attr
  | some s => some s

end SvgPy.Aspect
