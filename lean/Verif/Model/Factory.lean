import Verif.Model.Py
import Verif.Model.PyStr
import Verif.Model.PyDict
import Verif.Model.QName

/-!
Model of the element class lookup and of the factories for elements and
documents: `SVGElementClassLookup` and `SVGParser.create_element(_ns)`
(`/repo/svgpy/element.py` 1141-1201 and 1286-1340), `Document.create_element_ns`
(`/repo/svgpy/window.py` 365-391) and `SVGDOMImplementation.create_document` and
`create_svg_document` (`/repo/svgpy/window.py` 781-826).

A class is named by its family and the middle part of its name: `svg "Rect"` is
`SVGRectElement`, `svg ""` is `SVGElement`, `html "Video"` is `HTMLVideoElement`.
`makeelement` of lxml is modelled as: it refuses a local name that is no XML name
(the parameter `xmlName`) with `ValueError`, and else gives a node with that
namespace and local name and the class that the lookup gives for them.  The
attributes given to the factories and the keyword arguments of `Document.__init__`
(a document element, a window) are left out.
-/

namespace SvgPy.Factory

/-- A Python class of nodes, element.py 1142-1197. -/
inductive Cls where
  | svg (s : Str)
  | html (s : Str)
  | comment
  | pi
deriving DecidableEq, Repr

/-- dom.py 1347. -/
def svgNs : Str := "http://www.w3.org/2000/svg".toList

/-- dom.py 1348. -/
def xhtmlNs : Str := "http://www.w3.org/1999/xhtml".toList

/-- `SVGElementClassLookup.ELEMENT_CLASS_MAP`, element.py 1142-1185. -/
def classMap : Dict Str Cls := [
  ("a".toList, .svg "A".toList),
  ("audio".toList, .html "Audio".toList),
  ("canvas".toList, .html "Canvas".toList),
  ("circle".toList, .svg "Circle".toList),
  ("defs".toList, .svg "Defs".toList),
  ("desc".toList, .svg "Desc".toList),
  ("ellipse".toList, .svg "Ellipse".toList),
  ("g".toList, .svg "G".toList),
  ("hatch".toList, .svg "Hatch".toList),
  ("hatchpath".toList, .svg "Hatchpath".toList),
  ("iframe".toList, .html "IFrame".toList),
  ("line".toList, .svg "Line".toList),
  ("linearGradient".toList, .svg "LinearGradient".toList),
  ("link".toList, .html "Link".toList),
  ("marker".toList, .svg "Marker".toList),
  ("meshgradient".toList, .svg "MeshGradient".toList),
  ("meshpatch".toList, .svg "Meshpatch".toList),
  ("meshrow".toList, .svg "Meshrow".toList),
  ("metadata".toList, .svg "Metadata".toList),
  ("path".toList, .svg "Path".toList),
  ("pattern".toList, .svg "Pattern".toList),
  ("polygon".toList, .svg "Polygon".toList),
  ("polyline".toList, .svg "Polyline".toList),
  ("radialGradient".toList, .svg "RadialGradient".toList),
  ("rect".toList, .svg "Rect".toList),
  ("script".toList, .svg "Script".toList),
  ("solidcolor".toList, .svg "Solidcolor".toList),
  ("stop".toList, .svg "Stop".toList),
  ("style".toList, .svg "Style".toList),
  ("svg".toList, .svg "SVG".toList),
  ("symbol".toList, .svg "Symbol".toList),
  ("text".toList, .svg "Text".toList),
  ("textPath".toList, .svg "TextPath".toList),
  ("title".toList, .svg "Title".toList),
  ("tspan".toList, .svg "TSpan".toList),
  ("use".toList, .svg "Use".toList),
  ("video".toList, .html "Video".toList),
  ("view".toList, .svg "View".toList)]

/-- The kinds of nodes that lxml asks a class for (element.py 1187-1197). -/
inductive Kind where
  | element | comment | pi | other
deriving DecidableEq, Repr

/-- `SVGElementClassLookup.lookup`, element.py 1187-1197, with the class map `m` of
the moment. -/
def lookup (m : Dict Str Cls) (k : Kind) (ns : Option Str) (name : Str) : Option Cls :=
  match k with
  | .element =>
    let default := if ns = some xhtmlNs then Cls.html [] else Cls.svg []
    some ((m.get? name).getD default)
  | .comment => some .comment
  | .pi => some .pi
  | .other => none

/-- `SVGElementClassLookup.update`, element.py 1199-1201. -/
def updateMap (m other : Dict Str Cls) : Dict Str Cls := m.update other

/-- A map of prefixes to namespaces; `none` is the default prefix. -/
abbrev Nsmap := Dict (Option Str) Str

/-- A new element: what `makeelement` was asked for and the class it got; the
document it belongs to. -/
structure Elem where
  ns : Option Str
  localName : Str
  nsmap : Nsmap
  cls : Option Cls
  owner : Option Nat
deriving DecidableEq, Repr

/-- `_namespace_map`, utils.py 33-39, without the key `None`, which is never asked for
by `QualifiedName` (utils.py 346-347). -/
def namespaceMap : Dict Str Str := [
  ("html".toList, "http://www.w3.org/1999/xhtml".toList),
  ("xlink".toList, "http://www.w3.org/1999/xlink".toList),
  ("xml".toList, "http://www.w3.org/XML/1998/namespace".toList),
  ("xmlns".toList, "http://www.w3.org/2000/xmlns/".toList)]

/-- The map that goes to lxml, element.py 1329-1332. -/
def fillNsmap (nsmap : Option Nsmap) : Nsmap :=
  let m := nsmap.getD []
  if m.contains none then m else m.set none svgNs

/-- `SVGParser.create_element_ns`, element.py 1304-1338.  The second component is the
caller's own map afterwards: it is the object that line 1332 writes to. -/
def createElementNs (xmlName : Str → Bool) (m : Dict Str Cls) (ns : Option Str) (qn : Str)
    (nsmap : Option Nsmap) : Py Elem × Option Nsmap :=
  let full := fillNsmap nsmap
  let after := nsmap.map (fun _ => full)
  match QName.resolve namespaceMap.get? ns qn with
  | .error e => (.error e, after)
  | .ok q =>
    if xmlName q.localName then
      (.ok ⟨q.namespace_, q.localName, full, lookup m .element q.namespace_ q.localName, none⟩, after)
    else (.error .valueError, after)

/-- `SVGParser.create_element`, element.py 1286-1302. -/
def createElement (xmlName : Str → Bool) (m : Dict Str Cls) (name : Str) (nsmap : Option Nsmap) :
    Py Elem × Option Nsmap :=
  createElementNs xmlName m none name nsmap

/-- A document: its identity, content type, implementation and root, window.py 73-99. -/
structure Doc where
  id : Nat
  contentType : Str
  hasImpl : Bool
  root : Option Elem
deriving DecidableEq, Repr

/-- `Document.create_element_ns`, window.py 365-391. -/
def docCreateElementNs (xmlName : Str → Bool) (m : Dict Str Cls) (d : Doc) (ns : Option Str) (qn : Str)
    (nsmap : Option Nsmap) : Py Elem × Option Nsmap :=
  if !d.hasImpl then (.error .valueError, nsmap)
  else
    match createElementNs xmlName m ns qn nsmap with
    | (.error e, a) => (.error e, a)
    | (.ok x, a) => (.ok { x with owner := some d.id }, a)

/-- The content type, window.py 798-803. -/
def contentType (ns : Option Str) : Str :=
  if ns = some svgNs then "image/svg+xml".toList
  else if ns = some xhtmlNs then "application/xhtml+xml".toList
  else "application/xml".toList

/-- `SVGDOMImplementation.create_document`, window.py 781-812; `id` is the identity of
the new document.  Appending the root to the document, which has none yet, puts it
there (window.py 251-257). -/
def createDocument (xmlName : Str → Bool) (m : Dict Str Cls) (id : Nat) (ns : Option Str) (qn : Option Str)
    (nsmap : Option Nsmap) : Py Doc × Option Nsmap :=
  let d : Doc := ⟨id, contentType ns, true, none⟩
  match qn with
  | none => (.ok d, nsmap)
  | some q =>
    if 0 < q.length then
      match docCreateElementNs xmlName m d ns q nsmap with
      | (.error e, a) => (.error e, a)
      | (.ok x, a) => (.ok { d with root := some x }, a)
    else (.ok d, nsmap)

/-- `SVGDOMImplementation.create_svg_document`, window.py 814-826. -/
def createSvgDocument (xmlName : Str → Bool) (m : Dict Str Cls) (id : Nat) (nsmap : Option Nsmap) :
    Py Doc × Option Nsmap :=
  createDocument xmlName m id (some svgNs) (some "svg".toList) nsmap

end SvgPy.Factory
