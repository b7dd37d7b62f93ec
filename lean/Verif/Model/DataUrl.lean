import Verif.Model.CaseMap
import Verif.Model.PyStr
import Verif.Model.Url

/-!
Loading of `data:` URLs and content types: `load` and `get_content_type`, `/repo/svgpy/utils.py` 56-69,
179-211, and what `SVGDOMImplementation.parse`, `/repo/svgpy/window.py` 827-848, makes of them.

Simplifications: `unquote` and `str.lower` are those of the library of C23-C25, `base64.b64decode` and the decoding
of bytes are parameters.  URLs of other schemes are fetched with `urlopen`, which is not modelled.
-/

namespace SvgPy.DataUrl

open SvgPy.PyStr SvgPy.Url SvgPy.CaseMap

/-- The data: a text or bytes, utils.py 197-201. -/
inductive Data (β : Type)
  | text (s : Str)
  | bytes (b : β)
  deriving DecidableEq

/-- A mapping from names, or `None`, to texts. -/
abbrev Headers := CMap (Option Str) Str

/-- `_convert_key`, utils.py 292-294. -/
def lowKey (lib : Lib) (k : Option Str) : Option Str := k.map lib.lower

/-- `'Content-Type'`. -/
def contentTypeKey : Option Str := some "Content-Type".toList

/-- `load` for the path of a `data:` URL, utils.py 188-203. -/
def loadPath {β : Type} (lib : Lib) (b64 : Str → Py β) (pathname : Str) : Py (Option (Data β) × Headers) :=
  match cut ',' pathname with
  | none => .ok (none, .empty)
  | some (a, b) =>
    let ct := strip a
    let ct := if ct.length = 0 then "text/plain;charset=US-ASCII".toList else ct
    let data := lib.unquote (strip b)
    let ps := (splitOn ';' ct).map strip
    if "base64".toList ∈ ps then
      match b64 data with
      | .error e => .error e
      | .ok d => .ok (some (.bytes d),
          CMap.empty.setitem (lowKey lib) contentTypeKey (join [';'] (ps.erase "base64".toList)))
    else .ok (some (.text data), CMap.empty.setitem (lowKey lib) contentTypeKey (join [';'] ps))

/-- `load` for a text, utils.py 179-211; none if the URL is fetched with `urlopen`. -/
def load {β : Type} (lib : Lib) (b64 : Str → Py β) (src : Str) : Option (Py (Option (Data β) × Headers)) :=
  match (construct lib src none).1 with
  | .error e => some (.error e)
  | .ok u => if u.protocol = "data:".toList then some (loadPath lib b64 (getPathname u)) else none

/-- One parameter, utils.py 65-68. -/
def addParameter (lib : Lib) (m : Headers) (p : Str) : Headers :=
  match splitOn '=' p with
  | [k, v] => m.setitem (lowKey lib) (some k) v
  | _ => m

/-- `get_content_type`, utils.py 56-69.  The copy of the headers is made from their items. -/
def getContentType (lib : Lib) (headers : Headers) : Option Headers :=
  let hs : Headers := CMap.empty.update (lowKey lib) headers.items
  match hs.getitem (lowKey lib) contentTypeKey with
  | .error _ => none
  | .ok ct =>
    match (splitOn ';' ct).map strip with
    | [] => none
    | first :: ps =>
      some (ps.foldl (addParameter lib) (CMap.empty.setitem (lowKey lib) none first))

/-- The charset, window.py 839-842, css/__init__.py 1752-1757. -/
def charset (lib : Lib) (headers : Headers) : Str :=
  match getContentType lib headers with
  | none => "utf-8".toList
  | some m =>
    match m.getitem (lowKey lib) (some "charset".toList) with
    | .ok v => v
    | .error _ => "utf-8".toList

/-- The text of the document that `SVGDOMImplementation.parse` reads, window.py 836-843: `str` and `None` have no
method `decode`. -/
def documentText {β : Type} (lib : Lib) (b64 : Str → Py β) (decode : Str → β → Py Str) (src : Str) :
    Option (Py Str) :=
  match load lib b64 src with
  | none => none
  | some (.error e) => some (.error e)
  | some (.ok (some (.bytes b), hs)) => some (decode (charset lib hs) b)
  | some (.ok (_, _)) => some (.error .attributeError)

end SvgPy.DataUrl
