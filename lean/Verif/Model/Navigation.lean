import Verif.Model.Url

/-! Locations and the navigation of documents: `Location` (`/repo/svgpy/url.py` 58-207), `URL.origin`
(335-354), `normalize_url` (`/repo/svgpy/utils.py` 214-231), `Document.navigate` and the `location`
setters (`/repo/svgpy/window.py` 167-170, 548-566, 910-913).

Loading and parsing (`DOMImplementation.parse`) is a function from addresses to documents, given by
their root element, or errors. -/

namespace SvgPy.Navigation

open SvgPy.Url

/-- A document with its location: `_url` of the `Location` and `_document_element` of the `Document`
with what is in it. -/
structure Page (D : Type) where
  url : URL
  root : Option D

/-- The page after a call, and the error that was raised. -/
abbrev Out (D : Type) := Page D × Option PyErr

/-- The test of `Location._navigate`, url.py 176-184: `false` if `ValueError` is raised. -/
def permitted (u : URL) : Bool :=
  !((u.protocol.isEmpty && (readHost u).host.isEmpty) ||
    (u.protocol == "blob:".toList || u.protocol == "data:".toList) ||
    ((u.protocol == "about:".toList || u.protocol == "file:".toList) && (getPathname u).isEmpty))

/-- `Document.navigate`, window.py 548-566: the address is read, the root element is removed, and the
new one is loaded and appended. -/
def docNavigate {D : Type} (lib : Lib) (load : Str → Py D) (w : Page D) : Out D :=
  let u := readHost w.url
  let w := { w with url := u, root := none }
  if u.protocol = "about:".toList then (w, none)
  else match load (href lib u) with
    | .error e => (w, some e)
    | .ok d => ({ w with root := some d }, none)

/-- `Location._navigate` with a browsing context, url.py 176-184; also `reload`, 194-196.  The
message of the error contains the address, for which the host is read. -/
def navigate {D : Type} (lib : Lib) (load : Str → Py D) (w : Page D) : Out D :=
  if permitted w.url then docNavigate lib load w else ({ w with url := readHost w.url }, some .valueError)

/-- A setter of `Location`, url.py 74-174: a setter of the URL, and `_navigate`. -/
def change {D : Type} (lib : Lib) (load : Str → Py D) (f : URL → Res) (w : Page D) : Out D :=
  match f w.url with
  | (u, some e) => ({ w with url := u }, some e)
  | (u, none) => navigate lib load { w with url := u }

/-- The setters of `Location`: `hash` 79-82, `host` 92-95, `hostname` 104-107, `href` 116-119 (and
`assign` 184-190), `pathname` 135-138, `port` 147-150, `protocol` 159-162, `search` 169-171. -/
inductive Field
  | hash | host | hostname | href | pathname | port | protocol | search

/-- The setter of the URL that a setter of `Location` calls, url.py 74-174. -/
def setter (lib : Lib) : Field → Str → URL → Res
  | .hash, s, u => setHash lib u s
  | .host, s, u => setHost lib u s
  | .hostname, s, u => setHostname lib u s
  | .href, s, u => setHref lib u s
  | .pathname, s, u => setPathname lib u s
  | .port, s, u => setPort u s
  | .protocol, s, u => setProtocol lib u s
  | .search, s, u => setSearch u s

/-- The base address of `normalize_url`, utils.py 229-230; `cwd` is the working directory as a URI. -/
def baseOf (cwd base : Str) : Str := if "about:".toList.isPrefixOf base then cwd else base

/-- `Document.location` and `Window.location` (setters) with a text, window.py 167-170, 910-913 and
utils.py 214-231: the address is resolved and given to `Location.href`. -/
def setLocation {D : Type} (lib : Lib) (load : Str → Py D) (cwd : Str) (src : Str) (w : Page D) : Out D :=
  let w := { w with url := readHost w.url }
  match constructStr lib src (baseOf cwd (href lib w.url)) with
  | .error e => (w, some e)
  | .ok v => change lib load (fun u => setHref lib u (href lib v)) w

/-- `URL.origin`, url.py 335-354.  Blob addresses contain the address whose origin is theirs, in which
there may be a blob address again; the number bounds how often. -/
def origin (lib : Lib) : Nat → URL → Py Str
  | fuel, u =>
    let u := readHost u
    if u.protocol = "blob:".toList then
      match fuel with
      | 0 => .error .notImplemented
      | fuel + 1 =>
        match (construct lib (getPathname u) none).1 with
        | .error e => if e = .valueError then .ok "null".toList else .error e
        | .ok v => origin lib fuel v
    else if u.protocol = "file:".toList then .ok "null".toList
    else if u.protocol.length > 0 ∧ Dict.contains specialPorts u.protocol = true ∧ u.host.length > 0 then
      .ok (u.protocol ++ "//".toList ++ u.host)
    else .ok "null".toList

end SvgPy.Navigation
