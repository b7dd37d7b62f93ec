import Verif.Model.Style

/-!
Which style sheets a document has: `get_css_style_sheets`, `get_css_style_sheet_from_element`,
`get_css_style_sheets_from_svg_document`, `get_css_style_sheets_from_xml_stylesheet` and `get_css_rules`,
`/repo/svgpy/style.py` 124-276, `Document.style_sheets`, `/repo/svgpy/window.py` 217-221, and `LinkStyle.sheet`,
`/repo/svgpy/dom.py` 2428-2432.

Simplifications: the processing instructions before the root element and the `link` and `style` elements are given in
document order, as lxml's `itersiblings` and `iter` find them; addresses are resolved and loaded by arbitrary
functions (`normalize_url` and `CSSParser.parse`, which gives a style sheet without rules if loading fails).
-/

namespace SvgPy.StyleSheets

open SvgPy.Style

/-- A processing instruction: its target and the attributes that are read, style.py 253-273. -/
structure PI where
  target : String
  type : Option String
  href : Option String
  alternate : Option String
  media : Option String

/-- A `link` or `style` element; `rel` are the tokens of the attribute. -/
inductive Elem
  | link (rel : List String) (as_ type href media : Option String)
  | style (type media text : Option String)

/-- Where a style sheet comes from: the built-in text, an address or the text of a `style` element. -/
inductive Sheet
  | builtin
  | loaded (url : String)
  | embedded (text : String)
  deriving DecidableEq

/-- `href[0] == '#'`, style.py 177 and 256: an error for an empty text. -/
def isFragment (href : String) : Py Bool :=
  match href.toList with
  | [] => .error .indexError
  | c :: _ => .ok (c == '#')

/-- A `link` element, style.py 166-194, with `as_`, `href` and `media`, `/repo/svgpy/element.py` 57-62, 77-80, 105-108. -/
def linkSheet (win : Option (String → Bool)) (resolve : String → String) (rel : List String) (as_ href media : Option String) : Py (Option Sheet) :=
  let as_ := as_.getD ""
  if rel.contains "alternate" || (!rel.contains "stylesheet" && !(rel.contains "preload" && as_ == "style"))
      || (rel.contains "preload" && as_ != "style") then .ok none
  else
    let href := href.getD ""
    match isFragment href with
    | .error e => .error e
    | .ok true => .ok none
    | .ok false => if passes win (media.getD "") then .ok (some (.loaded (resolve href))) else .ok none

/-- A `style` element, style.py 195-220, with `media` and `type`, `/repo/svgpy/element.py` 815-817, 831-833. -/
def styleSheet (win : Option (String → Bool)) (type media text : Option String) : Option Sheet :=
  if type.getD "text/css" ≠ "text/css" then none
  else match text with
    | none => none
    | some t => if passes win (media.getD "all") then some (.embedded t) else none

/-- `get_css_style_sheet_from_element`, style.py 152-220. -/
def elemSheet (win : Option (String → Bool)) (resolve : String → String) : Elem → Py (Option Sheet)
  | .link rel as_ _ href media => linkSheet win resolve rel as_ href media
  | .style type media text => .ok (styleSheet win type media text)

/-- One round of the loop over processing instructions, style.py 249-275. -/
def piSheet (win : Option (String → Bool)) (resolve : String → String) (p : PI) : Py (Option Sheet) :=
  if p.target ≠ "xml-stylesheet" then .ok none
  else match p.href with
    | none => .ok none
    | some href =>
      match isFragment href with
      | .error e => .error e
      | .ok f =>
        if f || p.alternate.getD "" == "yes" then .ok none
        else if passes win (p.media.getD "") then .ok (some (.loaded (resolve href))) else .ok none

/-- A loop that appends what is not `None`, style.py 223-232 and 235-276. -/
def collect {α : Type} (f : α → Py (Option Sheet)) : List α → Py (List Sheet)
  | [] => .ok []
  | a :: as =>
    match f a with
    | .error e => .error e
    | .ok s =>
      match collect f as with
      | .error e => .error e
      | .ok ss => .ok (s.toList ++ ss)

/-- `get_css_style_sheets`, style.py 133-149. -/
def styleSheets (win : Option (String → Bool)) (resolve : String → String) (pis : List PI) (elems : List Elem) : Py (List Sheet) :=
  match collect (piSheet win resolve) pis with
  | .error e => .error e
  | .ok a =>
    match collect (elemSheet win resolve) elems with
    | .error e => .error e
    | .ok b => .ok (.builtin :: a ++ b)

/-- `get_css_rules`, style.py 124-130.  `rules` are the rules of a style sheet. -/
def cssRules {α : Type} (rules : Sheet → List (Rule α)) (win : Option (String → Bool)) (resolve : String → String) (pis : List PI)
    (elems : List Elem) : Py (List α) :=
  match styleSheets win resolve pis elems with
  | .error e => .error e
  | .ok ss => .ok (flattenRules win (ss.flatMap rules))

end SvgPy.StyleSheets
