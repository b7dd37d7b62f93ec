import Verif.Model.Py
import Verif.Model.PyDict

/-!
Model of `/repo/svgpy/style.py` 86-121 (flattening), 279-317 (rule cascade) and of
`Element.get_inherited_style`, `/repo/svgpy/dom.py` 1863-2047.

Not modelled: fetching and parsing style sheets, selector matching (a parameter),
the parsers of the `font`, `font-variant` and `font-family` shorthands (parameters).
-/

namespace SvgPy.Style

/-! ### Flattening -/

/-- A CSS rule: `@import` with its media text and the imported sheet's rules,
`@media` with its media text and rules, any other rule.
`/repo/svgpy/css/__init__.py` classes `CSSImportRule`, `CSSMediaRule`. -/
inductive Rule (α : Type)
  | imported (media : String) (rules : List (Rule α))
  | media (media : String) (rules : List (Rule α))
  | plain (r : α)

variable {α : Type}

/-- The media test, style.py 93-102 and 107-116: `win` is `match_media(..).matches`
of the active window, if there is one. -/
def passes (win : Option (String → Bool)) (media : String) : Bool :=
  if media ∈ ["", "all"] then true
  else match win with
    | none => false
    | some f => f media

mutual
/-- One iteration of the loop of `flatten_css_rules`, style.py 91-120. -/
def flattenRule (win : Option (String → Bool)) : Rule α → List α
  | .imported m rs => if passes win m then flattenRules win rs else []
  | .media m rs => if passes win m then flattenRules win rs else []
  | .plain r => [r]
/-- `flatten_css_rules`, style.py 86-121. -/
def flattenRules (win : Option (String → Bool)) : List (Rule α) → List α
  | [] => []
  | r :: rs => flattenRule win r ++ flattenRules win rs
end

/-! ### Cascade -/

/-- The rules the cascade looks at: style rules with their selector and
declarations `(property, value, priority)`, `@namespace` rules, others. -/
inductive CascadeRule
  | style (selector : String) (decls : List (String × String × String))
  | ns (pre : String) (uri : Option String)
  | other

/-- The state of the loop, style.py 280-285. -/
structure Cascade where
  style : Dict String String
  important : Dict String String
  namespaces : Dict String String

/-- The loop over the declarations, style.py 293-296. -/
def applyDecls : Dict String String × Dict String String → List (String × String × String) →
    Dict String String × Dict String String
  | s, [] => s
  | (st, im), (k, v, p) :: ds =>
    applyDecls (Dict.set st k v, if p = "important" then Dict.set im k v else im) ds

/-- One rule, style.py 286-316.  `sel` tells whether the selector matches the
element under the namespaces; selectors that cssselect rejects do not match.
`len(None)` on line 312 raises `TypeError`. -/
def cascadeRule (sel : String → Dict String String → Bool) (c : Cascade) : CascadeRule → Py Cascade
  | .style s ds =>
    if sel s c.namespaces then
      let r := applyDecls (c.style, c.important) ds
      .ok { c with style := r.1, important := r.2 }
    else .ok c
  | .ns pre uri =>
    match uri with
    | none => .error .typeError
    | some u =>
      if u ≠ "" then
        .ok { c with namespaces := Dict.set c.namespaces (if pre = "" then "svg" else pre) u }
      else .ok c
  | .other => .ok c

/-- The loop, style.py 286-317. -/
def cascadeLoop (sel : String → Dict String String → Bool) : Cascade → List CascadeRule → Py Cascade
  | c, [] => .ok c
  | c, r :: rs =>
    match cascadeRule sel c r with
    | .error e => .error e
    | .ok c' => cascadeLoop sel c' rs

/-- `get_css_style`, style.py 279-317; `ns` is the element's prefix map with the
default namespace under `svg` (282-285). -/
def getCssStyle (sel : String → Dict String String → Bool) (ns : Dict String String)
    (rules : List CascadeRule) : Py (Dict String String × Dict String String) :=
  match cascadeLoop sel ⟨[], [], ns⟩ rules with
  | .error e => .error e
  | .ok c => .ok (c.style, c.important)

/-! ### Inheritance -/

/-- Values of the computed style: texts or lists of words. -/
inductive Val
  | text (s : String)
  | list (l : List String)
deriving DecidableEq, Repr

/-- Parsers the code calls: `CSSUtils.parse_font`, `parse_font_variant`,
`parse_font_family` (core.py 331-588), `str.split`, `Font.default_font_family`. -/
structure Parsers where
  font : String → Dict String Val
  fontVariant : Val → Dict String Val
  family : String → Val
  split : String → List String
  defaultFamily : String

/-- What `get_inherited_style` reads from one element: the result of
`get_css_style`, the attributes, and `style_to_dict` of a style text. -/
structure Elem where
  rules : Dict String String
  important : Dict String String
  attrib : Dict String String

/-- The merged declarations of an element, dom.py 1998-2003.  `toDict` is
`style_to_dict`. -/
def Elem.merged (toDict : String → Dict String String) (e : Elem) : Dict String String :=
  let d := Dict.update e.rules e.attrib
  let d' := Dict.del d "style"
  let d'' := match Dict.get? d "style" with
    | none => d'
    | some s => Dict.update d' (toDict s)
  Dict.update d'' e.important

/-- The keys removed by `_update_font_prop`, dom.py 1873-1883. -/
def fontKeys : List String :=
  ["font-style", "font-variant", "font-weight", "font-stretch", "font-size", "line-height",
   "font-size-adjust", "font-kerning", "font-language-override", "font-family", "font"]

/-- The keys removed by `_update_font_variant_prop`, dom.py 1890-1896. -/
def fontVariantKeys : List String :=
  ["font-variant-alternates", "font-variant-caps", "font-variant-east-asian",
   "font-variant-ligatures", "font-variant-numeric", "font-variant-position", "font-variant"]

/-- The properties whose value is split into words, dom.py 2024-2028. -/
def wordKeys : List String :=
  ["font-variant-alternates", "font-variant-east-asian", "font-variant-ligatures",
   "font-variant-numeric"]

/-- `non_inherited_props`, dom.py 1900-1921. -/
def nonInherited : Dict String String :=
  [("alignment-baseline", "baseline"), ("baseline-shift", "0"), ("clip", "auto"),
   ("clip-path", "none"), ("display", "inline"), ("dominant-baseline", "auto"),
   ("filter", "none"), ("flood-color", "black"), ("flood-opacity", "1"), ("inline-size", "0"),
   ("lighting-color", "white"), ("mask", "no"), ("opacity", "1"), ("overflow", "visible"),
   ("stop-color", "black"), ("stop-opacity", "1"), ("text-decoration", "none"),
   ("transform", "none"), ("unicode-bidi", "normal"), ("vector-effect", "none")]

/-- `inherited_props`, dom.py 1926-1983, with the font constants of core.py
592-600. -/
def inherited : Dict String (Option Val) :=
  [("clip-rule", some (.text "nonzero")), ("color", some (.text "black")),
   ("color-interpolation", some (.text "sRGB")), ("color-rendering", some (.text "auto")),
   ("cursor", some (.text "auto")), ("direction", some (.text "ltr")),
   ("fill", some (.text "black")), ("fill-opacity", some (.text "1")),
   ("fill-rule", some (.text "nonzero")), ("font", none), ("font-family", none),
   ("font-feature-settings", some (.text "normal")), ("font-kerning", some (.text "auto")),
   ("font-language-override", some (.text "normal")), ("font-size", some (.text "medium")),
   ("font-size-adjust", some (.text "none")), ("font-stretch", some (.text "normal")),
   ("font-style", some (.text "normal")), ("font-synthesis", some (.text "weight style")),
   ("font-variant", some (.text "normal")), ("font-variant-alternates", some (.list ["normal"])),
   ("font-variant-caps", some (.text "normal")),
   ("font-variant-east-asian", some (.list ["normal"])),
   ("font-variant-ligatures", some (.list ["normal"])),
   ("font-variant-numeric", some (.list ["normal"])),
   ("font-variant-position", some (.text "normal")), ("font-weight", some (.text "normal")),
   ("image-rendering", some (.text "auto")), ("lang", none),
   ("letter-spacing", some (.text "normal")), ("line-height", some (.text "normal")),
   ("marker", none), ("marker-end", some (.text "none")), ("marker-mid", some (.text "none")),
   ("marker-start", some (.text "none")), ("paint-order", some (.text "normal")),
   ("pointer-events", some (.text "visiblePainted")), ("shape-rendering", some (.text "auto")),
   ("stroke", some (.text "none")), ("stroke-dasharray", some (.text "none")),
   ("stroke-dashoffset", some (.text "0")), ("stroke-linecap", some (.text "butt")),
   ("stroke-linejoin", some (.text "miter")), ("stroke-miterlimit", some (.text "4")),
   ("stroke-opacity", some (.text "1")), ("stroke-width", some (.text "1")),
   ("tab-size", some (.text "8")), ("text-anchor", some (.text "start")),
   ("text-orientation", some (.text "mixed")), ("text-rendering", some (.text "auto")),
   ("visibility", some (.text "visible")), ("white-space", some (.text "normal")),
   ("word-spacing", some (.text "normal")), ("writing-mode", some (.text "horizontal-tb")),
   ("{http://www.w3.org/XML/1998/namespace}lang", none)]

/-- The two dictionaries the loop works on: `style` and `inherited_props`. -/
structure St where
  style : Dict String Val
  props : Dict String (Option Val)

/-- `props.pop(k, None)` for all keys. -/
def popAll (d : Dict String (Option Val)) (ks : List String) : Dict String (Option Val) :=
  ks.foldl Dict.del d

/-- `if key not in style: style[key] = value`. -/
def setNew (s : Dict String Val) (k : String) (v : Val) : Dict String Val :=
  if Dict.contains s k then s else Dict.set s k v

/-- `_update_font_variant_prop`, dom.py 1885-1896. -/
def updateFontVariant (P : Parsers) (v : Val) (st : St) : St :=
  ⟨(P.fontVariant v).foldl (fun s p => setNew s p.1 p.2) st.style, popAll st.props fontVariantKeys⟩

/-- The loop in `_update_font_prop`, dom.py 1866-1872. -/
def fontLoop (P : Parsers) : Dict String Val → St → St
  | [], st => st
  | (k, v) :: ps, st =>
    if Dict.contains st.style k then fontLoop P ps st
    else
      let st' : St := { st with style := Dict.set st.style k v }
      fontLoop P ps (if k = "font-variant" then updateFontVariant P v st' else st')

/-- `_update_font_prop`, dom.py 1864-1883. -/
def updateFont (P : Parsers) (v : String) (st : St) : St :=
  let st' := fontLoop P (P.font v) st
  { st' with props := popAll st'.props fontKeys }

/-- One key, dom.py 2007-2031, with its value when present and not `inherit`. -/
def stepValue (P : Parsers) (st : St) (key v : String) : Py St :=
  if key = "font" then .ok (updateFont P v { st with style := Dict.set st.style key (.text v) })
  else if key = "font-family" then
    if Dict.contains st.props key then
      .ok ⟨Dict.set st.style key (P.family v), Dict.del st.props key⟩
    else .error .keyError
  else if key = "font-variant" then
    .ok (updateFontVariant P (.text v) { st with style := Dict.set st.style key (.text v) })
  else if key = "marker" then .error .notImplemented
  else
    .ok ⟨Dict.set st.style key (if key ∈ wordKeys then .list (P.split v) else .text v),
      Dict.del st.props key⟩

/-- `value = css_style.get(key)` and the test of dom.py 2006. -/
def effective (css : Dict String String) (key : String) : Option String :=
  match Dict.get? css key with
  | none => none
  | some v => if v = "inherit" then none else some v

/-- The loop over the keys, dom.py 2004-2031. -/
def keyLoop (P : Parsers) (css : Dict String String) : List String → St → Py St
  | [], st => .ok st
  | k :: ks, st =>
    match effective css k with
    | none => keyLoop P css ks st
    | some v =>
      match stepValue P st k v with
      | .error e => .error e
      | .ok st' => keyLoop P css ks st'

/-- One element, dom.py 1998-2035. -/
def elemStep (P : Parsers) (css : Dict String String) (st : St) : Py St :=
  match keyLoop P css (Dict.keys st.props) st with
  | .error e => .error e
  | .ok st' =>
    .ok (if Dict.get? css "display" = some "none" then
      { st' with style := Dict.set st'.style "display" (.text "none") } else st')

/-- The loop over the element and its ancestors, dom.py 1996-2036. -/
def chainLoop (P : Parsers) (toDict : String → Dict String String) : List Elem → St → Py St
  | [], st => .ok st
  | e :: es, st =>
    match elemStep P (e.merged toDict) st with
    | .error er => .error er
    | .ok st' => chainLoop P toDict es st'

/-- The values of the non-inherited properties, dom.py 1922-1924. -/
def initStyle (e : Elem) : Dict String Val :=
  nonInherited.map (fun p => (p.1, .text ((Dict.get? e.attrib p.1).getD p.2)))

/-- The initial values, dom.py 2038-2040. -/
def fillDefaults : Dict String (Option Val) → Dict String Val → Dict String Val
  | [], s => s
  | (k, some v) :: ps, s => fillDefaults ps (Dict.set s k v)
  | (_, none) :: ps, s => fillDefaults ps s

/-- `get_inherited_style`, dom.py 1863-2047, for the element followed by its
ancestors. -/
def getInheritedStyle (P : Parsers) (toDict : String → Dict String String) (self : Elem)
    (ancestors : List Elem) : Py (Dict String Val) :=
  match chainLoop P toDict (self :: ancestors) ⟨initStyle self, inherited⟩ with
  | .error e => .error e
  | .ok st =>
    let s := fillDefaults st.props st.style
    .ok (if Dict.get? s "font-family" = none then Dict.set s "font-family" (P.family P.defaultFamily)
      else s)

end SvgPy.Style
