import Verif.Model.Shorthand

/-!
Shorthand properties that are split by `ShorthandProperty._parse_component_list`: `text-decoration`,
`font-variant` and `overflow`, `/repo/svgpy/css/shorthands.py` 145-245, 409-470, 711-804.

`tinycss2.serialize` is the concatenation of the texts of the tokens (it puts `/**/` between tokens that
would run together; there is white space between the tokens considered here).  None of the longhands
is in `_with_solidus_properties` or has `/` in its syntax, so that branch is left out.
-/

namespace SvgPy.Components

open SvgPy.PyStr SvgPy.Decl SvgPy.Shorthand

/-- A component value of tinycss2: white space, identifier (with `lower_value`), literal, or another. -/
inductive Tok
  | ws (text : Str)
  | ident (text low : Str)
  | lit (text : Str)
  | other (text : Str)
  deriving DecidableEq

/-- What `serialize` writes for a token. -/
def Tok.text : Tok → Str
  | .ws t => t
  | .ident t _ => t
  | .lit t => t
  | .other t => t

/-- `tinycss2.serialize(component_list).strip()`, css/shorthands.py 238. -/
def valueText (l : List Tok) : Str := strip (l.flatMap Tok.text)

/-- What the code asks of a property descriptor: `#` or `,` in `syntax`, `support(component)[0]`, `initial_value`. -/
structure Desc where
  list : Bool
  support : Tok → Bool
  initial : Str

/-- `component.type == 'ident' and component.lower_value in css_wide_keyword_set`, css/shorthands.py 157-158. -/
def wideOf : Tok → Option Str
  | .ident _ low => if low ∈ wideKeywords then some low else none
  | _ => none

/-- What `_parse_component_list` leaves: the components of the property, the CSS-wide keywords, and the other components. -/
structure Parsed where
  found : Option (List Tok)
  wides : List Str
  rest : List Tok
  deriving DecidableEq

def Parsed.keep (t : Tok) (p : Parsed) : Parsed := { p with rest := t :: p.rest }

def Parsed.wide (k : Str) (p : Parsed) : Parsed := { p with wides := k :: p.wides }

/-- `_parse_component_list`, css/shorthands.py 145-206; `target` is what was found so far.  A literal is removed
where it stands (the code removes the first equal one). -/
def parseList (d : Desc) : Option (List Tok) → List Tok → Parsed
  | target, [] => ⟨target, [], []⟩
  | target, t :: l =>
    let consume := parseList d (some (target.getD [] ++ [t])) l
    let keep := (parseList d target l).keep t
    let stop : Parsed := ⟨target, [], t :: l⟩
    match t with
    | .ws _ => if target.isSome then consume else keep
    | t =>
      match wideOf t with
      | some k => (parseList d target l).wide k
      | none =>
        if t = .lit [','] then
          if d.list then (if target.isSome then consume else keep) else ⟨none, [], t :: l⟩
        else if t = .lit ['/'] then (if target.isSome then stop else keep)
        else if d.support t then consume
        else if target.isSome then stop else keep

/-- The loop of `_parse_css_declaration`, css/shorthands.py 211-218: what was found for the longhands, and all CSS-wide keywords. -/
def parseAll : List (Str × Desc) → List Tok → List (Str × List Tok) × List Str
  | [], _ => ([], [])
  | (n, d) :: ds, l =>
    let p := parseList d none l
    let r := parseAll ds p.rest
    ((match p.found with | some v => [(n, v)] | none => []) ++ r.1, p.wides ++ r.2)

/-- The longhands that are missing get this value at the end, css/shorthands.py 226-231, 779-781. -/
def fill (init : Desc → Str) (ds : List (Str × Desc)) (m : List (Str × Str)) : List (Str × Str) :=
  m ++ (ds.filter fun nd => !(Dict.contains m nd.1)).map fun nd => (nd.1, init nd.2)

/-- The texts of components. -/
def texts (m : List (Str × List Tok)) : List (Str × Str) := m.map fun x => (x.1, valueText x.2)

/-- Longhands of `text-decoration`, css/shorthands.py 964-968. -/
def tdLonghands : List Str := ["text-decoration-line".toList, "text-decoration-style".toList, "text-decoration-color".toList]

/-- The part of `PropertyDescriptor.support` for identifiers of the syntax, css/props.py 289-291 (`value in self._identifiers`,
letter case as written); `more` is what else the syntax allows.  Strings with the text of a keyword and `var()`, which the code
also accepts, are left out. -/
def keywords (ks : List String) (more : Tok → Bool) : Tok → Bool
  | .ident t low => ks.any (fun k => t == k.toList) || more (.ident t low)
  | t => more t

/-- Nothing else. -/
def nothing : Tok → Bool := fun _ => false

/-- Descriptors of the longhands of `text-decoration`, css/props.py 1518-1523, 1532-1538, 1547-1552; `color` is the test for `<color>`. -/
def tdDescs (color : Tok → Bool) : List (Str × Desc) :=
  [("text-decoration-line".toList, ⟨false, keywords ["none", "underline", "overline", "line-through", "blink", "spelling-error",
      "grammar-error"] nothing, "none".toList⟩),
   ("text-decoration-style".toList, ⟨false, keywords ["solid", "double", "dotted", "dashed", "wavy"] nothing, "solid".toList⟩),
   ("text-decoration-color".toList, ⟨false, color, "currentcolor".toList⟩)]

/-- `TextDecorationShorthand.set_css_declaration`, css/shorthands.py 763-783, with the descriptors of the longhands;
`none` for `return False`. -/
def tdSet (ds : List (Str × Desc)) (d : Decls) (l : List Tok) (p : Str) : Option Decls :=
  let r := parseAll ds l
  if r.2.length > 1 then none
  else if r.2.length = 1 then some (setAll d p (fill (fun _ => r.2.headD []) ds []))
  else some (setAll d p (fill (fun _ => "initial".toList) ds (texts r.1)))

/-- `TextDecorationShorthand.tostring`, css/shorthands.py 785-804. -/
def tdToString (m : Dict Str Str) : Str :=
  match tdLonghands.map (Dict.get? m) with
  | [some a, some b, some c] =>
    if (wideKeywords.contains a && wideKeywords.contains b && wideKeywords.contains c) && (b == a && c == a) then a
    else if [a, b, c].any fun x => wideKeywords.contains x && x != "initial".toList then []
    else join [' '] ([a, b, c].filter fun x => x != "initial".toList)
  | _ => []

/-- Reading the `text-decoration` property of a block. -/
def tdGet (supports : Str → Str → Bool) (d : Decls) : Str := getValue supports tdLonghands tdToString d

/-- Longhands of `font-variant`, css/shorthands.py 933-940. -/
def fvLonghands : List Str := ["font-variant-ligatures".toList, "font-variant-caps".toList, "font-variant-alternates".toList,
  "font-variant-numeric".toList, "font-variant-east-asian".toList, "font-variant-position".toList]

/-- Descriptors of the longhands of `font-variant`, css/props.py 831-943; `alt` is the test for the functions of
`font-variant-alternates` (whose syntax has a `#`). -/
def fvDescs (alt : Tok → Bool) : List (Str × Desc) :=
  [("font-variant-ligatures".toList, ⟨false, keywords ["normal", "none", "common-ligatures", "no-common-ligatures",
      "discretionary-ligatures", "no-discretionary-ligatures", "historical-ligatures", "no-historical-ligatures", "contextual",
      "no-contextual"] nothing, "normal".toList⟩),
   ("font-variant-caps".toList, ⟨false, keywords ["normal", "small-caps", "all-small-caps", "petite-caps", "all-petite-caps",
      "unicase", "titling-caps"] nothing, "normal".toList⟩),
   ("font-variant-alternates".toList, ⟨true, keywords ["normal", "historical-forms"] alt, "normal".toList⟩),
   ("font-variant-numeric".toList, ⟨false, keywords ["normal", "lining-nums", "oldstyle-nums", "proportional-nums", "tabular-nums",
      "diagonal-fractions", "stacked-fractions", "ordinal", "slashed-zero"] nothing, "normal".toList⟩),
   ("font-variant-east-asian".toList, ⟨false, keywords ["normal", "jis78", "jis83", "jis90", "jis04", "simplified", "traditional",
      "full-width", "proportional-width", "ruby"] nothing, "normal".toList⟩),
   ("font-variant-position".toList, ⟨false, keywords ["normal", "sub", "super"] nothing, "normal".toList⟩)]

/-- `FontVariantShorthand.set_css_declaration`, css/shorthands.py 411-430, with `_parse_css_declaration` (219-232). -/
def fvSet (ds : List (Str × Desc)) (d : Decls) (l : List Tok) (p : Str) : Decls :=
  let v := valueText l
  if v = "normal".toList ∨ v = "none".toList then
    setAll d p (ds.map fun nd => (nd.1, if nd.1 = "font-variant-ligatures".toList ∧ v = "none".toList then "none".toList else nd.2.initial))
  else
    let r := parseAll ds l
    if r.2.length = 1 then setAll d p (fill (fun _ => r.2.headD []) ds [])
    else setAll d p (fill (fun nd => nd.initial) ds (if r.2.length > 0 then [] else texts r.1))

/-- `FontVariantShorthand.tostring`, css/shorthands.py 432-470. -/
def fvToString (m : Dict Str Str) : Str :=
  match fvLonghands.map (Dict.get? m) with
  | [some a, some b, some c, some d, some e, some f] =>
    let vs := [a, b, c, d, e, f]
    if vs.all fun x => x == "normal".toList then "normal".toList
    else if a = "none".toList then (if [b, c, d, e, f].all fun x => x == "normal".toList then "none".toList else [])
    else if vs.any fun x => wideKeywords.contains x then
      (if (vs.all fun x => wideKeywords.contains x) && [b, c, d, e, f].all fun x => x == a then a else [])
    else join [' '] (vs.filter fun x => x != "normal".toList)
  | _ => []

/-- Reading the `font-variant` property of a block. -/
def fvGet (supports : Str → Str → Bool) (d : Decls) : Str := getValue supports fvLonghands fvToString d

/-- Longhands of `overflow`, css/shorthands.py 960-963. -/
def ovLonghands : List Str := ["overflow-x".toList, "overflow-y".toList]

/-- The descriptor of `overflow-x`, css/props.py 1314-1319. -/
def ovDesc : Desc := ⟨false, keywords ["visible", "hidden", "clip", "scroll", "auto"] nothing, "visible".toList⟩

/-- `x.type != 'whitespace'`, css/shorthands.py 731-732. -/
def notWs : Tok → Bool
  | .ws _ => false
  | _ => true

/-- `OverflowShorthand.set_css_declaration`, css/shorthands.py 713-740, with the descriptor of `overflow-x`. -/
def ovSet (dx : Desc) (d : Decls) (l : List Tok) (p : Str) : Py (Option Decls) :=
  let r := parseList dx none l
  if r.wides.length > 1 then .ok none
  else if r.wides.length = 1 then .ok (some (setAll d p (ovLonghands.map fun n => (n, r.wides.headD []))))
  else match r.found with
    | none => .error .keyError
    | some ts =>
      match ts.filter notWs with
      | [a] => .ok (some (setAll d p [("overflow-x".toList, valueText [a]), ("overflow-y".toList, valueText [a])]))
      | [a, b] => .ok (some (setAll d p [("overflow-x".toList, valueText [a]), ("overflow-y".toList, valueText [b])]))
      | _ => .ok none

/-- `OverflowShorthand.tostring`, css/shorthands.py 742-758. -/
def ovToString (m : Dict Str Str) : Str :=
  match ovLonghands.map (Dict.get? m) with
  | [some x, some y] =>
    if x = y then x
    else if wideKeywords.contains x || wideKeywords.contains y then []
    else join [' '] [x, y]
  | _ => []

/-- Reading the `overflow` property of a block. -/
def ovGet (supports : Str → Str → Bool) (d : Decls) : Str := getValue supports ovLonghands ovToString d

end SvgPy.Components
