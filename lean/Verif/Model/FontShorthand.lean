import Verif.Model.Components

/-!
The shorthand property `font`: `FontShorthand`, `/repo/svgpy/css/shorthands.py` 255-342, with
`_parse_component_list` for `line-height` (145-206), `_parse_css_declaration` (208-232),
`Shorthand.get_property_value` (73-98) and the descriptors of the longhands (css/props.py).

Simplifications: as in `Components`; strings with the text of a keyword and `var()`, which the
descriptors also accept, are left out.
-/

namespace SvgPy.FontShorthand

open SvgPy.PyStr SvgPy.Decl SvgPy.Shorthand SvgPy.Components

/-- The kinds of tokens that are no identifiers and no literals, css/props.py 170-346. -/
inductive Kind
  | number
  | angle
  | length
  | percentage
  | string
  | math
  | another
  deriving DecidableEq

/-- The test of a descriptor for tokens that are no identifiers: the kinds that it supports. -/
def kinds (kind : Str → Kind) (ks : List Kind) : Tok → Bool
  | .other t => ks.contains (kind t)
  | _ => false

/-- `font-style`, css/props.py 736-741. -/
def styleDesc (kind : Str → Kind) : Desc :=
  ⟨false, keywords ["normal", "italic", "oblique"] (kinds kind [.angle]), "normal".toList⟩

/-- `font-variant-css2`, css/props.py 859-864. -/
def variantDesc : Desc := ⟨false, keywords ["normal", "small-caps"] nothing, "normal".toList⟩

/-- `font-weight`, css/props.py 948-956. -/
def weightDesc (kind : Str → Kind) : Desc :=
  ⟨false, keywords ["normal", "bold", "bolder", "lighter"] (kinds kind [.number]), "normal".toList⟩

/-- `font-stretch-css3`, css/props.py 728-735. -/
def stretchDesc : Desc :=
  ⟨false, keywords ["normal", "ultra-condensed", "extra-condensed", "condensed", "semi-condensed",
    "semi-expanded", "expanded", "extra-expanded", "ultra-expanded"] nothing, "normal".toList⟩

/-- `font-size`, css/props.py 699-713; a number counts as a length without unit (317-321). -/
def sizeDesc (kind : Str → Kind) : Desc :=
  ⟨false, keywords ["xx-small", "x-small", "small", "medium", "large", "x-large", "xx-large", "larger",
    "smaller"] (kinds kind [.number, .length, .percentage, .math]), "medium".toList⟩

/-- `line-height`, css/props.py 1004-1009. -/
def lineDesc (kind : Str → Kind) : Desc :=
  ⟨false, keywords ["normal"] (kinds kind [.number, .length, .percentage, .math]), "normal".toList⟩

/-- `font-family`, css/props.py 621-631: with `<string>`, every identifier and number is supported too
(300-304, 323-326). -/
def familyDesc (kind : Str → Kind) : Desc :=
  ⟨true, fun t => match t with
    | .ident _ _ => true
    | .other t => [Kind.string, .number].contains (kind t)
    | _ => false, "sans-serif".toList⟩

/-- `_parse_component_list` for `line-height`, which follows a solidus, css/shorthands.py 145-206. The
target is set when the solidus has been found. -/
def parseSolidus (d : Desc) : Option (List Tok) → List Tok → Parsed
  | target, [] => ⟨target, [], []⟩
  | target, t :: l =>
    let consume := parseSolidus d (some (target.getD [] ++ [t])) l
    let keep := (parseSolidus d target l).keep t
    let stop : Parsed := ⟨target, [], t :: l⟩
    match t with
    | .ws _ => if target.isSome then consume else keep
    | t =>
      match wideOf t with
      | some k => (parseSolidus d target l).wide k
      | none =>
        if t = .lit [','] then
          if d.list then (if target.isSome then consume else keep) else ⟨none, [], t :: l⟩
        else if t = .lit ['/'] then (if target.isSome then stop else parseSolidus d (some []) l)
        else if target.isNone then keep
        else if d.support t then consume
        else stop

/-- An empty list is deleted, css/shorthands.py 203-205. -/
def nonEmpty : Option (List Tok) → Option (List Tok)
  | some [] => none
  | o => o

/-- What is found for a longhand, css/shorthands.py 145-206. -/
def found (n : Str) : Option (List Tok) → List (Str × List Tok)
  | none => []
  | some v => [(n, v)]

/-- The loop of `_parse_css_declaration` for `font`, css/shorthands.py 211-218, 924-932. -/
def parseFont (kind : Str → Kind) (l : List Tok) : List (Str × List Tok) × List Str :=
  let a := parseList (styleDesc kind) none l
  let b := parseList variantDesc none a.rest
  let c := parseList (weightDesc kind) none b.rest
  let d := parseList stretchDesc none c.rest
  let e := parseList (sizeDesc kind) none d.rest
  let f := parseSolidus (lineDesc kind) none e.rest
  let g := parseList (familyDesc kind) none f.rest
  (found "font-style".toList a.found ++ found "font-variant-css2".toList b.found ++
    found "font-weight".toList c.found ++ found "font-stretch-css3".toList d.found ++
    found "font-size".toList e.found ++ found "line-height".toList (nonEmpty f.found) ++
    found "font-family".toList g.found,
   a.wides ++ b.wides ++ c.wides ++ d.wides ++ e.wides ++ f.wides ++ g.wides)

/-- The longhands with their initial values, css/shorthands.py 924-932 and css/props.py. -/
def initials : List (Str × Str) :=
  [("font-style".toList, "normal".toList), ("font-variant-css2".toList, "normal".toList),
   ("font-weight".toList, "normal".toList), ("font-stretch-css3".toList, "normal".toList),
   ("font-size".toList, "medium".toList), ("line-height".toList, "normal".toList),
   ("font-family".toList, "sans-serif".toList)]

/-- `create_component_list` of an identifier, css/shorthands.py 28-32. -/
def single (k : Str) : List Tok := [.ident k k]

/-- `_parse_css_declaration` for `font`, css/shorthands.py 208-232. -/
def fontMap (kind : Str → Kind) (l : List Tok) : List (Str × List Tok) :=
  let r := parseFont kind l
  if r.2.length = 1 then initials.map (fun n => (n.1, single (r.2.headD [])))
  else
    let m := if r.2.length > 0 then [] else r.1
    m ++ (initials.filter fun n => !(Dict.contains m n.1)).map fun n => (n.1, single n.2)

/-- `FontShorthand.set_css_declaration`, css/shorthands.py 257-271. -/
def fontSet (kind : Str → Kind) (alt : Tok → Bool) (d : Decls) (l : List Tok) (p : Str) : Decls :=
  let m := fontMap kind l
  let variant := (Dict.get? m "font-variant-css2".toList).getD []
  let m := Dict.del m "font-variant-css2".toList
  let stretch := (Dict.get? m "font-stretch-css3".toList).getD []
  let m := Dict.del m "font-stretch-css3".toList
  setAll (fvSet (fvDescs alt) d variant p) p (texts (m ++ [("font-stretch".toList, stretch)]))

/-- `get_longhand_list('font')`, css/shorthands.py 35-43. -/
def allLonghands : List Str :=
  ["font-style".toList] ++ fvLonghands ++ ["font-weight".toList, "font-stretch".toList,
    "font-size".toList, "line-height".toList, "font-family".toList]

/-- `font_sub_property_list`, css/shorthands.py 908-918. -/
def subProperties : List Str :=
  ["font-size-adjust".toList, "font-kerning".toList, "font-feature-settings".toList,
   "font-language-override".toList, "font-min-size".toList, "font-max-size".toList,
   "font-optical-sizing".toList, "font-variation-settings".toList, "font-palette".toList]

/-- The order of the declarations allows to write them as `font`, css/shorthands.py 274-296. -/
def inOrder (d : Decls) : Bool :=
  let keys := Dict.keys d
  allLonghands.all (fun n => keys.contains n) &&
  (let idx := allLonghands.map (fun n => keys.idxOf n)
   let lo := idx.foldl min keys.length
   let hi := idx.foldl max 0
   subProperties.all (fun n => !keys.contains n ||
     !((lo < keys.idxOf n && keys.idxOf n < hi) ||
       (hi < keys.idxOf n && (Dict.get? d n).map (·.1) != some "initial".toList))))

/-- The values that are written, css/shorthands.py 329-342: the size with the line height, initial
values are left out. -/
def written (style variant weight stretch size line family : Str) : List Str :=
  let size' := if line ≠ "normal".toList then size ++ '/' :: line else size
  [style, variant, weight, stretch].filter (fun v => v != "normal".toList) ++
    (if size' ≠ "medium".toList then [size'] else []) ++ [family]

/-- `FontShorthand.tostring`, css/shorthands.py 273-342, for the values of the longhands. -/
def fontToString (supports : Str → Str → Bool) (d : Decls) (m : Dict Str Str) : Str :=
  if inOrder d then
    match ["font-style", "font-variant", "font-weight", "font-stretch", "font-size", "line-height",
        "font-family"].map (fun n => Dict.get? m n.toList) with
    | [some a, some b, some c, some e, some f, some g, some h] =>
      let vs := [a, b, c, e, f, g, h]
      if vs.any (fun x => x == []) then []
      else if vs.any (fun x => wideKeywords.contains x) then
        (if vs.all (fun x => x == a) then a else [])
      else if !supports "font-variant-css2".toList b then []
      else if !supports "font-stretch-css3".toList e then []
      else join [' '] (written a b c e f g h)
    | _ => []
  else []

/-- `Shorthand.get_property_value('font')`, css/shorthands.py 73-98: the longhands but `font-variant`
as in `collect`, `font-variant` from its own longhands. -/
def fontGet (supports : Str → Str → Bool) (d : Decls) : Str :=
  match collect supports d ["font-style".toList], collect supports d ["font-weight".toList,
      "font-stretch".toList, "font-size".toList, "line-height".toList, "font-family".toList] with
  | some a, some b =>
    let m := a ++ [("font-variant".toList, (fvGet supports d, getPriority fvLonghands d))] ++ b
    if agree (m.map (fun x => x.2.2)) then fontToString supports d (m.map (fun x => (x.1, x.2.1))) else []
  | _, _ => []

end SvgPy.FontShorthand
