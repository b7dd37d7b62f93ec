import Verif.Model.Decl

/-!
Model of the shorthand properties `white-space` and `font-synthesis`,
`/repo/svgpy/css/shorthands.py` 46-98, 234-244, 345-406, 807-883.

`create_component_list` followed by `tinycss2.serialize(...).strip()` is the
identity on the identifiers stored here, and the value given to the setter is its
serialised, stripped form (for `font-synthesis`: the serialised tokens that are not
white space).  `supports` is `PropertyDescriptor.supports` (css/props.py 348-369)
and `low` is `str.lower`.
-/

namespace SvgPy.Shorthand

open Decl

/-- `css_wide_keyword_set`, css/props.py 36-38. -/
def wideKeywords : List Str :=
  ["default".toList, "inherit".toList, "initial".toList, "revert".toList, "unset".toList]

/-- The loop of `get_property_value` over longhands (none of them a shorthand):
`none` for the early `return ''`, css/shorthands.py 77-91. -/
def collect (supports : Str → Str → Bool) (d : Decls) : List Str → Option Decls
  | [] => some []
  | l :: ls =>
    match Dict.get? d l with
    | none => collect supports d ls
    | some (v, p) =>
      if v = [] ∨ supports l v = false then none
      else (collect supports d ls).map ((l, (v, p)) :: ·)

/-- The negation of the test on `priorities`, css/shorthands.py 93-95, 67-69. -/
def agree : List Str → Bool
  | [] => false
  | p :: ps => ps.all (fun x => p = x)

/-- `Shorthand.get_property_value` for a shorthand with those longhands and that
`tostring`, css/shorthands.py 73-98. -/
def getValue (supports : Str → Str → Bool) (longhands : List Str) (tostring : Dict Str Str → Str)
    (d : Decls) : Str :=
  match collect supports d longhands with
  | none => []
  | some m =>
    if agree (m.map (fun x => x.2.2)) then tostring (m.map (fun x => (x.1, x.2.1))) else []

/-- The loop of `get_property_priority`, css/shorthands.py 58-65. -/
def priorities (d : Decls) : List Str → List Str
  | [] => []
  | l :: ls =>
    match Dict.get? d l with
    | none => priorities d ls
    | some (_, p) => p :: priorities d ls

/-- `Shorthand.get_property_priority`, css/shorthands.py 55-71. -/
def getPriority (longhands : List Str) (d : Decls) : Str :=
  match priorities d longhands with
  | [] => []
  | p :: ps => if agree (p :: ps) then p else []

/-- Longhands of `white-space`, css/shorthands.py 969-973. -/
def wsLonghands : List Str := ["text-space-collapse".toList, "text-wrap".toList, "text-space-trim".toList]

/-- The three values chosen by `WhiteSpaceShorthand.set_css_declaration`,
css/shorthands.py 810-839; the last line are the initial values of css/props.py
1586-1604. -/
def wsValues (low : Str → Str) (v : Str) : Str × Str × Str :=
  if v = "normal".toList then ("collapse".toList, "wrap".toList, "none".toList)
  else if v = "pre".toList then ("preserve".toList, "nowrap".toList, "none".toList)
  else if v = "nowrap".toList then ("collapse".toList, "nowrap".toList, "none".toList)
  else if v = "pre-wrap".toList then ("preserve".toList, "wrap".toList, "none".toList)
  else if v = "pre-line".toList then ("preserve-breaks".toList, "wrap".toList, "none".toList)
  else if low v ∈ wideKeywords then (low v, low v, low v)
  else ("collapse".toList, "wrap".toList, "none".toList)

/-- The map built from them, css/shorthands.py 841-849. -/
def wsExpand (low : Str → Str) (v : Str) : List (Str × Str) :=
  [("text-space-collapse".toList, (wsValues low v).1),
   ("text-wrap".toList, (wsValues low v).2.1),
   ("text-space-trim".toList, (wsValues low v).2.2)]

/-- `WhiteSpaceShorthand.set_css_declaration`, css/shorthands.py 809-852. -/
def wsSet (low : Str → Str) (d : Decls) (v p : Str) : Decls := setAll d p (wsExpand low v)

/-- The chain of comparisons of `WhiteSpaceShorthand.tostring`, css/shorthands.py
862-883. -/
def wsName (c w t : Str) : Str :=
  if c = "collapse".toList ∧ w = "wrap".toList ∧ t = "none".toList then "normal".toList
  else if c = "preserve".toList ∧ w = "nowrap".toList ∧ t = "none".toList then "pre".toList
  else if c = "collapse".toList ∧ w = "nowrap".toList ∧ t = "none".toList then "nowrap".toList
  else if c = "preserve".toList ∧ w = "wrap".toList ∧ t = "none".toList then "pre-wrap".toList
  else if c = "preserve-breaks".toList ∧ w = "wrap".toList ∧ t = "none".toList then "pre-line".toList
  else if (c ∈ wideKeywords ∧ w ∈ wideKeywords ∧ t ∈ wideKeywords) ∧ w = c ∧ t = c then c
  else []

/-- `WhiteSpaceShorthand.tostring`, css/shorthands.py 854-883. -/
def wsToString (m : Dict Str Str) : Str :=
  match Dict.get? m "text-space-collapse".toList, Dict.get? m "text-wrap".toList,
      Dict.get? m "text-space-trim".toList with
  | some c, some w, some t => wsName c w t
  | _, _, _ => []

/-- Reading the `white-space` property of a block. -/
def wsGet (supports : Str → Str → Bool) (d : Decls) : Str := getValue supports wsLonghands wsToString d

/-- Longhands of `font-synthesis`, css/shorthands.py 930-933. -/
def fsLonghands : List Str := ["font-synthesis-weight".toList, "font-synthesis-style".toList]

/-- The values chosen by `FontSynthesisShorthand.set_css_declaration` from the
tokens, css/shorthands.py 349-375; both initial values are `auto` (css/props.py
755-765). -/
def fsValues (low : Str → Str) : List Str → Str × Str
  | [v] =>
    if v = "none".toList then ("none".toList, "none".toList)
    else if v = "weight".toList then ("auto".toList, "none".toList)
    else if v = "style".toList then ("none".toList, "auto".toList)
    else if low v ∈ wideKeywords then (low v, low v)
    else ("auto".toList, "auto".toList)
  | _ => ("auto".toList, "auto".toList)

/-- The map built from them, css/shorthands.py 377-380. -/
def fsExpand (low : Str → Str) (vs : List Str) : List (Str × Str) :=
  [("font-synthesis-weight".toList, (fsValues low vs).1), ("font-synthesis-style".toList, (fsValues low vs).2)]

/-- `FontSynthesisShorthand.set_css_declaration`, css/shorthands.py 347-383. -/
def fsSet (low : Str → Str) (d : Decls) (vs : List Str) (p : Str) : Decls := setAll d p (fsExpand low vs)

/-- The comparisons of `FontSynthesisShorthand.tostring`, css/shorthands.py 391-406. -/
def fsName (w s : Str) : Str :=
  if w = "none".toList ∧ s = "none".toList then "none".toList
  else if w = "auto".toList ∧ s = "none".toList then "weight".toList
  else if w = "none".toList ∧ s = "auto".toList then "style".toList
  else if w = "auto".toList ∧ s = "auto".toList then "weight style".toList
  else if w = s ∧ w ∈ wideKeywords then w
  else []

/-- `FontSynthesisShorthand.tostring`, css/shorthands.py 385-406. -/
def fsToString (m : Dict Str Str) : Str :=
  match Dict.get? m "font-synthesis-weight".toList, Dict.get? m "font-synthesis-style".toList with
  | some w, some s => fsName w s
  | _, _ => []

/-- Reading the `font-synthesis` property of a block. -/
def fsGet (supports : Str → Str → Bool) (d : Decls) : Str := getValue supports fsLonghands fsToString d

end SvgPy.Shorthand
