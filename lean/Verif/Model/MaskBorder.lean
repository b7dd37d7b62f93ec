import Verif.Model.FontShorthand

/-!
The shorthand property `mask-border`: `MaskBorderShorthand`, `/repo/svgpy/css/shorthands.py` 472-592, with
`_parse_component_list` (145-206) and the descriptors of the longhands (css/props.py 1118-1157).

Simplifications: as in `Components`; strings with the text of a keyword and `var()`, which the descriptors also accept, are
left out.
-/

namespace SvgPy.MaskBorder

open SvgPy.PyStr SvgPy.Decl SvgPy.Shorthand SvgPy.Components
open SvgPy.FontShorthand (parseSolidus nonEmpty found)

/-- The kinds of tokens that are no identifiers and no literals, css/props.py 160-346. -/
inductive Kind
  | number
  | length
  | percentage
  | image
  | math
  | another
  deriving DecidableEq

/-- The test of a descriptor for tokens that are no identifiers: the kinds that it supports. -/
def kinds (kind : Str → Kind) (ks : List Kind) : Tok → Bool
  | .other t => ks.contains (kind t)
  | _ => false

/-- `mask-border-source`, css/props.py 1146-1151. -/
def sourceDesc (kind : Str → Kind) : Desc := ⟨false, keywords ["none"] (kinds kind [.image]), "none".toList⟩

/-- `mask-border-slice`, css/props.py 1136-1145; its syntax has a comma, in `{1,4}` (css/shorthands.py 163). -/
def sliceDesc (kind : Str → Kind) : Desc :=
  ⟨true, keywords ["fill"] (kinds kind [.number, .percentage]), "0".toList⟩

/-- `mask-border-width`, css/props.py 1152-1157. -/
def widthDesc (kind : Str → Kind) : Desc :=
  ⟨true, keywords ["auto"] (kinds kind [.number, .length, .percentage, .math]), "auto".toList⟩

/-- `mask-border-outset`, css/props.py 1124-1129. -/
def outsetDesc (kind : Str → Kind) : Desc := ⟨true, keywords [] (kinds kind [.number, .length]), "0".toList⟩

/-- `mask-border-repeat`, css/props.py 1130-1135. -/
def repeatDesc : Desc := ⟨true, keywords ["stretch", "repeat", "round", "space"] nothing, "stretch".toList⟩

/-- `mask-border-mode`, css/props.py 1118-1123. -/
def modeDesc : Desc := ⟨false, keywords ["luminance", "alpha"] nothing, "alpha".toList⟩

/-- `type == 'ident'`. -/
def isIdent : Tok → Bool
  | .ident _ _ => true
  | _ => false

/-- `_parse_component_list` for `mask-border-slice`, css/shorthands.py 145-206: it ends after a keyword (196-199). -/
def parseSlice (d : Desc) : Option (List Tok) → List Tok → Parsed
  | target, [] => ⟨target, [], []⟩
  | target, t :: l =>
    let consume := parseSlice d (some (target.getD [] ++ [t])) l
    let keep := (parseSlice d target l).keep t
    let stop : Parsed := ⟨target, [], t :: l⟩
    match t with
    | .ws _ => if target.isSome then consume else keep
    | t =>
      match wideOf t with
      | some k => (parseSlice d target l).wide k
      | none =>
        if t = .lit [','] then
          if d.list then (if target.isSome then consume else keep) else ⟨none, [], t :: l⟩
        else if t = .lit ['/'] then (if target.isSome then stop else keep)
        else if d.support t then
          (if isIdent t then ⟨some (target.getD [] ++ [t]), [], l⟩ else consume)
        else if target.isSome then stop else keep

/-- Nothing is looked for. -/
def idle (l : List Tok) : Parsed := ⟨none, [], l⟩

/-- The calls of `_parse_component_list`, css/shorthands.py 475-514. -/
def parseBorder (kind : Str → Kind) (l : List Tok) : List (Str × List Tok) × List Str :=
  let a := parseList (sourceDesc kind) none l
  let b := parseSlice (sliceDesc kind) none a.rest
  let c := if b.found.isSome then parseSolidus (widthDesc kind) none b.rest else idle b.rest
  let e := if (nonEmpty c.found).isSome then parseSolidus (outsetDesc kind) none c.rest else idle c.rest
  let f := parseList repeatDesc none e.rest
  let g := parseList modeDesc none f.rest
  (found "mask-border-source".toList a.found ++ found "mask-border-slice".toList b.found ++
    found "mask-border-width".toList (nonEmpty c.found) ++ found "mask-border-outset".toList (nonEmpty e.found) ++
    found "mask-border-repeat".toList f.found ++ found "mask-border-mode".toList g.found,
   a.wides ++ b.wides ++ c.wides ++ e.wides ++ f.wides ++ g.wides)

/-- The longhands of `mask-border`, css/shorthands.py 951-958. -/
def longhands : List Str :=
  ["mask-border-source".toList, "mask-border-slice".toList, "mask-border-width".toList,
   "mask-border-outset".toList, "mask-border-repeat".toList, "mask-border-mode".toList]

/-- The longhands of `mask`, css/shorthands.py 941-950. -/
def maskLonghands : List Str :=
  ["mask-image".toList, "mask-position".toList, "mask-size".toList, "mask-repeat".toList, "mask-origin".toList,
   "mask-clip".toList, "mask-composite".toList, "mask-mode".toList]

/-- Longhands that are missing get this value, css/shorthands.py 524-526. -/
def fillWith (v : Str) (m : List (Str × Str)) : List (Str × Str) :=
  m ++ (longhands.filter fun n => !(Dict.contains m n)).map fun n => (n, v)

/-- `MaskBorderShorthand.set_css_declaration`, css/shorthands.py 474-529; `none` for `return False`. -/
def borderSet (kind : Str → Kind) (d : Decls) (l : List Tok) (p : Str) : Option Decls :=
  let r := parseBorder kind l
  if r.2.length > 1 then none
  else if r.2.length = 1 then some (setAll d p (fillWith (r.2.headD []) []))
  else some (setAll d p (fillWith "initial".toList (texts r.1)))

/-- No longhand of `mask` stands between or behind those of `mask-border`, css/shorthands.py 532-554. -/
def inOrder (d : Decls) : Bool :=
  let keys := Dict.keys d
  let idx := longhands.map (fun n => keys.idxOf n)
  let hi := idx.foldl max 0
  let lo := idx.foldl min hi
  (longhands.all fun n => keys.contains n) &&
    maskLonghands.all fun n => !(keys.contains n) ||
      !((lo < keys.idxOf n && keys.idxOf n < hi) || hi < keys.idxOf n)

/-- A value behind a solidus, css/shorthands.py 584-588. -/
def written (slash : Bool) (v : Str) : List Str :=
  if v = "initial".toList then [] else if slash then [['/'], v] else [v]

/-- `MaskBorderShorthand.tostring`, css/shorthands.py 531-592. -/
def borderToString (d : Decls) (m : Dict Str Str) : Str :=
  if inOrder d then
    match longhands.map (Dict.get? m) with
    | [some a, some b, some c, some e, some f, some g] =>
      let vs := [a, b, c, e, f, g]
      if (vs.all fun x => wideKeywords.contains x) && (vs.all fun x => x == a) then a
      else if vs.any fun x => wideKeywords.contains x && x != "initial".toList then []
      else if (b = "initial".toList ∧ c ≠ "initial".toList) ∨
          ((b = "initial".toList ∨ c = "initial".toList) ∧ e ≠ "initial".toList) then []
      else join [' '] (written false a ++ written false b ++ written true c ++ written true e ++ written false f ++
        written false g)
    | _ => []
  else []

/-- Reading the `mask-border` property of a block, css/shorthands.py 73-98. -/
def borderGet (supports : Str → Str → Bool) (d : Decls) : Str := getValue supports longhands (borderToString d) d

end SvgPy.MaskBorder
