import Verif.Model.CaseMap
import Verif.Model.PyStr

/-!
The rule `@font-feature-values`: `CSSFontFeatureValuesRule._parse_content`, `/repo/svgpy/css/__init__.py`
1044-1080.

Simplifications: the tokens are those of tinycss2, of which the code looks at identifiers, colons, semicolons and
whole numbers only; white space with comments and all others are one token each here.  `low` is `_convert_key`
of the mappings.  The prelude (the names of the families) is text that the rule keeps, 1022.
-/

namespace SvgPy.FeatureValues

open SvgPy.CaseMap

/-- A token of a block, css/__init__.py 1054-1063. `number` is one that is no whole number. -/
inductive Tok
  | ident (value : Str)
  | colon
  | semicolon
  | integer (n : Int)
  | number
  | space
  | other
  deriving DecidableEq

/-- A node of the rule list, css/__init__.py 1045-1049: an at-rule with its keyword in lower case and its content
(`None` if it ends with a semicolon), or a qualified rule or an error. -/
inductive Node
  | atRule (keyword : Str) (content : Option (List Tok))
  | other

/-- One of the mappings. -/
abbrev Values := CMap Str (List Int)

/-- The six mappings, css/__init__.py 1023-1028. -/
structure Maps where
  annotation : Values
  characterVariant : Values
  ornaments : Values
  styleset : Values
  stylistic : Values
  swash : Values

/-- The mappings of a new rule, css/__init__.py 1023-1028. -/
def Maps.empty : Maps := ⟨.empty, .empty, .empty, .empty, .empty, .empty⟩

/-- The choice of the mapping, css/__init__.py 1067-1078. -/
def assign (low : Str → Str) (type name : Str) (values : List Int) (m : Maps) : Maps :=
  if type = "annotation".toList then { m with annotation := m.annotation.setitem low name values }
  else if type = "character-variant".toList then
    { m with characterVariant := m.characterVariant.setitem low name values }
  else if type = "ornaments".toList then { m with ornaments := m.ornaments.setitem low name values }
  else if type = "styleset".toList then { m with styleset := m.styleset.setitem low name values }
  else if type = "stylistic".toList then { m with stylistic := m.stylistic.setitem low name values }
  else if type = "swash".toList then { m with swash := m.swash.setitem low name values }
  else m

/-- The local variables of the loop and the mappings, css/__init__.py 1052-1053. -/
structure St where
  name : Option Str
  values : Option (List Int)
  maps : Maps

/-- One token, css/__init__.py 1055-1080. -/
def token (low : Str → Str) (type : Str) (s : St) : Tok → St
  | .ident v => { s with name := some v }
  | .colon => if s.name.isSome then { s with values := some [] } else s
  | .integer n =>
    match s.values with
    | some vs => if 0 ≤ n then { s with values := some (vs ++ [n]) } else s
    | none => s
  | .semicolon =>
    { name := none, values := none,
      maps := match s.name, s.values with
        | some n, some vs => if 0 < vs.length then assign low type n vs s.maps else s.maps
        | _, _ => s.maps }
  | .number => s
  | .space => s
  | .other => s

/-- One at-rule, css/__init__.py 1051-1080. -/
def block (low : Str → Str) (type : Str) (toks : List Tok) (m : Maps) : Maps :=
  (toks.foldl (token low type) ⟨none, none, m⟩).maps

/-- The loop over the nodes, css/__init__.py 1048-1080. To iterate over `None` raises. -/
def nodes (low : Str → Str) : List Node → Maps → Py Maps
  | [], m => .ok m
  | .atRule t (some c) :: ns, m => nodes low ns (block low t c m)
  | .atRule _ none :: _, _ => .error .typeError
  | .other :: ns, m => nodes low ns m

/-- `_parse_content` of a new rule, css/__init__.py 1023-1029 and 1044-1080. -/
def parseContent (low : Str → Str) (ns : List Node) : Py Maps := nodes low ns .empty

end SvgPy.FeatureValues
