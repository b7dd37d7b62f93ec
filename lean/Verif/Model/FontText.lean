import Verif.Model.Py
import Verif.Model.PyStr
import Verif.Model.PyDict

/-! Model of `CSSUtils.parse_font`, `parse_font_family`, `parse_font_feature_settings` and
`parse_font_variant`, `/repo/svgpy/core.py` 331-588, and of Python's `shlex.split`, which they use. -/

namespace SvgPy.FontText

/-! ### `shlex.split` (Python's standard library, POSIX mode, no comments) -/

/-- States of the lexer; `esc` remembers the quote it has to return to. -/
inductive Lex
  | ws | word | quote (q : Char) | esc (back : Option Char)

/-- `shlex.whitespace`. -/
def isWs (c : Char) : Bool := c == ' ' || c == '\t' || c == '\r' || c == '\n'

/-- `shlex.quotes`. -/
def isQuote (c : Char) : Bool := c == '"' || c == '\''

/-- A token in front of the others, if there is one. -/
def emit (tok : Str) (quoted : Bool) (r : Py (List Str)) : Py (List Str) :=
  if tok ≠ [] ∨ quoted = true then r.map (tok :: ·) else r

/-- The state after an escaped character. -/
def back : Option Char → Lex
  | none => .word
  | some q => .quote q

/-- The backslash that is kept in front of an escaped character. -/
def kept (b : Option Char) (c : Char) : Str :=
  match b with
  | none => []
  | some q => if c ≠ '\\' ∧ c ≠ q then ['\\'] else []

/-- `shlex.read_token`, repeated: state, token so far, whether there were quotes. -/
def lex : Lex → Str → Bool → Str → Py (List Str)
  | .ws, _, _, [] => .ok []
  | .word, tok, quoted, [] => emit tok quoted (.ok [])
  | .quote _, _, _, [] => .error .valueError
  | .esc _, _, _, [] => .error .valueError
  | .ws, _, _, c :: s =>
    if isWs c then lex .ws [] false s
    else if c = '\\' then lex (.esc none) [] false s
    else if isQuote c then lex (.quote c) [] false s
    else lex .word [c] false s
  | .word, tok, quoted, c :: s =>
    if isWs c then emit tok quoted (lex .ws [] false s)
    else if isQuote c then lex (.quote c) tok quoted s
    else if c = '\\' then lex (.esc none) tok quoted s
    else lex .word (tok ++ [c]) quoted s
  | .quote q, tok, quoted, c :: s =>
    if c = q then lex .word tok true s
    else if c = '\\' ∧ q = '"' then lex (.esc (some q)) tok quoted s
    else lex (.quote q) (tok ++ [c]) quoted s
  | .esc b, tok, quoted, c :: s => lex (back b) (tok ++ kept b c ++ [c]) quoted s

/-- `shlex.split(s)`. -/
def shlexSplit (s : Str) : Py (List Str) := lex .ws [] false s

/-! ### Font families -/

/-- The names in a list of items, core.py 444-450. -/
def familyNames (items : List Str) : List Str :=
  (items.map fun i => ((PyStr.splitOn ',' i).map PyStr.strip).filter fun n => decide (0 < n.length)).flatten

/-- `parse_font_family` of a text, core.py 420-450. -/
def parseFamily (s : Str) : Py (List Str) :=
  if '"' ∈ s ∨ '\'' ∈ s then (shlexSplit s).map familyNames else .ok (familyNames [s])

/-! ### Feature settings -/

/-- Quotes around a tag are removed, core.py 466-468; `tag` is not empty. -/
def unquoteTag (tag : Str) : Str :=
  if tag.head? = tag.getLast? ∧ (tag.head? = some '"' ∨ tag.head? = some '\'') then (tag.drop 1).dropLast else tag

/-- The number of a setting, core.py 477-485: `none` for an invalid one.  Digits are ASCII digits. -/
def settingOf : List Str → Option Nat
  | [] => some 1
  | v :: _ =>
    if v ≠ [] ∧ v.all Char.isDigit = true then some (v.foldl (fun n c => 10 * n + (c.toNat - 48)) 0)
    else if v = "on".toList then some 1
    else if v = "off".toList then some 0
    else none

/-- The loop over the settings, core.py 463-489. -/
def features (acc : Dict Str Nat) : List Str → Py (Dict Str Nat)
  | [] => .ok acc
  | t :: ts => match PyStr.splitWs t with
    | [] => .error .indexError
    | tag :: rest =>
      if (unquoteTag tag).length ≠ 4 ∨ (unquoteTag tag).any (fun c => !(0x20 ≤ c.toNat && c.toNat ≤ 0x7e)) = true then features acc ts
      else match settingOf rest with
        | none => features acc ts
        | some n => features (Dict.set acc (unquoteTag tag) n) ts

/-- `parse_font_feature_settings`, core.py 453-489. -/
def parseFeatures (s : Str) : Py (Dict Str Nat) :=
  if s = "normal".toList then .ok [] else features [] (PyStr.splitOn ',' s)

/-! ### Font variants -/

/-- The longhands of `font-variant`, core.py 518-525. -/
structure Variant where
  alternates : List Str
  caps : Str
  eastAsian : List Str
  ligatures : List Str
  numeric : List Str
  position : Str
deriving DecidableEq

/-- core.py 547-551. -/
def ligatureWords : List Str :=
  ["common-ligatures".toList, "no-common-ligatures".toList, "discretionary-ligatures".toList, "no-discretionary-ligatures".toList,
    "historical-ligatures".toList, "no-historical-ligatures".toList, "contextual".toList, "no-contextual".toList]

/-- core.py 553-559. -/
def isAlternate (w : Str) : Bool :=
  w == "historical-forms".toList || "stylistic(".toList.isPrefixOf w || "styleset(".toList.isPrefixOf w ||
    "character-variant(".toList.isPrefixOf w || "swash(".toList.isPrefixOf w || "ornaments(".toList.isPrefixOf w ||
    "annotation(".toList.isPrefixOf w

/-- core.py 561-562. -/
def capsWords : List Str :=
  ["small-caps".toList, "all-small-caps".toList, "petite-caps".toList, "all-petite-caps".toList, "unicase".toList, "titling-caps".toList]

/-- core.py 564-566. -/
def eastAsianWords : List Str :=
  ["jis78".toList, "jis83".toList, "jis90".toList, "jis04".toList, "simplified".toList, "traditional".toList,
    "full-width".toList, "proportional-width".toList, "ruby".toList]

/-- core.py 568-571. -/
def numericWords : List Str :=
  ["lining-nums".toList, "oldstyle-nums".toList, "proportional-nums".toList, "tabular-nums".toList,
    "diagonal-fractions".toList, "stacked-fractions".toList, "ordinal".toList, "slashed-zero".toList]

/-- The loop over the words, core.py 544-574. -/
def variantLoop (v : Variant) : List Str → Variant
  | [] => v
  | w :: ws =>
    if w ∈ ligatureWords then variantLoop { v with ligatures := v.ligatures ++ [w] } ws
    else if isAlternate w then variantLoop { v with alternates := v.alternates ++ [w] } ws
    else if w ∈ capsWords then variantLoop { v with caps := w } ws
    else if w ∈ eastAsianWords then variantLoop { v with eastAsian := v.eastAsian ++ [w] } ws
    else if w ∈ numericWords then variantLoop { v with numeric := v.numeric ++ [w] } ws
    else if w = "sub".toList ∨ w = "super".toList then variantLoop { v with position := w } ws
    else variantLoop v ws

/-- `['normal']` for an empty list, core.py 576-586. -/
def orNormal (l : List Str) : List Str := if l.length = 0 then ["normal".toList] else l

/-- `parse_font_variant`, core.py 492-588. -/
def parseVariant (s : Str) : Variant :=
  if s = "normal".toList then ⟨["normal".toList], "normal".toList, ["normal".toList], ["normal".toList], ["normal".toList], "normal".toList⟩
  else if s = "none".toList then ⟨["normal".toList], "normal".toList, ["normal".toList], ["none".toList], ["normal".toList], "normal".toList⟩
  else
    let v := variantLoop ⟨[], "normal".toList, [], [], [], "normal".toList⟩ (PyStr.splitWs s)
    { v with alternates := orNormal v.alternates, eastAsian := orNormal v.eastAsian, ligatures := orNormal v.ligatures, numeric := orNormal v.numeric }

/-! ### The `font` shorthand -/

/-- What `parse_font` sets; the other entries of its result are constants (core.py 354-365). -/
structure Font where
  family : List Str
  size : Str
  lineHeight : Str
  style : Str
  variant : Str
  weight : Str
  stretch : Str
deriving DecidableEq

/-- core.py 350-351. -/
def systemFonts : List Str :=
  ["caption".toList, "icon".toList, "menu".toList, "message-box".toList, "small-caption".toList, "status-bar".toList]

/-- The loop that collects the family from the end, core.py 368-379; the items are in reverse. -/
def familyLoop (delimiter : Bool) (fam : List Str) : List Str → List Str × List Str
  | [] => (fam, [])
  | i :: is =>
    if i = [','] then familyLoop true fam is
    else if delimiter = true ∨ i.getLast? = some ',' then familyLoop false (i :: fam) is
    else (fam, i :: is)

/-- core.py 404-405. -/
def weightWords : List Str :=
  ["bold".toList, "bolder".toList, "lighter".toList, "100".toList, "200".toList, "300".toList, "400".toList, "500".toList,
    "600".toList, "700".toList, "800".toList, "900".toList]

/-- core.py 408-410. -/
def stretchWords : List Str :=
  ["ultra-condensed".toList, "extra-condensed".toList, "condensed".toList, "semi-condensed".toList, "semi-expanded".toList,
    "expanded".toList, "extra-expanded".toList, "ultra-expanded".toList]

/-- The loop over the items before the size, core.py 394-415. -/
def wordLoop (f : Font) : List Str → Font
  | [] => f
  | w :: ws =>
    if w = "normal".toList then wordLoop f ws
    else if w = "italic".toList ∨ w = "oblique".toList then wordLoop { f with style := w } ws
    else if w = "small-caps".toList then wordLoop { f with variant := w } ws
    else if w ∈ weightWords then wordLoop { f with weight := w } ws
    else if w ∈ stretchWords then wordLoop { f with stretch := w } ws
    else f

/-- Size and line height, core.py 387-393. -/
def sizeOf' (i : Str) : Str × Str :=
  if '/' ∈ i then
    match PyStr.splitOn '/' i with
    | a :: b :: _ => (a, b)
    | _ => (i, "normal".toList)
  else (i, "normal".toList)

/-- `parse_font` after splitting, core.py 346-417; `none` is the empty dictionary. -/
def parseItems (items : List Str) : Option Font :=
  if items.any (fun i => decide (i ∈ systemFonts)) = true then none
  else match items.reverse with
    | [] => none
    | l :: r =>
      match familyLoop false [l] r with
      | (_, []) => none
      | (fam, i :: rest) =>
        some (wordLoop ⟨familyNames fam, (sizeOf' i).1, (sizeOf' i).2, "normal".toList, "normal".toList, "normal".toList, "normal".toList⟩ rest.reverse)

/-- `parse_font`, core.py 331-417. -/
def parseFont (s : Str) : Py (Option Font) := (shlexSplit s).map parseItems

end SvgPy.FontText
