import Verif.Model.MediaQuery
import Mathlib.Data.Rat.Floor

/-!
The features that media queries are asked about: `MediaQueryList.matches` and `_mql_compare`,
`/repo/svgpy/window.py` 690-753, `Window.device_pixel_ratio`, 871-876, `Screen` and `ScreenOrientation`,
`/repo/svgpy/css/screen.py` 41-53, 206-244, and `_eval_expr_name`, `/repo/svgpy/css/mediaquery.py` 245-270.

Simplifications: numbers are rational, without rounding; the values are written as what their texts stand for, and of
the units only `px` and `dppx` are there (`em`, `vw`, `dpi` and the others are converted by `SVGLength.value`, which
`Verif/Model/Length.lean` models).  `Fraction('1/0')` raises ZeroDivisionError; here it is 0, and the theorems ask for
a denominator.
-/

namespace SvgPy.MediaFeatures

open SvgPy.MediaQuery

/-- A value in a media query: a length in px, a resolution in dppx, a number, a ratio `p/q` or a word. -/
inductive Val
  | px (v : ℚ)
  | dppx (v : ℚ)
  | num (v : ℚ)
  | ratio (p : Int) (q : Nat)
  | word (s : String)
  deriving DecidableEq

/-- `SVGLength(text)`, core.py 1270-1283: whether it is a resolution, and its number.  The regular expression is not
anchored at the end, so of a ratio it reads the first number.  Words have no number: ValueError. -/
def length : Val → Option (Bool × ℚ)
  | .px v => some (false, v)
  | .dppx v => some (true, v)
  | .num v => some (false, v)
  | .ratio p _ => some (false, p)
  | .word _ => none

/-- `math.isclose` with both tolerances 1e-9, core.py 999-1001 and 1071-1073. -/
def isclose (a b : ℚ) : Bool := |a - b| ≤ max (max |a| |b| / 1000000000) (1 / 1000000000)

/-- The three-way comparison, window.py 693-696, with `__eq__` and `__gt__` of core.py 1067-1073 and 1084-1091. -/
def three (a b : ℚ) : Int := if isclose a b then 0 else if a > b then 1 else -1

/-- `_mql_compare`, window.py 690-696; `none` stands for ValueError, which `value` raises between resolutions and
lengths, core.py 1339-1348. -/
def mqlCompare (l r : Val) : Option Int :=
  match length l, length r with
  | some (k, a), some (k', b) => if k = k' then some (three a b) else none
  | _, _ => none

/-- `Fraction(text)`, mediaquery.py 211-212. -/
def fraction : Val → ℚ
  | .ratio p q => p / q
  | .num v => v
  | _ => 0

/-- `'-' in text`, mediaquery.py 195 and 197. -/
def hasDash : Val → Bool
  | .word s => s.toList.contains '-'
  | _ => false

/-- `text.split('-')[0]`, mediaquery.py 196 and 198. -/
def beforeDash : Val → Val
  | .word s => .word (String.ofList (s.toList.takeWhile (· != '-')))
  | v => v

/-- What the evaluation of comparisons uses. -/
def values : Values Val ℚ := ⟨mqlCompare, fraction, hasDash, beforeDash⟩

/-- `while angle >= 360: angle -= 360`, screen.py 214-215. -/
def reduceDown : Nat → Int → Int
  | 0, a => a
  | n + 1, a => if a ≥ 360 then reduceDown n (a - 360) else a

/-- `while angle < 0: angle += 360`, screen.py 216-217. -/
def reduceUp : Nat → Int → Int
  | 0, a => a
  | n + 1, a => if a < 0 then reduceUp n (a + 360) else a

/-- The setter of `angle`, screen.py 211-218. -/
def setAngle (angle : ℚ) : Int :=
  let a := ⌊angle / 90⌋ * 90
  let a := reduceDown a.natAbs a
  reduceUp a.natAbs a

/-- A window, its screen and its viewport: the size of the viewport (window.py 717-726), the size, the angle and the
other features of the screen (screen.py 41-53), and the device pixel ratio and the zoom (window.py 871-876). -/
structure Env where
  vw : ℚ
  vh : ℚ
  sw : Int
  sh : Int
  angle : Int
  colorDepth : Nat
  monochrome : Nat
  pixelRatio : ℚ
  zoom : ℚ
  media : String
  scan : String
  update : String
  gamut : String

/-- `ScreenOrientation.type`, screen.py 220-244. -/
def orientationType (e : Env) : String :=
  if e.sw > e.sh then
    if e.angle = 0 then "landscape-primary"
    else if e.angle = 90 then "portrait-primary"
    else if e.angle = 180 then "landscape-secondary"
    else if e.angle = 270 then "portrait-secondary"
    else "landscape-primary"
  else
    if e.angle = 0 then "portrait-primary"
    else if e.angle = 90 then "landscape-primary"
    else if e.angle = 180 then "portrait-secondary"
    else if e.angle = 270 then "landscape-secondary"
    else "portrait-primary"

/-- `int(x)`: towards zero. -/
def trunc (x : ℚ) : Int := if x < 0 then ⌈x⌉ else ⌊x⌋

/-- `'{}'.format(Fraction(…))`, window.py 734 and 749: in lowest terms (the text leaves out a denominator of 1,
which neither `Fraction` nor `SVGLength` notices). -/
def ofFraction (x : ℚ) : Val := .ratio x.num x.den

/-- `conditions`, window.py 727-750. -/
def conditions (e : Env) : Py (String → Option Val) :=
  if trunc e.vh = 0 then .error .zeroDivision
  else if e.sh = 0 then .error .zeroDivision
  else .ok fun n =>
    if n = "media" then some (.word e.media)
    else if n = "width" then some (.px e.vw)
    else if n = "height" then some (.px e.vh)
    else if n = "aspect-ratio" then some (ofFraction (trunc e.vw / trunc e.vh))
    else if n = "orientation" then some (.word (orientationType e))
    else if n = "resolution" then some (.dppx (e.pixelRatio * e.zoom))
    else if n = "scan" then some (.word e.scan)
    else if n = "grid" then some (.num 0)
    else if n = "update" then some (.word e.update)
    else if n = "overflow-block" then some (.word "none")
    else if n = "overflow-inline" then some (.word "none")
    else if n = "color" then some (.num e.colorDepth)
    else if n = "color-index" then some (.num ((2 ^ e.colorDepth : Nat) : ℚ))
    else if n = "monochrome" then some (.num e.monochrome)
    else if n = "color-gamut" then some (.word e.gamut)
    else if n = "device-width" then some (.px e.sw)
    else if n = "device-height" then some (.px e.sh)
    else if n = "device-aspect-ratio" then some (ofFraction (e.sw / e.sh))
    else none

/-- A term of a query: a name or a comparison. -/
inductive Term
  | name (n : String)
  | compare (left : Operand Val) (rest : List (Cmp × Operand Val))

/-- `MEDIA_TYPES`, mediaquery.py 21-25. -/
def mediaTypes : List String := ["all", "print", "screen", "speech", "tty", "tv", "projection", "handheld", "braille",
  "embossed", "aural"]

/-- `> 0` for a number, mediaquery.py 265. -/
def positive : Option Val → Bool
  | some (.num v) => v > 0
  | _ => false

/-- `_eval_expr_name`, mediaquery.py 245-270. -/
def evalName (cond : String → Option Val) (n : String) : Bool :=
  if n ∈ mediaTypes then n == "all" || cond "media" == some (.word n)
  else if n ∈ discreteFeatures then
    if n ∈ ["orientation", "scan", "color-gamut"] then (cond n).isSome
    else if n = "grid" then cond n == some (.num 1)
    else (cond n).getD (.word "none") != .word "none"
  else if n ∈ ["color", "color-index", "monochrome"] then positive (cond n)
  else (cond n).isSome

/-- A leaf of the tree of a query, mediaquery.py 134-145. -/
def evalTerm (cond : String → Option Val) : Term → Bool
  | .name n => evalName cond n
  | .compare l r => evalCompare values cond l r

/-- `MediaQueryList.matches`, window.py 714-753. -/
def queryMatches (e : Env) (tree : List (Node Term)) : Py Bool :=
  match conditions e with
  | .error x => .error x
  | .ok cond => matchList (evalTerm cond) tree

end SvgPy.MediaFeatures
