import Verif.Model.Py
import Mathlib.Data.Rat.Floor

/-! Model of `CSSUtils.compute_font_size`, `compute_font_weight` and `compute_line_height`,
`/repo/svgpy/core.py` 32-223, over exact rational numbers.

An element is given with its ancestors, itself first.  Of an element the code reads the attribute
(`parent.get('font-size')`) and the value found by the cascade (`get_inherited_style`, dom.py
1982-2036), which also takes style sheets and the style attribute into account. -/

namespace SvgPy.FontStyle

/-- The keys of `_ABSOLUTE_FONT_SIZE_MAP`, core.py 33-42. -/
inductive Abs
  | xxSmall | xSmall | small | medium | large | xLarge | xxLarge
  deriving DecidableEq

/-- Values of `font-size`.  Absolute lengths and lengths relative to the viewport are given in
pixels; `rem`, lengths that depend on font metrics and `inherit` are left out. -/
inductive Size
  | abs (k : Abs) | larger | smaller | px (x : ℚ) | em (k : ℚ) | pct (k : ℚ)
  deriving DecidableEq

/-- Attribute and cascaded value of an element. -/
structure Elem (α : Type) where
  attr : Option α
  cascaded : Option α

/-- An element with a presentation attribute and no other style. -/
def own {α : Type} (v : α) : Elem α := ⟨some v, some v⟩

/-- An element without own value. -/
def bare {α : Type} : Elem α := ⟨none, none⟩

/-- `get_inherited_style()[key]`: the cascaded value of the nearest element that has one,
dom.py 1995-2040. -/
def inherited {α : Type} (initial : α) : List (Elem α) → α
  | [] => initial
  | e :: c => match e.cascaded with
    | some v => v
    | none => inherited initial c

/-- Row and scale factor, core.py 33-42. -/
def absEntry : Abs → Nat × ℚ
  | .xxSmall => (0, 3 / 5)
  | .xSmall => (1, 3 / 4)
  | .small => (2, 8 / 9)
  | .medium => (3, 1)
  | .large => (4, 6 / 5)
  | .xLarge => (5, 3 / 2)
  | .xxLarge => (6, 2 / 1)

/-- `_QUIRKS_FONT_SIZE_TABLE`, core.py 45-54. -/
def quirksTable : List (List ℚ) :=
  [[9, 9, 9, 9, 11, 14, 18, 28],
    [9, 9, 9, 10, 11, 14, 18, 31],
    [9, 9, 9, 11, 13, 17, 22, 34],
    [9, 9, 10, 12, 14, 18, 24, 37],
    [9, 9, 10, 13, 16, 20, 26, 40],
    [9, 9, 11, 14, 17, 21, 28, 42],
    [9, 10, 12, 15, 17, 23, 30, 45],
    [9, 10, 13, 16, 18, 24, 32, 48]]

/-- The size of a keyword, core.py 99-111; `m` is `Font.default_font_size`. -/
def absSize (m : ℚ) (k : Abs) : ℚ :=
  if 9 ≤ m ∧ m ≤ 16 then ((quirksTable.getD (⌊m - 9⌋).toNat []).getD (absEntry k).1 0)
  else (absEntry k).2 * m

/-- `_MINIMUM_FONT_SIZE`, core.py 71, 140-141. -/
def clampMin (x : ℚ) : ℚ := if x < 10 then 10 else x

/-- The factor of core.py 126: it depends on the value of the element the size is computed for. -/
def factor (v : Size) : ℚ := if v = .larger then 6 / 5 else 1 / (6 / 5)

mutual

/-- `compute_font_size`, core.py 88-142, for the value `v` on the element with the given chain of
ancestors (without itself). -/
def computeAt (m : ℚ) (v : Size) : List (Elem Size) → ℚ
  | [] => clampMin (match v with
    | .abs k => absSize m k
    | .larger | .smaller => m
    | .px x => x
    | .em k => k * m
    | .pct k => k * m / 100)
  | e :: c => clampMin (match v with
    | .abs k => absSize m k
    | .larger => fromParents m v (e :: c)
    | .smaller => fromParents m v (e :: c)
    | .px x => x
    | .em k => k * computeAt m (inherited (.abs .medium) (e :: c)) c
    | .pct k => k * computeAt m (inherited (.abs .medium) (e :: c)) c / 100)

/-- The loop over the ancestors, root first, core.py 115-134. -/
def fromParents (m : ℚ) (v : Size) : List (Elem Size) → ℚ
  | [] => m
  | e :: c => match e.attr with
    | none => fromParents m v c
    | some .larger => fromParents m v c * factor v
    | some .smaller => fromParents m v c * factor v
    | some w => computeAt m w c

end

/-- `compute_font_size(element)`, core.py 88-142: the element and its ancestors, itself first. -/
def fontSize (m : ℚ) : List (Elem Size) → ℚ
  | [] => m
  | e :: c => computeAt m (inherited (.abs .medium) (e :: c)) c

/-! ### Weights -/

/-- Values of `font-weight`; other values raise an error in `int`. -/
inductive Weight
  | normal | bold | bolder | lighter | num (n : Nat)
  deriving DecidableEq

/-- `np.interp(x, xp, fp)`: linear interpolation, constant outside. -/
def interp : List (ℚ × ℚ) → ℚ → ℚ
  | [], _ => 0
  | [p], _ => p.2
  | p :: q :: r, x =>
    if x ≤ p.1 then p.2
    else if x < q.1 then p.2 + (q.2 - p.2) * (x - p.1) / (q.1 - p.1)
    else interp (q :: r) x

/-- `_INHERITED_WEIGHT_LIST` and `_BOLDER_WEIGHT_LIST`, core.py 78-79. -/
def bolderList : List (ℚ × ℚ) :=
  [(100, 400), (200, 400), (300, 400), (400, 700), (500, 700), (600, 900), (700, 900), (800, 900), (900, 900)]

/-- `_INHERITED_WEIGHT_LIST` and `_LIGHTER_WEIGHT_LIST`, core.py 78, 80. -/
def lighterList : List (ℚ × ℚ) :=
  [(100, 100), (200, 100), (300, 100), (400, 100), (500, 100), (600, 400), (700, 400), (800, 700), (900, 700)]

/-- `int(weight)`. -/
def trunc (x : ℚ) : ℚ := ⌊x⌋

/-- The absolute weights, core.py 73-76, 195-198. -/
def absWeight : Weight → ℚ
  | .normal => 400
  | .bold => 700
  | .num n => n
  | _ => 0

/-- The loop over the ancestors, root first, core.py 174-193; `d` is `Font.default_font_weight`. -/
def weightFromParents (d : ℚ) : List (Elem Weight) → ℚ
  | [] => d
  | e :: c => match e.attr with
    | none => weightFromParents d c
    | some .bolder => interp bolderList (weightFromParents d c)
    | some .lighter => interp lighterList (weightFromParents d c)
    | some w => trunc (absWeight w)

/-- `compute_font_weight(element)`, core.py 157-198. -/
def fontWeight (d : ℚ) : List (Elem Weight) → ℚ
  | [] => d
  | e :: c => match inherited .normal (e :: c) with
    | .bolder => trunc (weightFromParents d c)
    | .lighter => trunc (weightFromParents d c)
    | w => trunc (absWeight w)

/-! ### Line height -/

/-- Values of `line-height`. -/
inductive LineHeight
  | normal | num (x : ℚ) | pct (x : ℚ) | px (x : ℚ) | em (x : ℚ)

/-- `compute_line_height`, core.py 201-223; `fs` is the font size of the element, `parent` the one
of its parent, to which `em` refers in `SVGLength.value` (core.py 1377-1382). -/
def lineHeight (fs parent : ℚ) : LineHeight → ℚ
  | .normal => 6 / 5 * fs
  | .num x => x
  | .pct x => x / 100 * fs
  | .px x => x
  | .em x => x * parent

end SvgPy.FontStyle
