import Verif.Model.Py
import Verif.Model.PyStr
import Mathlib.Analysis.Real.Sqrt

/-!
Model of `SVGLength`, `/repo/svgpy/core.py` 956-1568, after parsing.
`Decimal` and `float` are taken to be exact real numbers (so `Decimal(2.54)` is 2.54).
What a length reads from its context element (font size of the parent, font size of the
root, size of the viewport, metrics of the font) is a record `Env`.
`copy.deepcopy` of a length also copies the context element; the copy has no parent, so
the copied length sees a second record, `detached`.
-/

namespace SvgPy.Length

/-- Units, core.py 957-978: `noUnit` is `None`, `number` is the empty string, `other` is
any text that is not a supported unit (`new_value` does not check). -/
inductive LUnit
  | noUnit | number | pct | em | ex | px | cm | mm | inch | pt | pc | q | cap | ch | ic | rem
  | vw | vh | vmin | vmax | dpi | dpcm | dppx | other (s : Str)
  deriving DecidableEq

/-- core.py 988-990; `none` is a direction that was not given. -/
inductive Dir
  | unspecified | horizontal | vertical
  deriving DecidableEq

/-- Metrics of the font of the context element: at its own size, and after
`set_point_size` to the given number of pixels (core.py 1515-1540). -/
structure FontMetrics where
  metric : LUnit → ℝ
  metricAt : ℝ → LUnit → ℝ

/-- What `value` reads from the context, core.py 1352-1411. -/
structure Env where
  /-- font size of the parent of the context element -/
  em : ℝ
  /-- font size of the root element -/
  rem : ℝ
  vw : ℝ
  vh : ℝ
  /-- `none` when there is no context element -/
  font : Option FontMetrics

/-- Without a context element, core.py 1359, 1375, 1392-1393. -/
def defaultEnv : Env := ⟨16, 16, 100, 100, none⟩

/-- A context element: what it gives in its document, and what a copy gives. -/
structure Context where
  env : Env
  detached : Env

/-- `dpi`, `dpcm`, `dppx`. -/
def isRes : LUnit → Bool
  | .dpi | .dpcm | .dppx => true
  | _ => false

/-- `isabsolute`, core.py 1239-1244. -/
def isabsolute : LUnit → Bool
  | .noUnit | .cm | .mm | .q | .inch | .pt | .pc | .px | .number => true
  | _ => false

/-- `isrelative`, core.py 1246-1253. -/
def isrelative : LUnit → Bool
  | .em | .ex | .ch | .ic | .rem | .pct | .vw | .vh | .vmin | .vmax => true
  | _ => false

/-- `isresolution`, core.py 1255-1258. -/
def isresolution : LUnit → Bool
  | .dpi | .dpcm | .dppx => true
  | _ => false

/-- `_TO_PIXEL_SIZE_MAP`, core.py 1009-1017. -/
noncomputable def toPixelSize : LUnit → Option ℝ
  | .px => some 1
  | .inch => some 96
  | .cm => some (96 / 2.54)
  | .mm => some (96 / 25.4)
  | .q => some (96 / 2.54 / 40)
  | .pt => some (96 / 72)
  | .pc => some (96 / 6)
  | _ => none

/-- What a percentage refers to, core.py 1428-1436. -/
noncomputable def pctBase (e : Env) : Option Dir → ℝ
  | some .horizontal => e.vw
  | some .vertical => e.vh
  | some .unspecified => √(e.vw ^ 2 + e.vh ^ 2) / √2
  | none => e.em

/-- `val = Decimal(k); if val == 0: val = element_font_size`. -/
noncomputable def orEm (e : Env) (k : ℝ) : ℝ := if k = 0 then e.em else k

/-- Convert to pixels (resolutions: to dppx), core.py 1415-1483. -/
noncomputable def toPx (e : Env) (dir : Option Dir) (n : ℝ) : LUnit → Py ℝ
  | .noUnit | .number | .px => .ok n
  | .rem => .ok (n * e.rem)
  | .em => .ok (n * e.em)
  | .pct => .ok (n * pctBase e dir / 100)
  | .ex => .ok (match e.font with
      | none => n * e.em / 2
      | some f => n * orEm e (f.metric .ex))
  | .cap => .ok (match e.font with
      | none => n * e.em / 2
      | some f => n * orEm e (f.metric .cap))
  | .ch => .ok (match e.font with
      | none => n * e.em / 2
      | some f => n * orEm e (f.metric .ch))
  | .ic => .ok (match e.font with
      | none => n * e.em / 2
      | some f => n * orEm e (f.metric .ic))
  | .vw => .ok (n * e.vw / 100)
  | .vh => .ok (n * e.vh / 100)
  | .vmin => .ok (n * min e.vw e.vh / 100)
  | .vmax => .ok (n * max e.vw e.vh / 100)
  | .dpi => .ok (n / 96)
  | .dpcm => .ok (n / 96 * 2.54)
  | .dppx => .ok n
  | u => match toPixelSize u with
    | none => .error .notImplemented
    | some k => .ok (n * k)

/-- Decimal division. -/
noncomputable def div (a b : ℝ) : Py ℝ := if b = 0 then .error .zeroDivision else .ok (a / b)

/-- Convert pixels to a font unit, core.py 1509-1541. -/
noncomputable def pxToFont (e : Env) (px : ℝ) (u : LUnit) : Py ℝ :=
  match e.font with
  | none => div px (e.em / 2)
  | some f => div px (orEm e (f.metricAt px u))

/-- `px / k * 100`. -/
noncomputable def divPct (px k : ℝ) : Py ℝ :=
  match div px k with
  | .error x => .error x
  | .ok y => .ok (y * 100)

/-- Convert pixels to the unit asked for, core.py 1485-1568. -/
noncomputable def fromPx (e : Env) (dir : Option Dir) (px : ℝ) : LUnit → Py ℝ
  | .noUnit | .number | .px => .ok px
  | .rem => div px e.rem
  | .em => div px e.em
  | .pct => divPct px (pctBase e dir)
  | .ex => pxToFont e px .ex
  | .cap => pxToFont e px .cap
  | .ch => pxToFont e px .ch
  | .ic => pxToFont e px .ic
  | .vw => divPct px e.vw
  | .vh => divPct px e.vh
  | .vmin => divPct px (min e.vw e.vh)
  | .vmax => divPct px (max e.vw e.vh)
  | .dpi => .ok (px * 96)
  | .dpcm => .ok (px * (96 / 2.54))
  | .dppx => .ok px
  | u => match toPixelSize u with
    | none => .error .notImplemented
    | some k => .ok (px / k)

/-- `value` for a number in unit `u` asked in unit `v`, core.py 1316-1568. -/
noncomputable def convertNumber (e : Env) (dir : Option Dir) (n : ℝ) (u v : LUnit) : Py ℝ :=
  if v = u then .ok n
  else if (isRes u && !isRes v) || (!isRes u && isRes v) then .error .valueError
  else match toPx e dir n u with
    | .error x => .error x
    | .ok px => fromPx e dir px v

/-- An `SVGLength` object. -/
structure Len where
  num : ℝ
  unit : LUnit
  context : Option Context
  dir : Option Dir

/-- The record a length reads. -/
def env (l : Len) : Env :=
  match l.context with
  | none => defaultEnv
  | some c => c.env

/-- `value(unit, direction)`, core.py 1316-1568. -/
noncomputable def value (l : Len) (v : LUnit) (dir : Option Dir := none) : Py ℝ :=
  convertNumber (env l) (dir.orElse (fun _ => l.dir)) l.num l.unit v

/-- The `unit` property, core.py 1212-1215. -/
def unitProp (l : Len) : LUnit := if l.unit = .number then .noUnit else l.unit

/-- `copy.deepcopy`. -/
def deepcopy (l : Len) : Len := { l with context := l.context.map (fun c => ⟨c.detached, c.detached⟩) }

/-- `convert`, core.py 1228-1237. -/
noncomputable def convert (l : Len) (u : LUnit) : Py Len :=
  if u = l.unit then .ok l
  else match value l u with
    | .error x => .error x
    | .ok n => .ok { l with num := n, unit := u }

/-- The common start of the binary operators: a copy without unit takes over the unit
of the other operand, core.py 1062-1063. -/
noncomputable def adopt (x other : Len) : Py Len :=
  if x.unit = .noUnit ∧ unitProp other ≠ .noUnit then convert x (unitProp other) else .ok x

/-- `__add__`, core.py 1058-1065. -/
noncomputable def add (a b : Len) : Py Len :=
  match adopt (deepcopy a) b with
  | .error e => .error e
  | .ok x => match value b x.unit with
    | .error e => .error e
    | .ok n => .ok { x with num := x.num + n }

/-- `__sub__`, core.py 1187-1194. -/
noncomputable def sub (a b : Len) : Py Len :=
  match adopt (deepcopy a) b with
  | .error e => .error e
  | .ok x => match value b x.unit with
    | .error e => .error e
    | .ok n => .ok { x with num := x.num - n }

/-- `__mul__`/`__rmul__` by a number, core.py 1149-1159, 1180-1181. -/
noncomputable def scale (a : Len) (k : ℝ) : Len := { deepcopy a with num := a.num * k }

/-- `__truediv__` by a number, core.py 1196-1206. -/
noncomputable def divNum (a : Len) (k : ℝ) : Py Len :=
  match div a.num k with
  | .error e => .error e
  | .ok n => .ok { deepcopy a with num := n }

/-- `__mul__` by a length, core.py 1149-1154. -/
noncomputable def mul (a b : Len) : Py Len :=
  match adopt (deepcopy a) b with
  | .error e => .error e
  | .ok x => match value b x.unit with
    | .error e => .error e
    | .ok n => .ok { x with num := x.num * n }

/-- `__truediv__` by a length, core.py 1196-1201. -/
noncomputable def divLen (a b : Len) : Py Len :=
  match adopt (deepcopy a) b with
  | .error e => .error e
  | .ok x => match value b x.unit with
    | .error e => .error e
    | .ok n => match div x.num n with
      | .error e => .error e
      | .ok m => .ok { x with num := m }

/-- `__neg__`, core.py 1161-1164. -/
noncomputable def neg (a : Len) : Len := { deepcopy a with num := -a.num }

/-- `math.isclose(a, b, rel_tol=1e-9, abs_tol=1e-9)`. -/
noncomputable def isclose (a b : ℝ) : Bool := |a - b| ≤ max (1e-9 * max |a| |b|) 1e-9

/-- The comparison operators on numbers, core.py 1067-1147. -/
inductive Cmp
  | eq | ge | gt | le | lt

/-- The body of a comparison once the other operand is a number in the same unit. -/
noncomputable def cmpNum : Cmp → ℝ → ℝ → Bool
  | .eq, a, b => isclose a b
  | .ge, a, b => if isclose a b then true else a ≥ b
  | .gt, a, b => if isclose a b then false else a > b
  | .le, a, b => if isclose a b then true else a ≤ b
  | .lt, a, b => if isclose a b then false else a < b

/-- `__eq__`, `__ge__`, `__gt__`, `__le__`, `__lt__`, core.py 1067-1147. -/
noncomputable def cmp (c : Cmp) (a b : Len) : Py Bool :=
  match value b a.unit with
  | .error e => .error e
  | .ok n => .ok (cmpNum c a.num n)

end SvgPy.Length
