import Verif.Model.Py
import Verif.Model.PyStr
import Mathlib.Analysis.SpecialFunctions.Trigonometric.Basic

/-! Typed CSS unit values, `/repo/svgpy/css/types.py`: `UnitType` 357-461, `CSSUnitValue`
1603-1754.

`Decimal` and `float` are taken to be exact real numbers (so `Decimal(2.54)` is 2.54 and `math.pi`
is π). -/

namespace SvgPy.UnitValue

/-- The units, types.py 360-405. -/
inductive U
  | number | percent
  | em | ex | ch | ic | rem | lh | rlh | vw | vh | vi | vb | vmin | vmax | cm | mm | q | inch | pt | pc | px
  | deg | grad | rad | turn
  | s | ms
  | hz | khz
  | dpi | dpcm | dppx
  | fr
  deriving DecidableEq, Repr

/-- Their names, types.py 360-405. -/
def U.name : U → String
  | .number => "number" | .percent => "percent"
  | .em => "em" | .ex => "ex" | .ch => "ch" | .ic => "ic" | .rem => "rem" | .lh => "lh" | .rlh => "rlh"
  | .vw => "vw" | .vh => "vh" | .vi => "vi" | .vb => "vb" | .vmin => "vmin" | .vmax => "vmax"
  | .cm => "cm" | .mm => "mm" | .q => "q" | .inch => "in" | .pt => "pt" | .pc => "pc" | .px => "px"
  | .deg => "deg" | .grad => "grad" | .rad => "rad" | .turn => "turn"
  | .s => "s" | .ms => "ms" | .hz => "hz" | .khz => "khz"
  | .dpi => "dpi" | .dpcm => "dpcm" | .dppx => "dppx" | .fr => "fr"

/-- All units. -/
def U.all : List U :=
  [.number, .percent, .em, .ex, .ch, .ic, .rem, .lh, .rlh, .vw, .vh, .vi, .vb, .vmin, .vmax, .cm, .mm, .q, .inch, .pt, .pc, .px,
   .deg, .grad, .rad, .turn, .s, .ms, .hz, .khz, .dpi, .dpcm, .dppx, .fr]

/-- `unit.lower()` compared with the names, as `create_type` does, types.py 243-276; `none` is a
unit it refuses.  `lower` is applied to ASCII letters. -/
def ofName (s : String) : Option U := U.all.find? fun u => u.name == String.ofList (s.toList.map Char.toLower)

/-- `UnitType.get_canonical_unit`, types.py 407-430. -/
def canon : U → Option U
  | .number => some .number
  | .cm | .mm | .q | .inch | .pt | .pc | .px => some .px
  | .deg | .grad | .rad | .turn => some .deg
  | .s | .ms => some .ms
  | .hz | .khz => some .hz
  | .dpi | .dpcm | .dppx => some .dppx
  | _ => none

/-- `UnitType.get_conversion_ratio`, types.py 432-461. -/
noncomputable def ratio : U → ℝ
  | .cm => 96 / 2.54
  | .mm => 96 / 2.54 / 10
  | .q => 96 / 2.54 / 40
  | .inch => 96
  | .pt => 96 / 72
  | .pc => 96 / 6
  | .grad => 0.9
  | .rad => 180 / Real.pi
  | .turn => 360
  | .s => 1000
  | .khz => 1000
  | .dpi => 1 / 96
  | .dpcm => 1 / 96 * 2.54
  | _ => 1

/-- A `CSSUnitValue`: `_value` and `_unit`, types.py 1609-1619. -/
structure UV where
  value : ℝ
  unit : U

/-- `CSSUnitValue(value, unit)` for any text, types.py 1609-1619. -/
def make (v : ℝ) (s : String) : Py UV :=
  match ofName s with
  | some u => .ok ⟨v, u⟩
  | none => .error .valueError

/-- `CSSUnitValue.to`, types.py 1727-1741; `none` is a text that is not a unit, which has no
canonical unit either. -/
noncomputable def convert (x : UV) (u : Option U) : Py UV :=
  match u with
  | none => .error .valueError
  | some u =>
    if x.unit = u then .ok ⟨x.value, x.unit⟩
    else
      match canon x.unit, canon u with
      | some c1, some c2 => if c1 ≠ c2 then .error .valueError else .ok ⟨x.value * (ratio x.unit / ratio u), u⟩
      | _, _ => .error .valueError

/-- `math.isclose` with the tolerances 1e-09 and 0, types.py 1606-1607. -/
def IsClose (a b : ℝ) : Prop := a = b ∨ |b - a| ≤ |1e-9 * b| ∨ |b - a| ≤ |1e-9 * a| ∨ |b - a| ≤ 0

/-- `normalize`, types.py 1718-1725, for another unit value. -/
noncomputable def normalize (x y : UV) : Py UV := if x.unit ≠ y.unit then convert y (some x.unit) else .ok y

/-- The comparison of two normalised numbers. -/
noncomputable def compare (x y : UV) (p : ℝ → ℝ → Bool) : Py Bool :=
  match normalize x y with
  | .ok z => .ok (p x.value z.value)
  | .error e => .error e

open Classical in
/-- `__eq__`, types.py 1621-1628. -/
noncomputable def eq (x y : UV) : Py Bool := compare x y fun a b => decide (IsClose a b)

open Classical in
/-- `__ge__`, types.py 1630-1639. -/
noncomputable def ge (x y : UV) : Py Bool := compare x y fun a b => if IsClose a b then true else decide (a ≥ b)

open Classical in
/-- `__gt__`, types.py 1641-1650. -/
noncomputable def gt (x y : UV) : Py Bool := compare x y fun a b => if IsClose a b then false else decide (a > b)

open Classical in
/-- `__le__`, types.py 1652-1661. -/
noncomputable def le (x y : UV) : Py Bool := compare x y fun a b => if IsClose a b then true else decide (a ≤ b)

open Classical in
/-- `__lt__`, types.py 1663-1672. -/
noncomputable def lt (x y : UV) : Py Bool := compare x y fun a b => if IsClose a b then false else decide (a < b)

end SvgPy.UnitValue
