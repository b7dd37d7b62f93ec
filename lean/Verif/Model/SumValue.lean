import Verif.Model.NumType

/-! Sum values and structural equality of typed CSS values, `/repo/svgpy/css/types.py`:
`create_sum_value` 1242-1243, 1274-1286, 1329-1342, 1383-1396, 1426-1433, 1478-1494, 1547-1574,
1705-1716, `CSSNumericValue.add/equals/to/to_sum` 1052-1063, 1073-1095, 1149-1194.

Numbers are exact reals, as in `UnitValue`. -/

namespace SvgPy.SumValue

open SvgPy.UnitValue (U UV canon ratio convert)
open SvgPy.NumType (NType createType mulTypes addTypes)

/-- Numeric values, by class. -/
inductive Expr
  | unit (x : UV)
  | sum (l : List Expr)
  | prod (l : List Expr)
  | negate (e : Expr)
  | invert (e : Expr)
  | min (l : List Expr)
  | max (l : List Expr)
  | clamp (a b c : Expr)

/-- A unit map, `dict` from units to powers.  The order of its entries is left out. -/
abbrev UMap := U → Option Int

/-- A sum value: a list of numbers with unit maps. -/
abbrev SumV := List (ℝ × UMap)

/-- `{}`. -/
def UMap.empty : UMap := fun _ => none

/-- `{unit: 1}`. -/
def UMap.one (u : U) : UMap := fun x => if x = u then some 1 else none

/-- `product_unit_maps`, types.py 338-354. -/
def mulMap (a b : UMap) : UMap := fun u =>
  match a u, b u with
  | some p, some q => some (p + q)
  | none, some q => some q
  | p, none => p

/-- Zero powers are deleted, types.py 1489-1491. -/
def dropZero (m : UMap) : UMap := fun u => if m u = some 0 then none else m u

/-- `sorted(unit_map.keys()) == sub_unit_map_keys`, types.py 1556-1557. -/
def sameKeys (a b : UMap) : Bool := U.all.all fun u => (a u).isSome == (b u).isSome

/-- `unit_map1 == unit_map2`. -/
def sameMap (a b : UMap) : Bool := U.all.all fun u => a u == b u

/-- `create_sum_value` of a unit value, types.py 1705-1716. -/
noncomputable def unitTerm (x : UV) : ℝ × UMap :=
  match canon x.unit with
  | some c => if c ≠ x.unit then (x.value * ratio x.unit, if c = .number then .empty else .one c)
              else (x.value, if x.unit = .number then .empty else .one x.unit)
  | none => (x.value, .one x.unit)

/-- One more term of a sum, types.py 1553-1561. -/
noncomputable def addTerm : SumV → ℝ × UMap → SumV
  | [], t => [t]
  | (v, m) :: l, t => if sameKeys m t.2 then (v + t.1, m) :: l else (v, m) :: addTerm l t

/-- Multiplication of types from left to right. -/
def mulAll : NType → List NType → Option NType
  | t, [] => some t
  | t, u :: l => match mulTypes t u with
    | none => none
    | some t => mulAll t l

/-- `create_type_from_unit_map`, types.py 278-301.  The units are taken in a fixed order rather
than in the order of the map: the result is only compared with `None`. -/
def typeOfMap (m : UMap) : Option NType :=
  match U.all.filterMap fun u => (m u).map fun p => (⟨fun k => ((createType u).pow k).map fun _ => p, none⟩ : NType) with
  | [] => some .zero
  | t :: l => mulAll t l

/-- The types of all terms, or `none`. -/
def typesOf : SumV → Option (List NType)
  | [] => some []
  | t :: l => match typeOfMap t.2, typesOf l with
    | some a, some b => some (a :: b)
    | _, _ => none

/-- The check of the types of the terms, types.py 1563-1574.  (An empty list, which would raise
IndexError, does not occur: the constructor refuses empty sums, types.py 1528-1529.) -/
def checkSum (s : SumV) : Option SumV :=
  match typesOf s with
  | none => none
  | some [] => none
  | some (t :: l) => match mulAll t l with
    | none => none
    | some _ => some s

/-- One more factor of a product, types.py 1483-1493. -/
noncomputable def prodStep (values new : SumV) : SumV :=
  values.flatMap fun a => new.map fun b => (a.1 * b.1, dropZero (mulMap a.2 b.2))

open Classical in
/-- The inverse of a term, types.py 1279-1284. -/
noncomputable def invTerm (t : ℝ × UMap) : ℝ × UMap := (if t.1 ≠ 0 then 1 / t.1 else t.1, fun u => (t.2 u).map (-1 * ·))

/-- Minimum and maximum, types.py 1329-1342, 1383-1396. -/
noncomputable def extreme (f : ℝ → ℝ → ℝ) (ls : List SumV) : Option SumV :=
  if ls.any fun s => decide (1 < s.length) then none
  else
    match ls.filterMap List.head? with
    | [] => none
    | (v, m) :: rest => if rest.all fun t => sameMap m t.2 then some [(rest.foldl (fun a t => f a t.1) v, m)] else none

mutual
/-- `create_sum_value`. -/
noncomputable def createSum : Expr → Option SumV
  | .unit x => some [unitTerm x]
  | .sum l => match createSums l with
    | none => none
    | some ls => checkSum (ls.flatten.foldl addTerm [])
  | .prod l => match createSums l with
    | none => none
    | some ls => some (ls.foldl prodStep [(1, .empty)])
  | .negate e => match createSum e with
    | none => none
    | some s => some (s.map fun t => (-t.1, t.2))
  | .invert e => match createSum e with
    | none => none
    | some s => if 1 < s.length then none else some (s.map invTerm)
  | .min l => match createSums l with
    | none => none
    | some ls => extreme Min.min ls
  | .max l => match createSums l with
    | none => none
    | some ls => extreme Max.max ls
  | .clamp _ _ _ => none

/-- `create_sum_value` of all operands; `None` if one of them is `None`. -/
noncomputable def createSums : List Expr → Option (List SumV)
  | [] => some []
  | e :: l => match createSum e, createSums l with
    | some s, some ls => some (s :: ls)
    | _, _ => none
end

/-- `CSSNumericValue.to`, types.py 1149-1165, of math values; `none` is a text that is not a
unit. -/
noncomputable def to' (e : Expr) (u : Option U) : Py UV :=
  match u with
  | none => .error .valueError
  | some u =>
    match createSum e with
    | some [(v, m)] =>
      match U.all.filter fun x => (m x).getD 0 != 0 with
      | [] => if U.number = u then .ok ⟨v, .number⟩ else convert ⟨v, .number⟩ (some u)
      | [x] => if x = u then .ok ⟨v, x⟩ else convert ⟨v, x⟩ (some u)
      | _ => .error .valueError
    | _ => .error .valueError

/-- `create_from_sum_value_item`, types.py 1695-1703. -/
noncomputable def ofTerm (t : ℝ × UMap) : Py UV :=
  match U.all.filter fun x => (t.2 x).isSome with
  | [] => .ok ⟨t.1, .number⟩
  | [x] => if t.2 x = some 1 then .ok ⟨t.1, x⟩ else .error .valueError
  | _ => .error .valueError

/-- All terms as unit values, types.py 1171-1173. -/
noncomputable def ofTerms : SumV → Py (List UV)
  | [] => .ok []
  | t :: l => match ofTerm t, ofTerms l with
    | .ok x, .ok xs => .ok (x :: xs)
    | .error e, _ => .error e
    | _, .error e => .error e

/-- Whether a value can be converted, types.py 1182-1186. -/
def compatible (v u : U) : Bool := decide (v = u) || (match canon v, canon u with | some a, some b => decide (a = b) | _, _ => false)

/-- `values.remove(value)`, types.py 1188, where the value is the one at index `i`: the values
before it are compared with it by `==`, which raises for other kinds of units. -/
noncomputable def remove : List UV → Nat → Py (List UV)
  | [], _ => .error .valueError
  | _ :: l, 0 => .ok l
  | x :: l, i + 1 =>
    match l[i]? with
    | none => .error .valueError
    | some v =>
      match UnitValue.eq x v with
      | .error e => .error e
      | .ok true => .ok l
      | .ok false => match remove l i with
        | .ok r => .ok (x :: r)
        | .error e => .error e

/-- The search for a value for one unit, types.py 1179-1190: what it adds to the result, and the
values that are left. -/
noncomputable def takeUnit (values : List UV) (u : U) : Py (UV × List UV) :=
  match values.findIdx? fun v => compatible v.unit u with
  | none => .ok (⟨0, u⟩, values)
  | some i =>
    match values[i]? with
    | none => .error .indexError
    | some v =>
      match convert v (some u) with
      | .error e => .error e
      | .ok r => match remove values i with
        | .error e => .error e
        | .ok values' => .ok (⟨0 + r.value, u⟩, values')

/-- The loop over the units, types.py 1178-1191. -/
noncomputable def takeUnits : List UV → List U → Py (List UV × List UV)
  | values, [] => .ok ([], values)
  | values, u :: us =>
    match takeUnit values u with
    | .error e => .error e
    | .ok (r, values') => match takeUnits values' us with
      | .error e => .error e
      | .ok (rs, rest) => .ok (r :: rs, rest)

/-- Addition of types from left to right, types.py 1531-1536. -/
def addAll : NType → List NType → Option NType
  | t, [] => some t
  | t, u :: l => match addTypes NumType.base t u with
    | none => none
    | some t => addAll t l

/-- `CSSMathSum(*values)` of unit values, types.py 1526-1537. -/
noncomputable def mkSum (l : List UV) : Py (List UV) :=
  match l with
  | [] => .error .valueError
  | x :: xs => match addAll (createType x.unit) (xs.map fun y => createType y.unit) with
    | none => .error .valueError
    | some _ => .ok l

/-- `to_sum(*units)`, types.py 1167-1194, for one or more units in lower case; the result is a sum of unit
values. -/
noncomputable def toSum (e : Expr) (us : List U) : Py (List UV) :=
  match createSum e with
  | none => .error .typeError
  | some s =>
    match ofTerms s with
    | .error e => .error e
    | .ok values =>
      match takeUnits values us with
      | .error e => .error e
      | .ok (r, []) => mkSum r
      | .ok (_, _ :: _) => .error .valueError

/-- The value, if it is a unit value. -/
def asUnit : Expr → Option UV
  | .unit x => some x
  | _ => none

/-- All values, if all are unit values. -/
def asUnits : List Expr → Option (List UV)
  | [] => some []
  | e :: l => match asUnit e, asUnits l with
    | some x, some xs => some (x :: xs)
    | _, _ => none

/-- The sum of values, types.py 1058-1063: a unit value if all have the same unit. -/
noncomputable def sumUp (values : List Expr) : Expr :=
  match asUnits values with
  | some (x :: xs) => if xs.all fun y => x.unit = y.unit then .unit ⟨((x :: xs).map (·.value)).sum, x.unit⟩ else .sum values
  | _ => .sum values

/-- `add(*values)`, types.py 1052-1063, before the check of the types. -/
noncomputable def add : Expr → List Expr → Expr
  | .sum l', l => sumUp (l' ++ l)
  | e, l => sumUp (e :: l)

open Classical in
mutual
/-- `equals` with one argument, types.py 1073-1095. -/
noncomputable def equals : Expr → Expr → Bool
  | .unit x, .unit y => decide (x.unit = y.unit ∧ x.value = y.value)
  | .sum l, .sum l' => decide (l.length = l'.length) && equalsZip l l'
  | .prod l, .prod l' => decide (l.length = l'.length) && equalsZip l l'
  | .min l, .min l' => decide (l.length = l'.length) && equalsZip l l'
  | .max l, .max l' => decide (l.length = l'.length) && equalsZip l l'
  | _, _ => false

/-- The loop over the pairs of operands, types.py 1089-1092. -/
noncomputable def equalsZip : List Expr → List Expr → Bool
  | a :: l, b :: l' => equals a b && equalsZip l l'
  | _, _ => true
end

end SvgPy.SumValue
