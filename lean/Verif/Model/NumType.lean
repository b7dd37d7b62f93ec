import Verif.Model.UnitValue

/-! Types of typed CSS values, `/repo/svgpy/css/types.py`: `CSSNumericType` 83-354, and the
constructors of numeric values, 1213-1224, 1262-1268, 1308-1319, 1362-1373, 1416-1420, 1457-1468,
1526-1537, 1609-1619. -/

namespace SvgPy.NumType

open SvgPy.UnitValue (U)

/-- The keys of a type with integer values.  `empty` is the empty string: negating a type
(types.py 1267) multiplies its percent hint, a string, by -1. -/
inductive Key
  | length | angle | time | frequency | resolution | flex | percent | empty
  deriving DecidableEq, Repr

/-- `base_type_keys`, types.py 178-180. -/
def base : List Key := [.length, .angle, .time, .frequency, .resolution, .flex]

/-- A `CSSNumericType`: which keys it has, with which values, and its `percent_hint`. -/
structure NType where
  pow : Key → Option Int
  hint : Option Key

/-- `type[key] = p`. -/
def NType.set (t : NType) (k : Key) (p : Int) : NType := { t with pow := fun x => if x = k then some p else t.pow x }

/-- `type.get(key, 0)`. -/
def NType.get (t : NType) (k : Key) : Int := (t.pow k).getD 0

/-- `CSSNumericType()`. -/
def NType.zero : NType := ⟨fun _ => none, none⟩

/-- `apply_percent_hint`, types.py 216-232. -/
def applyHint (t : NType) (h : Key) : NType :=
  let t1 := if t.pow h = none then t.set h 0 else t
  let t2 := match t1.pow .percent with
    | some p => (t1.set h (t1.get h + p)).set .percent 0
    | none => t1
  { t2 with hint := some h }

/-- The first part of `add_types` and `multiply_types`, types.py 165-175, 313-323. -/
def unifyHints (t1 t2 : NType) : Option (NType × NType) :=
  match t1.hint, t2.hint with
  | some h1, some h2 => if h1 ≠ h2 then none else some (t1, t2)
  | some h1, none => some (t1, applyHint t2 h1)
  | none, some h2 => some (applyHint t1 h2, t2)
  | none, none => some (t1, t2)

/-- The entries of the first type, and those of the second for other keys, types.py 188-191. -/
def merge (t1 t2 : NType) : NType :=
  ⟨fun k => match t1.pow k with | some p => some p | none => t2.pow k, match t1.hint with | some h => some h | none => t2.hint⟩

/-- The condition in types.py 181-187. -/
def sameBase (t1 t2 : NType) : Bool :=
  base.all fun k =>
    (match t1.pow k with | some p => p == 0 || t2.pow k == some p | none => true) &&
    (match t2.pow k with | some p => p == 0 || t1.pow k == some p | none => true)

/-- `any([type[key] for key in type if key != 'percent'])`, types.py 195-198; the hint, a string,
counts unless it is empty. -/
def hasOther (t : NType) : Bool :=
  (base ++ [Key.empty]).any (fun k => t.get k != 0) || (match t.hint with | some h => h != .empty | none => false)

/-- The loop in types.py 199-206, which runs over a set: in any order. -/
def matchBase (t1 t2 : NType) : List Key → Option (NType × NType)
  | [] => some (t1, t2)
  | k :: l =>
    let r := if (t1.get k ≠ 0 ∨ t2.get k ≠ 0) ∧ t1.get k ≠ t2.get k then (applyHint t1 k, applyHint t2 k) else (t1, t2)
    if r.1.get k ≠ r.2.get k then none else matchBase r.1 r.2 l

/-- The result in types.py 207-210. -/
def mergeBase (t1 t2 : NType) : NType :=
  { t1 with pow := fun k => match t1.pow k with
      | some p => some p
      | none => if k ∈ base ∧ t2.get k ≠ 0 then t2.pow k else none }

/-- `add_types`, types.py 155-214; `order` is the order in which the set of keys is run
through. -/
def addTypes (order : List Key) (t1 t2 : NType) : Option NType :=
  match unifyHints t1 t2 with
  | none => none
  | some (t1, t2) =>
    if sameBase t1 t2 then some (merge t1 t2)
    else if (t1.get .percent ≠ 0 ∨ t2.get .percent ≠ 0) ∧ (hasOther t1 ∨ hasOther t2) then
      match matchBase t1 t2 order with
      | none => none
      | some (t1, t2) => some (mergeBase t1 t2)
    else none

/-- `multiply_types`, types.py 303-336. -/
def mulTypes (t1 t2 : NType) : Option NType :=
  match unifyHints t1 t2 with
  | none => none
  | some (t1, t2) =>
    some ⟨fun k =>
      if k ∈ base then
        (match t1.pow k, t2.pow k with
        | some p, some q => some (p + q)
        | none, some q => some q
        | p, none => p)
      else t1.pow k, t1.hint⟩

/-- `create_type`, types.py 234-276. -/
def createType : U → NType
  | .number => .zero
  | .percent => NType.zero.set .percent 1
  | .em | .ex | .ch | .ic | .rem | .lh | .rlh | .vw | .vh | .vi | .vb | .vmin | .vmax
  | .cm | .mm | .q | .inch | .pt | .pc | .px => NType.zero.set .length 1
  | .deg | .grad | .rad | .turn => NType.zero.set .angle 1
  | .s | .ms => NType.zero.set .time 1
  | .hz | .khz => NType.zero.set .frequency 1
  | .dpi | .dpcm | .dppx => NType.zero.set .resolution 1
  | .fr => NType.zero.set .flex 1

/-- `self._type[key] *= -1` for all keys, types.py 1267-1268: a hint, which is a string, becomes
the empty string. -/
def negateAll (t : NType) : NType := ⟨fun k => (t.pow k).map (- ·), t.hint.map fun _ => .empty⟩

/-! ### Objects -/

/-- The classes of numeric values. -/
inductive Op
  | unit | sum | product | negate | invert | min | max | clamp
  deriving DecidableEq

/-- A numeric value: its class, its operands and the object that is its type. -/
structure Val where
  op : Op
  args : List Nat
  type : Nat

/-- Values and type objects; those below the counters exist. -/
structure Heap where
  nvals : Nat
  val : Nat → Val
  ntypes : Nat
  type : Nat → NType

/-- The type of a value, `value.type()`. -/
def Heap.typeOf (h : Heap) (v : Nat) : NType := h.type (h.val v).type

/-- A new type object. -/
def Heap.newType (h : Heap) (t : NType) : Heap :=
  { h with ntypes := h.ntypes + 1, type := fun x => if x = h.ntypes then t else h.type x }

/-- A new value. -/
def Heap.newVal (h : Heap) (v : Val) : Heap :=
  { h with nvals := h.nvals + 1, val := fun x => if x = h.nvals then v else h.val x }

/-- The loop of the constructors: `ref` is the object `type1`; `f` is `add_types` or
`multiply_types`, which make a new object. -/
def typeLoop (f : NType → NType → Option NType) (h : Heap) (ref : Nat) : List Nat → Heap × Option Nat
  | [] => (h, some ref)
  | v :: l =>
    match f (h.type ref) (h.typeOf v) with
    | none => (h, none)
    | some t => typeLoop f (h.newType t) h.ntypes l

/-- The constructors of sums, products, minima, maxima and clamps, types.py 1526-1537,
1457-1468, 1362-1373, 1308-1319, 1213-1224. -/
def construct (h : Heap) (op : Op) (f : NType → NType → Option NType) (args : List Nat) : Heap × Py Nat :=
  match args with
  | [] => (h, .error .valueError)
  | v :: l =>
    match typeLoop f h (h.val v).type l with
    | (h', none) => (h', .error .valueError)
    | (h', some ref) => (h'.newVal ⟨op, args, ref⟩, .ok h'.nvals)

/-- What programs construct. -/
inductive Cmd
  | unit (u : U)
  | add (op : Op) (args : List Nat)
  | product (args : List Nat)
  | negate (v : Nat)
  | invert (v : Nat)

/-- One construction: `add` is for sums, minima, maxima and clamps; `CSSMathNegate`, types.py
1416-1420, `CSSMathInvert`, types.py 1262-1268. -/
def exec (order : List Key) (h : Heap) : Cmd → Heap
  | .unit u => (h.newType (createType u)).newVal ⟨.unit, [], h.ntypes⟩
  | .add op args => (construct h op (addTypes order) args).1
  | .product args => (construct h .product mulTypes args).1
  | .negate v => h.newVal ⟨.negate, [v], (h.val v).type⟩
  | .invert v =>
    let ref := (h.val v).type
    Heap.newVal { h with type := fun x => if x = ref then negateAll (h.type ref) else h.type x } ⟨.invert, [v], ref⟩

end SvgPy.NumType
