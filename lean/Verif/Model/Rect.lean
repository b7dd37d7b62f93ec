import Verif.Model.Py
import Mathlib.Algebra.Order.Field.Basic

/-!
Model of `/repo/svgpy/geometry/rect.py`.  Numbers are elements of a linearly
ordered field `K` (Python floats without rounding).
-/

namespace SvgPy.Rect

variable {K : Type*} [Field K] [LinearOrder K]

/-- `DOMRectReadOnly.__init__`, rect.py 19-33: `_x` and `_y` may be `None`. -/
structure DRect (K : Type*) where
  x : Option K
  y : Option K
  width : K
  height : K
deriving DecidableEq, Repr

/-- `DOMRect()`, rect.py 328-339 with the default arguments. -/
def DRect.new : DRect K := ⟨none, none, 0, 0⟩

/-- `right`, rect.py 95-100. -/
def DRect.right (r : DRect K) : Option K := r.x.map (· + r.width)

/-- `bottom`, rect.py 76-81. -/
def DRect.bottom (r : DRect K) : Option K := r.y.map (· + r.height)

/-- `isempty`, rect.py 223-231. -/
def DRect.isempty (r : DRect K) : Bool :=
  r.x.isNone || r.y.isNone || decide (r.width ≤ 0) || decide (r.height ≤ 0)

/-- `isvalid`, rect.py 233-241. -/
def DRect.isvalid (r : DRect K) : Bool :=
  r.x.isSome && r.y.isSome && decide (r.width > 0) && decide (r.height > 0)

/-- `set_coords`, rect.py 469-485. -/
def setCoords (x1 y1 x2 y2 : K) : DRect K := ⟨some x1, some y1, x2 - x1, y2 - y1⟩

/-- `contains`, rect.py 145-162.  The `match` after the validity test only
unwraps the coordinates, which `isvalid` guarantees to be present. -/
def DRect.contains (r : DRect K) (x y width height : K) : Bool :=
  if !r.isvalid then false
  else match r.x, r.y with
    | some left, some top =>
      let right := left + r.width
      let bottom := top + r.height
      if width ≤ 0 ∨ height ≤ 0 then
        decide (left ≤ x ∧ x ≤ right ∧ top ≤ y ∧ y ≤ bottom)
      else
        let right' := x + width
        let bottom' := y + height
        decide (left ≤ x ∧ x ≤ right ∧ left ≤ right' ∧ right' ≤ right
          ∧ top ≤ y ∧ y ≤ bottom ∧ top ≤ bottom' ∧ bottom' ≤ bottom)
    | _, _ => false

/-- `unite_self`, rect.py 569-611, with `x` and `y` given (the `None` case
returns `self`, see `DRect.unite`). -/
def DRect.uniteXY (r : DRect K) (x y width height : K) : DRect K :=
  if r.contains x y width height then r
  else
    let x1 := r.x; let y1 := r.y; let x2 := r.right; let y2 := r.bottom
    -- rect.py 588-591
    let (x1, x2) := match x1, x2 with
      | none, x2 => (x, x2)
      | some a, x2 => if x < a then (x, x2) else
          match x2 with
          | some b => if x > b then (a, some x) else (a, some b)
          | none => (a, none)
    -- rect.py 593-596
    let (y1, y2) := match y1, y2 with
      | none, y2 => (y, y2)
      | some a, y2 => if y < a then (y, y2) else
          match y2 with
          | some b => if y > b then (a, some y) else (a, some b)
          | none => (a, none)
    -- rect.py 598-604
    let (x2, y2) := if width > 0 ∧ height > 0 then
        (match x2 with
          | none => some (x + width)
          | some b => if x + width > b then some (x + width) else some b,
         match y2 with
          | none => some (y + height)
          | some b => if y + height > b then some (y + height) else some b)
      else (x2, y2)
    -- rect.py 606-611
    match x2, y2 with
    | some x2, some y2 => setCoords x1 y1 x2 y2
    | _, _ => { r with x := some x1, y := some y1 }

/-- `unite_self` called as in `__ior__`/`__or__` (rect.py 58-63, 347-351) with
the members of another rectangle; rect.py 581-582 for `None`. -/
def DRect.unite (r o : DRect K) : DRect K :=
  match o.x, o.y with
  | some x, some y => r.uniteXY x y o.width o.height
  | _, _ => r

/-- The accumulation of `SVGGraphicsElement.get_bbox`, base.py 427-436:
start from `DOMRect()` and unite the boxes of the children in turn. -/
def uniteAll (rs : List (DRect K)) : DRect K := rs.foldl DRect.unite DRect.new

/-- `intersect_self`, rect.py 404-451. -/
def DRect.intersect (r o : DRect K) : DRect K :=
  if !r.isvalid || !o.isvalid then r
  else match r.x, r.y, o.x, o.y with
    | some sl, some st, some ol, some ot =>
      if o.contains sl st r.width r.height then r
      else
        let sr := sl + r.width; let sb := st + r.height
        let or := ol + o.width; let ob := ot + o.height
        let vert : Prop := (ot < st ∧ sb < ob) ∨ (st ≤ ot ∧ ot < sb) ∨ (st < ob ∧ ob ≤ sb)
        let horz : Prop := (ol < sl ∧ sr < or) ∨ (sl ≤ ol ∧ ol < sr) ∨ (sl < or ∧ or ≤ sr)
        let x1 := if (sl < ol ∧ ol < sr) ∧ vert then ol else sl
        let y1 := if (st < ot ∧ ot < sb) ∧ horz then ot else st
        let x2 := if (sl < or ∧ or < sr) ∧ vert then or else sr
        let y2 := if (st < ob ∧ ob < sb) ∧ horz then ob else sb
        setCoords x1 y1 x2 y2
    | _, _, _, _ => r

/-- A 2D affine matrix as `transform_point` (matrix.py 684-700) applies it to a
point in the plane: `x' = a x + c y + e`, `y' = b x + d y + f`. -/
structure Affine (K : Type*) where
  a : K
  b : K
  c : K
  d : K
  e : K
  f : K
deriving DecidableEq, Repr

/-- `DOMMatrixReadOnly.transform_point` for a 2D matrix, matrix.py 684-700. -/
def Affine.apply (m : Affine K) (p : K × K) : K × K :=
  (m.a * p.1 + m.c * p.2 + m.e, m.b * p.1 + m.d * p.2 + m.f)

/-- `transform_self`, rect.py 518-544.  Note that rect.py 539-540 overwrite
`x1`, `y1` before rect.py 541-542 read them. -/
def DRect.transform (r : DRect K) (m : Affine K) : DRect K :=
  if !r.isvalid then r
  else match r.x, r.y with
    | some l, some t =>
      let p1 := m.apply (l, t)
      let p2 := m.apply (l + r.width, t)
      let p3 := m.apply (l + r.width, t + r.height)
      let p4 := m.apply (l, t + r.height)
      let x1 := min (min (min p1.1 p2.1) p3.1) p4.1
      let y1 := min (min (min p1.2 p2.2) p3.2) p4.2
      let x3 := max (max (max x1 p2.1) p3.1) p4.1
      let y3 := max (max (max y1 p2.2) p3.2) p4.2
      setCoords x1 y1 x3 y3
    | _, _ => r

/-- `normalize`, rect.py 243-258; `None - None` raises `TypeError`. -/
def DRect.normalize (r : DRect K) : Py (DRect K) := do
  let (x1, width) ← if r.width < 0 then
      (match r.x with
       | some x => pure (some (x + r.width), x - (x + r.width))
       | none => throw .typeError)
    else pure (r.x, r.width)
  let (y1, height) ← if r.height < 0 then
      (match r.y with
       | some y => pure (some (y + r.height), y - (y + r.height))
       | none => throw .typeError)
    else pure (r.y, r.height)
  pure ⟨x1, y1, width, height⟩

/-- `translate_self`, rect.py 546-558; `None += dx` raises `TypeError`. -/
def DRect.translate (r : DRect K) (dx dy : K) : Py (DRect K) :=
  match r.x, r.y with
  | some x, some y => .ok { r with x := some (x + dx), y := some (y + dy) }
  | _, _ => .error .typeError

/-- `transpose_self`, rect.py 560-567. -/
def DRect.transpose (r : DRect K) : DRect K := { r with width := r.height, height := r.width }

/-- `adjust_self`, rect.py 369-389. -/
def DRect.adjust (r : DRect K) (dx1 dy1 dx2 dy2 : K) : DRect K :=
  if !r.isvalid then r
  else match r.x, r.y with
    | some x, some y => setCoords (x + dx1) (y + dy1) (x + r.width + dx2) (y + r.height + dy2)
    | _, _ => r

end SvgPy.Rect
