import Verif.Model.Shapes

/-! `SVGElement.get_viewport_size`, `/repo/svgpy/base.py` 231-340, together with the way
`SVGLength.value` asks back for the size of the viewport, `/repo/svgpy/core.py` 1384-1405.
Numbers are exact reals; attributes have been parsed (`Shapes.Val`). -/

namespace SvgPy.ViewportSize

open SvgPy.Length SvgPy.Shapes

/-- What is read of an element: whether its local name is `svg` or `symbol`; the attributes
`width`, `height` (`auto` if missing), `x`, `y` (`0` if missing); width and height of its own
`viewBox`; and the fonts its lengths refer to (`vw` and `vh` of the context are not used, they are
found by `ask` below). -/
structure El where
  view : Bool
  width : Val := .auto
  height : Val := .auto
  x : Val := zero
  y : Val := zero
  viewBox : Option (ℝ × ℝ) := none
  ctx : Context

/-- An element and its ancestors, nearest first. -/
abbrev Chain := List El

/-- The result of a computation: `none` if it does not return. -/
abbrev Run (α : Type) := Option (Py α)

/-- One computation after another. -/
def Run.bind (r : Run α) (f : α → Run β) : Run β :=
  match r with
  | none => none
  | some (.error e) => some (.error e)
  | some (.ok a) => f a

/-- The list `roots`, base.py 240-250: the elements that establish a viewport, outermost first,
each with its ancestors. -/
def roots : Chain → List Chain
  | [] => []
  | e :: c => if e.view then roots c ++ [e :: c] else roots c

/-- The same for `recursive=False`: the nearest one only. -/
def nearestRoot : Chain → List Chain
  | [] => []
  | e :: c => if e.view then [e :: c] else nearestRoot c

/-- `get_view_box()`, base.py 206-229: the nearest `viewBox`. -/
def getViewBox : Chain → Option (ℝ × ℝ)
  | [] => none
  | e :: c => if e.view then (match e.viewBox with | some b => some b | none => getViewBox c) else getViewBox c

/-- `length.value(SVGLength.TYPE_PERCENTAGE)`, core.py 1336-1568: a percentage is returned as it
is, other units first ask for the size of the viewport of their context. -/
noncomputable def percent (ask : Chain → Run (ℝ × ℝ)) (c : Chain) (l : Len) : Run ℝ :=
  if l.unit = .pct then some (.ok l.num)
  else (ask c).bind fun v => some (convertNumber { Length.env l with vw := v.1, vh := v.2 } l.dir l.num l.unit .pct)

/-- Python's `max` of two lengths. -/
noncomputable def pyMax (a b : Len) : Run Len := Run.bind (some (cmp .gt b a)) fun r => some (.ok (if r then b else a))

/-- Python's `min` of two lengths. -/
noncomputable def pyMin (a b : Len) : Run Len := Run.bind (some (cmp .lt b a)) fun r => some (.ok (if r then b else a))

/-- A length whose unit refers to the viewport is replaced, base.py 271-281, 291-301, 310-319,
324-333; `w` and `h` are the sizes it refers to. -/
noncomputable def resolve (ask : Chain → Run (ℝ × ℝ)) (c : Chain) (d : Dir) (l : Len) (w h : Len) : Run Len :=
  match l.unit with
  | .pct => (percent ask c l).bind fun p => some (.ok (scale (match d with | .vertical => h | _ => w) (p / 100)))
  | .vw => (percent ask c l).bind fun p => some (.ok (scale w (p / 100)))
  | .vh => (percent ask c l).bind fun p => some (.ok (scale h (p / 100)))
  | .vmax => pyMax w h
  | .vmin => pyMin w h
  | _ => some (.ok l)

/-- `SVGLength(text, context=root, direction=...)`. -/
noncomputable def parse (e : El) (d : Dir) (v : Val) : Run Len :=
  match v with
  | .len n u => some (.ok ⟨n, u, some e.ctx, some d⟩)
  | _ => some (.error .valueError)

/-- `if value == 'auto': value = '100%'`. -/
noncomputable def orFull : Val → Val
  | .auto => .len 100 .pct
  | v => v

/-- One side of a root, base.py 263-302. -/
noncomputable def side (ask : Chain → Run (ℝ × ℝ)) (e : El) (c : Chain) (d : Dir) (v : Val) (own w h : Len) : Run Len :=
  match orFull v with
  | .inherit => some (.ok own)
  | v => (parse e d v).bind fun l => resolve ask c d l w h

/-- The loop over the roots, base.py 262-303; the height sees the new width as `parent_vpw`. -/
noncomputable def sizes (ask : Chain → Run (ℝ × ℝ)) : List Chain → Len → Len → Run (Len × Len)
  | [], w, h => some (.ok (w, h))
  | [] :: l, w, h => sizes ask l w h
  | (e :: c) :: l, w, h =>
    (side ask e (e :: c) .horizontal e.width w w h).bind fun w' =>
    (side ask e (e :: c) .vertical e.height h w' h).bind fun h' => sizes ask l w' h'

/-- The position of the last root, base.py 304-333. -/
noncomputable def position (ask : Chain → Run (ℝ × ℝ)) (w h : Len) : Option Chain → Run (Len × Len)
  | some (e :: c) =>
    (parse e .horizontal e.x).bind fun x => (resolve ask (e :: c) .horizontal x w h).bind fun x' =>
    (parse e .vertical e.y).bind fun y => (resolve ask (e :: c) .vertical y w h).bind fun y' => some (.ok (x', y'))
  | _ => some (.ok (⟨0, .noUnit, none, none⟩, ⟨0, .noUnit, none, none⟩))

/-- The body of `get_viewport_size`; `W` and `H` are the sizes of the window. -/
noncomputable def body (ask : Chain → Run (ℝ × ℝ)) (recursive : Bool) (W H : ℝ) (c : Chain) : Run ((Len × Len) × (Len × Len)) :=
  let l := if recursive then roots c else nearestRoot c
  (sizes ask l ⟨W, .noUnit, none, some .horizontal⟩ ⟨H, .noUnit, none, some .vertical⟩).bind fun s =>
    (position ask s.1 s.2 l.getLast?).bind fun p => some (.ok (p, s))

/-- `vpw.value(), vph.value()`, core.py 1399-1401. -/
noncomputable def pixels (s : Len × Len) : Run (ℝ × ℝ) :=
  Run.bind (some (value s.1 .noUnit)) fun w => Run.bind (some (value s.2 .noUnit)) fun h => some (.ok (w, h))

/-- `get_viewport_size` with at most `n` calls inside each other; lengths ask for the view box
first, then for the size of the viewport, core.py 1391-1401. -/
noncomputable def getViewportSize (recursive : Bool) (W H : ℝ) : Nat → Chain → Run ((Len × Len) × (Len × Len))
  | 0, _ => none
  | n + 1, c => body (fun c' => match getViewBox c' with
      | some b => some (.ok b)
      | none => (getViewportSize true W H n c').bind fun r => pixels r.2) recursive W H c

end SvgPy.ViewportSize
