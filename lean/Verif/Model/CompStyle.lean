import Verif.Model.Py
import Verif.Model.PyStr
import Verif.Model.PyDict
import Verif.Model.Length

/-!
Model of `Element.get_computed_style`, `/repo/svgpy/dom.py` 1795-1861, with the parts of
`CSSUtils` that read lengths, `/repo/svgpy/core.py` 88-223.

Parameters are: reading the text of a length (modelled in `LengthText`), of feature settings
(modelled in `Features`), sizes and weights that are keywords (modelled in `FontStyle`), and the
result of `get_inherited_style` (modelled in `Style`).  The geometry is a list of lengths, as in the
basic shapes (element.py).  Lengths are converted by the model of `SVGLength.value`; a length in a
unit of the font builds a `Font` for its context element, which takes the computed style of that
element (core.py 629-633, 1407-1413): the calls are counted by `limit`.
-/

namespace SvgPy.CompStyle
open SvgPy SvgPy.Length SvgPy.PyStr

/-- Exceptions: those of `Py`, and `RecursionError`. -/
inductive Err
  | py (e : PyErr)
  | recursion

/-- A value in a computed style. -/
inductive Val
  | text (s : Str)
  | num (x : ℝ)
  | words (ws : List Str)
  | features (fs : List (Str × ℤ))

/-- A style. -/
abbrev Sty := Dict Str Val

/-- What the code reads of an element. -/
structure Elem where
  /-- `get_inherited_style()` -/
  inherited : Dict Str Str
  /-- what lengths with this context refer to -/
  env : Env
  /-- `SVGLength(text)`, core.py 1019-1056 -/
  parse : Str → Option (ℝ × LUnit)
  /-- `CSSUtils.parse_font_feature_settings` -/
  features : Str → List (Str × ℤ)
  /-- `compute_font_size` for a keyword, core.py 99-134 -/
  keywordSize : Str → Option ℝ
  /-- `compute_font_weight`, core.py 158-199 -/
  weight : Str → Option ℤ
  /-- `get_computed_geometry()`: names, texts and directions -/
  geometry : List (Str × Str × Dir)

/-- Units that are measures of a font, core.py 1407-1410. -/
def isFontUnit : LUnit → Bool
  | .ex | .cap | .ch | .ic => true
  | _ => false

/-- `SVGLength(text, context=...).value(direction=dir)`, core.py 1316-1568; `again` is the result of
the computed style of the context element, which a unit of the font asks for. -/
noncomputable def lenIn (e : Elem) (env : Env) (again : Except Err Unit) (dir : Option Dir) (s : Str) :
    Except Err ℝ :=
  match e.parse s with
  | none => .error (.py .valueError)
  | some (n, u) =>
    match (if isFontUnit u && env.font.isSome then again else .ok ()) with
    | .error x => .error x
    | .ok _ => match convertNumber env dir n u .noUnit with
      | .error x => .error (.py x)
      | .ok px => .ok px

/-- `style[name]`, a text. -/
def getText (s : Sty) (name : Str) : Except Err Str :=
  match s.get? name with
  | some (.text t) => .ok t
  | some _ => .error (.py .typeError)
  | none => .error (.py .keyError)

/-- `style[name]`, a number. -/
def getNum (s : Sty) (name : Str) : Except Err ℝ :=
  match s.get? name with
  | some (.num t) => .ok t
  | some _ => .error (.py .typeError)
  | none => .error (.py .keyError)

/-- `_MINIMUM_FONT_SIZE`, core.py 71. -/
def minimumFontSize : ℝ := 10

/-- The end of `compute_font_size`, core.py 140-142. -/
noncomputable def atLeast (px : ℝ) : ℝ := if px < minimumFontSize then minimumFontSize else px

/-- `compute_font_size`, core.py 88-142. -/
noncomputable def fontSize (e : Elem) (again : Except Err Unit) (v : Str) : Except Err ℝ :=
  match e.keywordSize v with
  | some px => .ok (atLeast px)
  | none => match lenIn e e.env again none v with
    | .error x => .error x
    | .ok px => .ok (atLeast px)

/-- `compute_font_size_adjust`, core.py 144-155: a length without context. -/
noncomputable def sizeAdjust (e : Elem) (v : Str) : Except Err Val :=
  if v = "none".toList then .ok (.text v)
  else match lenIn e defaultEnv (.ok ()) none v with
    | .error x => .error x
    | .ok y => .ok (.num y)

/-- The words of `font-synthesis`, dom.py 1812-1816. -/
def synthesis (v : Str) : List Str :=
  let items := (splitWs v).filter fun x =>
    ["weight".toList, "style".toList, "none".toList].contains x
  if items.contains "none".toList && items.length != 1 then ["none".toList] else items

/-- `compute_line_height`, core.py 201-223; `size` is the computed font size. -/
noncomputable def lineHeight (e : Elem) (again : Except Err Unit) (size : ℝ) (v : Str) :
    Except Err ℝ :=
  if v = "normal".toList then .ok (1.2 * size)
  else match e.parse v with
    | some (n, .pct) => .ok (n / 100 * size)
    | _ => lenIn e e.env again none v

/-- dom.py 1834-1836. -/
def horizontal (m : Str) : Bool :=
  ["horizontal-tb".toList, "lr".toList, "lr-tb".toList, "rl".toList, "rl-tb".toList].contains m

/-- A number as value. -/
noncomputable def asNum : Except Err ℝ → Except Err Val
  | .error x => .error x
  | .ok y => .ok (.num y)

/-- A value from the text of a property. -/
noncomputable def fromText (name : Str) (f : Str → Except Err Val) (s : Sty) : Except Err Val :=
  match getText s name with
  | .error x => .error x
  | .ok t => f t

/-- `compute_font_weight`, core.py 158-199. -/
noncomputable def fontWeight (e : Elem) (v : Str) : Except Err Val :=
  match e.weight v with
  | none => .error (.py .valueError)
  | some w => .ok (.num w)

/-- The line height reads the font size that is in the style by then, core.py 212-213. -/
noncomputable def lineStep (e : Elem) (again : Except Err Unit) (s : Sty) : Except Err Val :=
  match getText s "line-height".toList with
  | .error x => .error x
  | .ok t => match getNum s "font-size".toList with
    | .error x => .error x
    | .ok size => asNum (lineHeight e again size t)

/-- The inline size, dom.py 1832-1838: without context. -/
noncomputable def inlineStep (e : Elem) (s : Sty) : Except Err Val :=
  match getText s "inline-size".toList with
  | .error x => .error x
  | .ok t => match getText s "writing-mode".toList with
    | .error x => .error x
    | .ok m => asNum (lenIn e defaultEnv (.ok ()) (some (if horizontal m then .horizontal else .vertical)) t)

/-- The assignments to the style in their order, dom.py 1800-1857. -/
noncomputable def steps (e : Elem) (again : Except Err Unit) :
    List (Str × (Sty → Except Err Val)) :=
  [("font-feature-settings".toList,
      fromText "font-feature-settings".toList fun t => .ok (.features (e.features t))),
   ("font-size".toList, fromText "font-size".toList fun t => asNum (fontSize e again t)),
   ("font-size-adjust".toList, fromText "font-size-adjust".toList fun t => sizeAdjust e t),
   ("font-synthesis".toList, fromText "font-synthesis".toList fun t => .ok (.words (synthesis t))),
   ("font-weight".toList, fromText "font-weight".toList fun t => fontWeight e t),
   ("line-height".toList, lineStep e again),
   ("inline-size".toList, inlineStep e),
   ("stroke-width".toList, fromText "stroke-width".toList fun t =>
      asNum (lenIn e e.env again (some .unspecified) t)),
   ("tab-size".toList, fromText "tab-size".toList fun t =>
      asNum (lenIn e e.env again (some .unspecified) t))]

/-- The assignments one after the other. -/
def runSteps : List (Str × (Sty → Except Err Val)) → Sty → Except Err Sty
  | [], s => .ok s
  | (name, f) :: fs, s => match f s with
    | .error x => .error x
    | .ok v => runSteps fs (s.set name v)

/-- `get_computed_geometry`: the lengths one after the other. -/
noncomputable def geometryOf (e : Elem) (again : Except Err Unit) :
    List (Str × Str × Dir) → Except Err (List (Str × Val))
  | [] => .ok []
  | (name, t, dir) :: gs => match lenIn e e.env again (some dir) t with
    | .error x => .error x
    | .ok px => match geometryOf e again gs with
      | .error x => .error x
      | .ok rest => .ok ((name, .num px) :: rest)

/-- One call of `get_computed_style`, dom.py 1795-1861. -/
noncomputable def once (e : Elem) (again : Except Err Unit) : Except Err Sty :=
  match runSteps (steps e again) (e.inherited.map fun p => (p.1, Val.text p.2)) with
  | .error x => .error x
  | .ok s => match geometryOf e again e.geometry with
    | .error x => .error x
    | .ok g => .ok (s.update g)

/-- Whether a call succeeded. -/
def done {α : Type} : Except Err α → Except Err Unit
  | .error x => .error x
  | .ok _ => .ok ()

/-- `get_computed_style` where calls may be nested `limit` deep. -/
noncomputable def computed (e : Elem) : (limit : ℕ) → Except Err Sty
  | 0 => .error .recursion
  | n + 1 => once e (done (computed e n))

end SvgPy.CompStyle
