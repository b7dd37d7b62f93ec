import Verif.Model.PathGeom
import Verif.Props.Transform
import Mathlib.Tactic.Ring

/-! Properties C13, C14 and C15: what path data draws. -/

set_option linter.unusedSimpArgs false

namespace SvgPy.PathGeom

open SvgPy.Matrix SvgPy.Path SvgPy.Transform

/-! ### Specification: drawing with a pen -/

/-- The point at `t` of a straight line. -/
noncomputable def lineAt (p q : Pt) (t : ℝ) : Pt := ((1 - t) * p.1 + t * q.1, (1 - t) * p.2 + t * q.2)

/-- The point at `t` of a quadratic Bezier curve. -/
noncomputable def quadAt (p c q : Pt) (t : ℝ) : Pt :=
  ((1 - t) ^ 2 * p.1 + 2 * (1 - t) * t * c.1 + t ^ 2 * q.1, (1 - t) ^ 2 * p.2 + 2 * (1 - t) * t * c.2 + t ^ 2 * q.2)

/-- The point at `t` of a cubic Bezier curve. -/
noncomputable def cubicAt (p c d q : Pt) (t : ℝ) : Pt :=
  ((1 - t) ^ 3 * p.1 + 3 * (1 - t) ^ 2 * t * c.1 + 3 * (1 - t) * t ^ 2 * d.1 + t ^ 3 * q.1,
    (1 - t) ^ 3 * p.2 + 3 * (1 - t) ^ 2 * t * c.2 + 3 * (1 - t) * t ^ 2 * d.2 + t ^ 3 * q.2)

/-- What is drawn: a subpath begins, a curve given by its points for `0 ≤ t ≤ 1`, an
elliptical arc given by its parameters, a subpath is closed by a line. -/
inductive Piece
  | begin (p : Pt)
  | draw (f : ℝ → Pt)
  | arc (p : Pt) (rx ry rot fa fs : ℝ) (q : Pt)
  | close (f : ℝ → Pt)

/-- The last control point, if the last command was a curve. -/
inductive Ctrl
  | free
  | cubic (p : Pt)
  | quad (p : Pt)

/-- The pen: current point, start of the subpath, last control point, bearing in degrees,
and whether the last command was a moveto. -/
structure Pen where
  cur : Pt
  start : Pt
  ctrl : Ctrl
  bearing : ℝ
  moved : Bool

/-- A pen at the origin. -/
def Pen.new : Pen := ⟨(0, 0), (0, 0), .free, 0, false⟩

/-- A point as given: relative points are turned by the bearing and added to the current
point. -/
noncomputable def Pen.at (pen : Pen) (rel : Bool) (x y : ℝ) : Pt :=
  if rel then
    (pen.cur.1 + (x * Real.cos (pen.bearing * Real.pi / 180) - y * Real.sin (pen.bearing * Real.pi / 180)),
      pen.cur.2 + (x * Real.sin (pen.bearing * Real.pi / 180) + y * Real.cos (pen.bearing * Real.pi / 180)))
  else (x, y)

/-- The first control point of a smooth cubic curve: the mirror image of the last one, or
the current point. -/
noncomputable def Pen.smoothCubic (pen : Pen) : Pt :=
  match pen.ctrl with
  | .cubic p => (2 * pen.cur.1 - p.1, 2 * pen.cur.2 - p.2)
  | _ => pen.cur

/-- The control point of a smooth quadratic curve. -/
noncomputable def Pen.smoothQuad (pen : Pen) : Pt :=
  match pen.ctrl with
  | .quad p => (2 * pen.cur.1 - p.1, 2 * pen.cur.2 - p.2)
  | _ => pen.cur

/-- A straight line to a point. -/
noncomputable def Pen.lineTo (pen : Pen) (q : Pt) : Pen × List Piece :=
  ({ pen with cur := q, ctrl := .free, moved := false }, [.draw (lineAt pen.cur q)])

/-- The effect of one segment.  A moveto directly after a moveto draws a line; an arc with a
zero radius is a line. -/
noncomputable def Pen.step (pen : Pen) : Seg ℝ → Pen × List Piece
  | .move r x y =>
    let q := pen.at r x y
    if pen.moved then ({ pen with cur := q, ctrl := .free }, [.draw (lineAt pen.cur q)])
    else ({ pen with cur := q, start := q, ctrl := .free, moved := true }, [.begin q])
  | .line r x y => pen.lineTo (pen.at r x y)
  | .horiz r x => pen.lineTo (if r then pen.at true x 0 else (x, pen.cur.2))
  | .vert r y => pen.lineTo (if r then pen.at true 0 y else (pen.cur.1, y))
  | .curve r x1 y1 x2 y2 x y =>
    ({ pen with cur := pen.at r x y, ctrl := .cubic (pen.at r x2 y2), moved := false },
      [.draw (cubicAt pen.cur (pen.at r x1 y1) (pen.at r x2 y2) (pen.at r x y))])
  | .smooth r x2 y2 x y =>
    ({ pen with cur := pen.at r x y, ctrl := .cubic (pen.at r x2 y2), moved := false },
      [.draw (cubicAt pen.cur pen.smoothCubic (pen.at r x2 y2) (pen.at r x y))])
  | .quad r x1 y1 x y =>
    ({ pen with cur := pen.at r x y, ctrl := .quad (pen.at r x1 y1), moved := false },
      [.draw (quadAt pen.cur (pen.at r x1 y1) (pen.at r x y))])
  | .tsmooth r x y =>
    ({ pen with cur := pen.at r x y, ctrl := .quad pen.smoothQuad, moved := false },
      [.draw (quadAt pen.cur pen.smoothQuad (pen.at r x y))])
  | .arc r rx ry rot fa fs x y =>
    open Classical in
    if rx = 0 ∨ ry = 0 then pen.lineTo (pen.at r x y)
    else ({ pen with cur := pen.at r x y, ctrl := .free, moved := false },
      [.arc pen.cur rx ry (if r then rot + pen.bearing else rot) fa fs (pen.at r x y)])
  | .close _ => ({ pen with cur := pen.start, ctrl := .free, moved := false }, [.close (lineAt pen.cur pen.start)])
  | .bearing r a => ({ pen with ctrl := .free, bearing := if r then pen.bearing + a else a, moved := false }, [])

/-- The drawing of a list of segments. -/
noncomputable def Pen.draw : Pen → List (Seg ℝ) → List Piece
  | _, [] => []
  | pen, s :: l => (pen.step s).2 ++ (pen.step s).1.draw l

/-- The pen after a list of segments. -/
noncomputable def Pen.run : Pen → List (Seg ℝ) → Pen
  | pen, [] => pen
  | pen, s :: l => (pen.step s).1.run l

theorem draw_append (pen : Pen) (a b : List (Seg ℝ)) : pen.draw (a ++ b) = pen.draw a ++ (pen.run a).draw b := by
  induction a generalizing pen with
  | nil => rfl
  | cons s a ih => simp only [List.cons_append, Pen.draw, Pen.run, ih, List.append_assoc]

/-! ### C13 -/

theorem turn_eq (b x y : ℝ) : turn b x y =
    (x * Real.cos (b * Real.pi / 180) - y * Real.sin (b * Real.pi / 180),
      x * Real.sin (b * Real.pi / 180) + y * Real.cos (b * Real.pi / 180)) := by
  unfold turn
  split
  · have h := transformPoint_spec (rotateSelf newMatrix 0 0 b) ⟨x, y, 0, 1⟩
    have h2 : (rotateSelf newMatrix 0 0 b).is2d = true := by rw [rotate_flag]; rfl
    simp only [h2, and_self, if_true] at h
    rw [h, rotate_apply, apply_new]
    simp [pair, rotX, rotY, rotZ, sinDeg, cosDeg]
  · rename_i h
    have : b = 0 := by simpa using h
    subst this
    simp

theorem moveBy_eq (pen : Pen) (x y : ℝ) :
    moveBy (some pen.cur.1, some pen.cur.2) pen.bearing x y = pen.at true x y := by
  unfold moveBy
  rw [turn_eq]
  simp [orZero, Pen.at, add_comm]

/-- The segments in absolute form, each converted with the current point and bearing that
the pen has there. -/
noncomputable def absolute : Pen → List (Seg ℝ) → List (Seg ℝ)
  | _, [] => []
  | pen, s :: l => toAbs (some pen.cur.1, some pen.cur.2) pen.bearing s :: absolute (pen.step s).1 l

theorem toAbs_step (pen : Pen) (s : Seg ℝ) :
    pen.step (toAbs (some pen.cur.1, some pen.cur.2) pen.bearing s) = pen.step s := by
  have h := moveBy_eq pen
  have hf : ∀ x y, pen.at false x y = (x, y) := fun x y => rfl
  have hb : ∀ r, (if pen.bearing ≠ 0 then r + pen.bearing else r) = r + pen.bearing := by
    intro r
    split
    · rfl
    · rename_i h; rw [show pen.bearing = 0 by simpa using h, add_zero]
  rcases s with ⟨_ | _, _⟩ | ⟨_ | _, _⟩ | ⟨_ | _, _⟩ | ⟨_ | _, _⟩ | ⟨_ | _, _⟩ | ⟨_ | _, _⟩ | ⟨_ | _, _⟩ | ⟨_ | _, _⟩ |
    ⟨_ | _, _⟩ | ⟨_ | _, _⟩ | ⟨_ | _⟩ <;> simp only [toAbs, Pen.step, h, hf, hb, if_true, Bool.false_eq_true, if_false, Prod.mk.eta]

/-- **C13** The absolute forms, one after the other, draw the same as the original segments,
from every starting point and bearing, and are absolute. -/
theorem absolute_draw (pen : Pen) (l : List (Seg ℝ)) :
    pen.draw (absolute pen l) = pen.draw l ∧ ∀ s ∈ absolute pen l, s.rel = false := by
  induction l generalizing pen with
  | nil => exact ⟨rfl, by simp [absolute]⟩
  | cons s l ih =>
    constructor
    · simp only [absolute, Pen.draw, toAbs_step, (ih _).1]
    · intro t ht
      simp only [absolute, List.mem_cons] at ht
      rcases ht with rfl | ht
      · rcases s with ⟨_ | _, _⟩ | ⟨_ | _, _⟩ | ⟨_ | _, _⟩ | ⟨_ | _, _⟩ | ⟨_ | _, _⟩ | ⟨_ | _, _⟩ | ⟨_ | _, _⟩ | ⟨_ | _, _⟩ |
          ⟨_ | _, _⟩ | ⟨_ | _, _⟩ | ⟨_ | _⟩ <;> rfl
      · exact (ih _).2 t ht

/-- **C13** A missing current point counts as the origin. -/
theorem toAbs_none (b : ℝ) (s : Seg ℝ) : toAbs (none, none) b s = toAbs (some 0, some 0) b s := by
  have h : ∀ x y, moveBy (none, none) b x y = moveBy (some 0, some 0) b x y := fun x y => rfl
  rcases s with ⟨_ | _, _⟩ | ⟨_ | _, _⟩ | ⟨_ | _, _⟩ | ⟨_ | _, _⟩ | ⟨_ | _, _⟩ | ⟨_ | _, _⟩ | ⟨_ | _, _⟩ | ⟨_ | _, _⟩ |
    ⟨_ | _, _⟩ | ⟨_ | _, _⟩ | ⟨_ | _⟩ <;> simp only [toAbs, h]

/-! ### C14 -/

/-- What the segment before a smooth curve was: a line, moveto or flat arc; a cubic curve
whose control point the code mirrors correctly; one whose control point it does not; a
quadratic curve; a closing. -/
inductive Prev
  | line | cubic | odd | quad | close
  deriving DecidableEq

/-- The segments for which the normalisation is right: arcs only with a zero radius; a
smooth cubic curve only after a line or a cubic curve, but not after another smooth one
that follows a line; a smooth quadratic curve only after a line or a quadratic curve;
moveto and smooth curves not directly after a bearing (`b`). -/
def Allowed (prev : Prev) (b : Bool) : Seg ℝ → Prop
  | .arc _ rx ry _ _ _ _ _ => rx = 0 ∨ ry = 0
  | .move .. => b = false
  | .smooth .. => b = false ∧ (prev = .line ∨ prev = .cubic)
  | .tsmooth .. => b = false ∧ (prev = .line ∨ prev = .quad)
  | _ => True

def Prev.next (prev : Prev) : Seg ℝ → Prev
  | .bearing .. => prev
  | .curve .. => .cubic
  | .smooth .. => if prev = .cubic then .cubic else .odd
  | .quad .. => .quad
  | .tsmooth .. => .quad
  | .close _ => .close
  | _ => .line

/-- All segments are allowed where they stand. -/
def AllAllowed : Prev → Bool → List (Seg ℝ) → Prop
  | _, _, [] => True
  | prev, b, s :: l => Allowed prev b s ∧ AllAllowed (prev.next s) (decide (s.kind = .B)) l

/-- Absolute moveto, lineto, cubic curve or closing. -/
def Base (s : Seg ℝ) : Prop :=
  match s with
  | .move false _ _ => True
  | .line false _ _ => True
  | .curve false _ _ _ _ _ _ => True
  | .close false => True
  | _ => False

def someP (p : Pt) : Pt? := (some p.1, some p.2)

/-- The variables of the loop describe the pen; `out` is the pen that draws the result. -/
structure Inv (st : State) (pen out : Pen) (prev : Prev) (b : Bool) : Prop where
  cp : st.cp = someP pen.cur
  start : st.start = someP pen.start
  bearing : st.bearing = pen.bearing
  cur' : out.cur = pen.cur
  start' : out.start = pen.start
  moved : b = false → (pen.moved = true ↔ st.last = some .M) ∧ out.moved = pen.moved
  line : b = false → prev = .line → pen.ctrl = .free ∧ st.q = someP pen.cur ∧
    ¬ (st.last = some .C ∨ st.last = some .S) ∧ ¬ (st.last = some .Q ∨ st.last = some .T)
  cubic : b = false → prev = .cubic → st.q = someP pen.smoothCubic ∧ (st.last = some .C ∨ st.last = some .S)
  quad : b = false → prev = .quad → st.q = someP pen.smoothQuad ∧ (st.last = some .Q ∨ st.last = some .T)

theorem elevate_quad (p c q : Pt) :
    cubicAt p (p.1 + 2 / 3 * (c.1 - p.1), p.2 + 2 / 3 * (c.2 - p.2)) (q.1 + 2 / 3 * (c.1 - q.1), q.2 + 2 / 3 * (c.2 - q.2)) q =
      quadAt p c q := by
  funext t
  simp only [cubicAt, quadAt, Prod.mk.injEq]
  constructor <;> ring

theorem flat_arc (rx ry rot fa fs : ℝ) (cp ep : Pt) (h : rx = 0 ∨ ry = 0) :
    arcCurves rx ry rot fa fs cp ep = .ok [.line false ep.1 ep.2] := by
  have hz : radius 0 = 0 := by simp [radius]
  have : radius rx = 0 ∨ radius ry = 0 := by
    rcases h with rfl | rfl
    · exact .inl hz
    · exact .inr hz
  simp [arcCurves, arcCentre, this]

theorem step_inv (st : State) (pen out : Pen) (prev : Prev) (b : Bool) (s : Seg ℝ) (h : Inv st pen out prev b)
    (ha : Allowed prev b s) (hk : s.kind ≠ .B) :
    ∃ n st', normalizeStep st s = .ok (n, st') ∧ out.draw n = (pen.step s).2 ∧ (∀ t ∈ n, Base t) ∧
      Inv st' (pen.step s).1 (out.run n) (prev.next s) false := by
  obtain ⟨start, cp, q, bearing, last⟩ := st
  obtain ⟨ocur, ostart, octrl, obear, omoved⟩ := out
  obtain ⟨h1, h2, h3, h4, h5, h6, h7, h8, h9⟩ := h
  simp only at h1 h2 h3 h4 h5
  subst h1 h2 h3 h4 h5
  have hm : ∀ x y, moveBy (someP pen.cur) pen.bearing x y = pen.at true x y := moveBy_eq pen
  have hp : ∀ p : Pt, (p.1, p.2) = p := fun p => rfl
  have key : ∀ n Q, normalizeStep ⟨someP pen.start, someP pen.cur, q, pen.bearing, last⟩ s =
        .ok (n, ⟨someP (pen.step s).1.start, someP (pen.step s).1.cur, Q, pen.bearing, some s.kind⟩) →
      Pen.draw ⟨pen.cur, pen.start, octrl, obear, omoved⟩ n = (pen.step s).2 → (∀ t ∈ n, Base t) →
      (Pen.run ⟨pen.cur, pen.start, octrl, obear, omoved⟩ n).cur = (pen.step s).1.cur →
      (Pen.run ⟨pen.cur, pen.start, octrl, obear, omoved⟩ n).start = (pen.step s).1.start →
      (Pen.run ⟨pen.cur, pen.start, octrl, obear, omoved⟩ n).moved = (pen.step s).1.moved →
      ((pen.step s).1.moved = true ↔ s.kind = .M) → (pen.step s).1.bearing = pen.bearing →
      (prev.next s = .line → (pen.step s).1.ctrl = .free ∧ Q = someP (pen.step s).1.cur ∧
        ¬ (s.kind = .C ∨ s.kind = .S) ∧ ¬ (s.kind = .Q ∨ s.kind = .T)) →
      (prev.next s = .cubic → Q = someP (pen.step s).1.smoothCubic ∧ (s.kind = .C ∨ s.kind = .S)) →
      (prev.next s = .quad → Q = someP (pen.step s).1.smoothQuad ∧ (s.kind = .Q ∨ s.kind = .T)) →
      ∃ n st', normalizeStep ⟨someP pen.start, someP pen.cur, q, pen.bearing, last⟩ s = .ok (n, st') ∧
        Pen.draw ⟨pen.cur, pen.start, octrl, obear, omoved⟩ n = (pen.step s).2 ∧ (∀ t ∈ n, Base t) ∧
        Inv st' (pen.step s).1 (Pen.run ⟨pen.cur, pen.start, octrl, obear, omoved⟩ n) (prev.next s) false := by
    intro n Q a1 a2 a3 a4 a5 a6 a7 a8 a9 a10 a11
    refine ⟨n, _, a1, a2, a3, rfl, rfl, a8.symm, a4, a5, fun _ => ⟨?_, a6⟩, fun _ => ?_, fun _ => ?_, fun _ => ?_⟩
    · simpa using a7
    · simpa using a9
    · simpa using a10
    · simpa using a11
  have hm' := moveBy_eq pen
  have hf : ∀ x y, pen.at false x y = (x, y) := fun x y => rfl
  have hz' : orZero (some pen.cur.1, some pen.cur.2) = pen.cur := rfl
  have hz : orZero (someP pen.cur) = pen.cur := rfl
  rcases s with ⟨r, rx, ry, rot, fa, fs, x, y⟩ | ⟨r, a⟩ | ⟨r, x1, y1, x2, y2, x, y⟩ | ⟨r, x⟩ | ⟨r, x, y⟩ | ⟨r, x, y⟩ |
    ⟨r, x1, y1, x, y⟩ | ⟨r, x2, y2, x, y⟩ | ⟨r, x, y⟩ | ⟨r, y⟩ | ⟨r⟩
  · have ha' : rx = 0 ∨ ry = 0 := ha
    apply key [.line false (pen.at r x y).1 (pen.at r x y).2] (someP (pen.at r x y)) <;> clear key
    · cases r <;> simp [normalizeStep, normalizeSeg, Seg.kind, Seg.rel, toAbs, hm', hz', normalizeAbs, flat_arc _ _ _ _ _ _ _ ha', lastEnd, endPt,
        movePoints, known, Pen.step, Pen.lineTo, ha', hf, someP]
    all_goals cases r <;> simp [Pen.draw, Pen.run, Pen.step, Pen.lineTo, ha', Base, Prev.next, Seg.kind, Pen.at]
  · exact absurd rfl hk
  · apply key [.curve false (pen.at r x1 y1).1 (pen.at r x1 y1).2 (pen.at r x2 y2).1 (pen.at r x2 y2).2 (pen.at r x y).1 (pen.at r x y).2]
      (someP (2 * (pen.at r x y).1 - (pen.at r x2 y2).1, 2 * (pen.at r x y).2 - (pen.at r x2 y2).2)) <;> clear key
    · cases r <;> simp [normalizeStep, normalizeSeg, Seg.kind, Seg.rel, toAbs, hm', hz', normalizeAbs, lastEnd, endPt,
        movePoints, known, Pen.step, hf, someP, nextControl, nextControlAbs, mirror]
    all_goals cases r <;> simp [Pen.draw, Pen.run, Pen.step, Pen.smoothCubic, Base, Prev.next, Seg.kind, Pen.at]
  · apply key [.line false (if r then pen.at true x 0 else (x, pen.cur.2)).1 (if r then pen.at true x 0 else (x, pen.cur.2)).2]
      (someP (if r then pen.at true x 0 else (x, pen.cur.2))) <;> clear key
    · cases r <;> simp [normalizeStep, normalizeSeg, Seg.kind, Seg.rel, toAbs, hm', hz', normalizeAbs, lastEnd, endPt,
        movePoints, known, Pen.step, Pen.lineTo, hf, someP]
    all_goals cases r <;> simp [Pen.draw, Pen.run, Pen.step, Pen.lineTo, Base, Prev.next, Seg.kind, Pen.at]
  · apply key [.line false (pen.at r x y).1 (pen.at r x y).2] (someP (pen.at r x y)) <;> clear key
    · cases r <;> simp [normalizeStep, normalizeSeg, Seg.kind, Seg.rel, toAbs, hm', hz', normalizeAbs, lastEnd, endPt,
        movePoints, known, Pen.step, Pen.lineTo, hf, someP]
    all_goals cases r <;> simp [Pen.draw, Pen.run, Pen.step, Pen.lineTo, Base, Prev.next, Seg.kind, Pen.at]
  · obtain ⟨b1, b2⟩ := h6 ha
    simp only at b1 b2
    subst b2
    apply key [.move false (pen.at r x y).1 (pen.at r x y).2] (someP (pen.at r x y)) <;> clear key
    · cases hmv : pen.moved
      · have : last ≠ some .M := by intro h; rw [← b1, hmv] at h; cases h
        cases r <;> simp [normalizeStep, normalizeSeg, Seg.kind, Seg.rel, toAbs, hm', hz', normalizeAbs, lastEnd, endPt,
          movePoints, known, Pen.step, Pen.lineTo, hf, someP, hmv, this]
      · have : last = some .M := by rw [← b1, hmv]
        cases r <;> simp [normalizeStep, normalizeSeg, Seg.kind, Seg.rel, toAbs, hm', hz', normalizeAbs, lastEnd, endPt,
          movePoints, known, Pen.step, Pen.lineTo, hf, someP, hmv, this]
    all_goals cases hmv : pen.moved <;> cases r <;> simp [Pen.draw, Pen.run, Pen.step, Pen.lineTo, Base, Prev.next, Seg.kind, Pen.at, hmv]
  · apply key [elevate pen.cur (pen.at r x1 y1).1 (pen.at r x1 y1).2 (pen.at r x y).1 (pen.at r x y).2]
      (someP (2 * (pen.at r x y).1 - (pen.at r x1 y1).1, 2 * (pen.at r x y).2 - (pen.at r x1 y1).2)) <;> clear key
    · cases r <;> simp [normalizeStep, normalizeSeg, Seg.kind, Seg.rel, toAbs, hm', hz', normalizeAbs, lastEnd, endPt, elevate,
        movePoints, known, Pen.step, hf, someP, nextControl, nextControlAbs, mirror]
    · have e := elevate_quad pen.cur (pen.at r x1 y1) (pen.at r x y)
      simp only [Pen.draw, Pen.step, elevate, List.append_nil, ← e]
      rfl
    all_goals cases r <;> simp [Pen.draw, Pen.run, Pen.step, Pen.smoothQuad, Base, Prev.next, Seg.kind, Pen.at, elevate]
  · have hq : q = someP pen.smoothCubic := by
      rcases ha.2 with h | h
      · obtain ⟨c1, c2, -⟩ := h7 ha.1 h
        rw [show pen.smoothCubic = pen.cur by simp [Pen.smoothCubic, c1]]
        exact c2
      · exact (h8 ha.1 h).1
    subst hq
    have hl : prev.next (.smooth r x2 y2 x y) = .cubic → (last = some .C ∨ last = some .S) := by
      intro hn
      simp only [Prev.next] at hn
      split at hn
      · exact (h8 ha.1 (by assumption)).2
      · cases hn
    by_cases hc : last = some .C ∨ last = some .S
    · apply key [.curve false pen.smoothCubic.1 pen.smoothCubic.2 (pen.at r x2 y2).1 (pen.at r x2 y2).2 (pen.at r x y).1 (pen.at r x y).2]
        (someP (2 * (pen.at r x y).1 - (pen.at r x2 y2).1, 2 * (pen.at r x y).2 - (pen.at r x2 y2).2)) <;> clear key
      · cases r <;> simp [normalizeStep, normalizeSeg, Seg.kind, Seg.rel, toAbs, hm', hz', normalizeAbs, lastEnd, endPt,
          movePoints, known, Pen.step, hf, someP, nextControl, nextControlAbs, mirror, hc]
      · cases r <;> simp [Pen.draw, Pen.step, Pen.at]
      · simp [Base]
      · cases r <;> simp [Pen.run, Pen.step, Pen.at]
      · cases r <;> simp [Pen.run, Pen.step, Pen.at]
      · cases r <;> simp [Pen.run, Pen.step, Pen.at]
      · simp [Pen.step, Seg.kind]
      · rfl
      · intro h; simp only [Prev.next] at h; split at h <;> cases h
      · exact fun _ => ⟨rfl, .inr rfl⟩
      · intro h; simp only [Prev.next] at h; split at h <;> cases h
    · apply key [.curve false pen.smoothCubic.1 pen.smoothCubic.2 (pen.at r x2 y2).1 (pen.at r x2 y2).2 (pen.at r x y).1 (pen.at r x y).2]
        (someP (2 * (pen.at r x y).1 - pen.cur.1, 2 * (pen.at r x y).2 - pen.cur.2)) <;> clear key
      · cases r <;> simp [normalizeStep, normalizeSeg, Seg.kind, Seg.rel, toAbs, hm', hz', normalizeAbs, lastEnd, endPt,
          movePoints, known, Pen.step, hf, someP, nextControl, nextControlAbs, mirror, hc]
      · cases r <;> simp [Pen.draw, Pen.step, Pen.at]
      · simp [Base]
      · cases r <;> simp [Pen.run, Pen.step, Pen.at]
      · cases r <;> simp [Pen.run, Pen.step, Pen.at]
      · cases r <;> simp [Pen.run, Pen.step, Pen.at]
      · simp [Pen.step, Seg.kind]
      · rfl
      · intro h; simp only [Prev.next] at h; split at h <;> cases h
      · exact fun h => absurd (hl h) hc
      · intro h; simp only [Prev.next] at h; split at h <;> cases h
  · have hq : q = someP pen.smoothQuad ∧ ((last = some .Q ∨ last = some .T) ∨
        (¬ (last = some .Q ∨ last = some .T) ∧ pen.smoothQuad = pen.cur)) := by
      rcases ha.2 with h | h
      · obtain ⟨c1, c2, -, c3⟩ := h7 ha.1 h
        have : pen.smoothQuad = pen.cur := by simp [Pen.smoothQuad, c1]
        rw [this]
        exact ⟨c2, .inr ⟨c3, rfl⟩⟩
      · exact ⟨(h9 ha.1 h).1, .inl (h9 ha.1 h).2⟩
    obtain ⟨rfl, hl⟩ := hq
    apply key [elevate pen.cur pen.smoothQuad.1 pen.smoothQuad.2 (pen.at r x y).1 (pen.at r x y).2]
      (someP (2 * (pen.at r x y).1 - pen.smoothQuad.1, 2 * (pen.at r x y).2 - pen.smoothQuad.2)) <;> clear key
    · rcases hl with hl | ⟨hl, he⟩
      · cases r <;> simp [normalizeStep, normalizeSeg, Seg.kind, Seg.rel, toAbs, hm', hz', normalizeAbs, lastEnd, endPt, elevate,
          movePoints, known, Pen.step, hf, someP, nextControl, nextControlAbs, mirror, hl]
      · cases r <;> simp [normalizeStep, normalizeSeg, Seg.kind, Seg.rel, toAbs, hm', hz', normalizeAbs, lastEnd, endPt, elevate,
          movePoints, known, Pen.step, hf, someP, nextControl, nextControlAbs, mirror, hl, he]
    · have e := elevate_quad pen.cur pen.smoothQuad (pen.at r x y)
      simp only [Pen.draw, Pen.step, elevate, List.append_nil, ← e]
      rfl
    all_goals cases r <;> simp [Pen.draw, Pen.run, Pen.step, Base, Prev.next, Seg.kind, Pen.at, elevate] <;> simp [Pen.smoothQuad]
  · apply key [.line false (if r then pen.at true 0 y else (pen.cur.1, y)).1 (if r then pen.at true 0 y else (pen.cur.1, y)).2]
      (someP (if r then pen.at true 0 y else (pen.cur.1, y))) <;> clear key
    · cases r <;> simp [normalizeStep, normalizeSeg, Seg.kind, Seg.rel, toAbs, hm', hz', normalizeAbs, lastEnd, endPt,
        movePoints, known, Pen.step, Pen.lineTo, hf, someP]
    all_goals cases r <;> simp [Pen.draw, Pen.run, Pen.step, Pen.lineTo, Base, Prev.next, Seg.kind, Pen.at]
  · apply key [.close false] (none, none) <;> clear key
    · cases r <;> simp [normalizeStep, normalizeSeg, Seg.kind, Seg.rel, toAbs, hm', hz', normalizeAbs, lastEnd, endPt,
        movePoints, known, Pen.step, Pen.lineTo, hf, someP]
    all_goals cases r <;> simp [Pen.draw, Pen.run, Pen.step, Pen.lineTo, Base, Prev.next, Seg.kind, Pen.at]

theorem normalizeFrom_inv (st : State) (pen out : Pen) (prev : Prev) (b : Bool) (l : List (Seg ℝ))
    (h : Inv st pen out prev b) (ha : AllAllowed prev b l) :
    ∃ n, normalizeFrom st l = .ok n ∧ out.draw n = pen.draw l ∧ ∀ t ∈ n, Base t := by
  induction l generalizing st pen out prev b with
  | nil => exact ⟨[], rfl, rfl, by simp⟩
  | cons s l ih =>
    obtain ⟨h1, h2⟩ := ha
    by_cases hk : s.kind = .B
    · obtain ⟨r, a, rfl⟩ : ∃ r a, s = .bearing r a := by
        cases s <;> simp [Seg.kind] at hk
        exact ⟨_, _, rfl⟩
      have hi : Inv { st with bearing := getBearing st.bearing (.bearing r a), last := some .B }
          (pen.step (.bearing r a)).1 out (prev.next (.bearing r a)) true := by
        refine ⟨h.cp, h.start, ?_, h.cur', h.start', by simp, by simp, by simp, by simp⟩
        cases r <;> simp [getBearing, Pen.step, h.bearing]
      obtain ⟨n, e1, e2, e3⟩ := ih _ _ _ _ _ hi (by simpa [Seg.kind] using h2)
      refine ⟨n, ?_, ?_, e3⟩
      · simp only [normalizeFrom, Seg.kind, if_true]; exact e1
      · rw [e2]; rfl
    · obtain ⟨n, st', e1, e2, e3, e4⟩ := step_inv st pen out prev b s h h1 hk
      obtain ⟨m, e5, e6, e7⟩ := ih _ _ _ _ _ e4 (by simpa [hk] using h2)
      refine ⟨n ++ m, ?_, ?_, ?_⟩
      · simp only [normalizeFrom, hk, if_false, e1, e5]
      · rw [draw_append, e2, e6]; rfl
      · intro t ht
        rcases List.mem_append.mp ht with ht | ht
        · exact e3 t ht
        · exact e7 t ht

/-- **C14** Path data that starts with a moveto, if each segment is of the kinds and in the
places described by `Allowed`, is normalised to absolute M, L, C and Z that draw exactly the
same.  Missing: arcs, and the orders of smooth curves and bearings that the code gets wrong. -/
theorem normalize_draw_partial (r : Bool) (x y : ℝ) (l : List (Seg ℝ)) (h : AllAllowed .line false l) :
    ∃ n, normalize (.move r x y :: l) = .ok n ∧ Pen.new.draw n = Pen.new.draw (.move r x y :: l) ∧ ∀ t ∈ n, Base t := by
  have e : toAbs (none, none) 0 (.move r x y) = .move false x y := by
    cases r <;> simp [toAbs, moveBy, turn, orZero]
  have e0 : normalizeStep {} (.move r x y) =
      .ok ([.move false x y], ⟨someP (x, y), someP (x, y), someP (x, y), 0, some .M⟩) := by
    cases r <;> simp [normalizeStep, normalizeSeg, Seg.kind, Seg.rel, e, normalizeAbs, lastEnd, endPt, movePoints, someP]
  have ep : Pen.new.step (.move r x y) = Pen.new.step (.move false x y) := by
    cases r <;> simp [Pen.step, Pen.new, Pen.at]
  have hi : Inv ⟨someP (x, y), someP (x, y), someP (x, y), 0, some .M⟩ (Pen.new.step (.move r x y)).1
      (Pen.new.step (.move false x y)).1 .line false := by
    rw [ep]
    refine ⟨rfl, rfl, rfl, rfl, rfl, fun _ => ⟨?_, rfl⟩, fun _ _ => ⟨rfl, rfl, by simp, by simp⟩, by simp, by simp⟩
    simp [Pen.step, Pen.new]
  obtain ⟨n, h1, h2, h3⟩ := normalizeFrom_inv _ _ _ _ _ l hi h
  refine ⟨.move false x y :: n, ?_, ?_, ?_⟩
  · simp only [normalize, normalizeFrom, Seg.kind, reduceCtorEq, if_false, e0, h1]; rfl
  · simp only [Pen.draw, h2, ep]
  · intro t ht
    rcases List.mem_cons.mp ht with rfl | ht
    · trivial
    · exact h3 t ht

theorem isclose_self (x : ℝ) : Length.isclose x x = true := by
  simp only [Length.isclose, sub_self, abs_zero, decide_eq_true_eq]
  exact le_max_of_le_right (by norm_num)

/-- **C14 fails** for an arc that ends where it starts: an `IndexError`. -/
theorem normalize_arc_violated (x y : ℝ) :
    normalize [.move false x y, .arc false 1 1 0 0 0 x y] = .error .indexError := by
  have hr : radius 1 ≠ 0 := by simp [radius, Length.isclose]; norm_num
  simp [normalize, normalizeFrom, Seg.kind, normalizeStep, normalizeSeg, Seg.rel, lastEnd, endPt, movePoints, known, toAbs,
    normalizeAbs, arcCurves, arcCentre, hr, orZero, isclose_self]

/-- **C14 fails** for a smooth curve after another one that follows a line: the control
point is mirrored wrongly. -/
theorem normalize_smooth_violated :
    ∃ n, normalize [.move false 0 0, .smooth false 1 1 2 0, .smooth false 3 1 4 0] = .ok n ∧
      Pen.new.draw n ≠ Pen.new.draw [.move false 0 0, .smooth false 1 1 2 0, .smooth false 3 1 4 0] := by
  refine ⟨[.move false 0 0, .curve false 0 0 1 1 2 0, .curve false 4 0 3 1 4 0], ?_, ?_⟩
  · simp [normalize, normalizeFrom, Seg.kind, normalizeStep, normalizeSeg, Seg.rel, lastEnd, endPt, movePoints, known, toAbs,
      normalizeAbs, nextControl, nextControlAbs, mirror]
    norm_num
  · intro h
    simp only [Pen.draw, Pen.step, Pen.new, Pen.at, Pen.smoothCubic, List.append_nil, List.cons_append, List.nil_append,
      Bool.false_eq_true, if_false, List.cons.injEq, Piece.draw.injEq, true_and, and_true] at h
    have := congrArg Prod.snd (congrFun h (1 / 2))
    norm_num [cubicAt] at this

/-- **C14 fails** for a smooth cubic curve after a quadratic one. -/
theorem normalize_mixed_violated :
    ∃ n, normalize [.move false 0 0, .quad false 1 1 2 0, .smooth false 3 1 4 0] = .ok n ∧
      Pen.new.draw n ≠ Pen.new.draw [.move false 0 0, .quad false 1 1 2 0, .smooth false 3 1 4 0] := by
  refine ⟨[.move false 0 0, elevate (0, 0) 1 1 2 0, .curve false 3 (-1) 3 1 4 0], ?_, ?_⟩
  · simp [normalize, normalizeFrom, Seg.kind, normalizeStep, normalizeSeg, Seg.rel, lastEnd, endPt, movePoints, known, toAbs,
      normalizeAbs, nextControl, nextControlAbs, mirror, elevate, orZero]
    norm_num
  · intro h
    simp only [Pen.draw, Pen.step, Pen.new, Pen.at, Pen.smoothCubic, List.append_nil, List.cons_append, List.nil_append, elevate,
      Bool.false_eq_true, if_false, List.cons.injEq, Piece.draw.injEq, true_and, and_true] at h
    have := congrArg Prod.snd (congrFun h.2 (1 / 2))
    norm_num [cubicAt] at this

/-! ### C15 -/

/-- The image of a piece under a map of the plane; there is none here for arcs. -/
inductive Image (g : Pt → Pt) : Piece → Piece → Prop
  | begin (p) : Image g (.begin p) (.begin (g p))
  | draw (f) : Image g (.draw f) (.draw fun t => g (f t))
  | close (f) : Image g (.close f) (.close fun t => g (f t))

/-- The affine map of the components of a matrix. -/
def affine (a b c d e f : ℝ) (p : Pt) : Pt := (a * p.1 + c * p.2 + e, b * p.1 + d * p.2 + f)

/-- The segments for which the transformation is right: arcs only with a zero radius;
relative segments only if both coordinates of the current point are known to the code
(`kx`, `ky`), absolute horizontal and vertical lines only if the other coordinate is;
moveto and smooth curves not directly after a bearing (`b`). -/
def Known (kx ky b : Bool) (s : Seg ℝ) : Prop :=
  (s.rel = true → s.kind ≠ .Z → s.kind ≠ .B → kx = true ∧ ky = true) ∧
  (match s with
    | .arc _ rx ry _ _ _ _ _ => rx = 0 ∨ ry = 0
    | .horiz false _ => ky = true
    | .vert false _ => kx = true
    | .move .. => b = false
    | .smooth .. => b = false
    | .tsmooth .. => b = false
    | _ => True)

/-- An absolute horizontal line makes the code forget the y-coordinate, a vertical one the
x-coordinate. -/
def knows (k : Bool × Bool) : Seg ℝ → Bool × Bool
  | .bearing .. => k
  | .horiz false _ => (true, false)
  | .vert false _ => (false, true)
  | _ => (true, true)

/-- All segments are among those where they stand. -/
def AllKnown : Bool × Bool → Bool → List (Seg ℝ) → Prop
  | _, _, [] => True
  | k, b, s :: l => Known k.1 k.2 b s ∧ AllKnown (knows k s) (decide (s.kind = .B)) l

def mapCtrl (g : Pt → Pt) : Ctrl → Ctrl
  | .free => .free
  | .cubic p => .cubic (g p)
  | .quad p => .quad (g p)

/-- `out` is the pen that draws the result; `g` the affine map. -/
structure PenImage (g : Pt → Pt) (pen out : Pen) (b : Bool) : Prop where
  cur : out.cur = g pen.cur
  start : out.start = g pen.start
  moved : b = false → out.moved = pen.moved
  ctrl : b = false → out.ctrl = mapCtrl g pen.ctrl

section
variable (m : Mat) (h2 : m.is2d = true)

/-- The map of a matrix. -/
noncomputable def mapOf (m : Mat) : Pt → Pt :=
  affine (Matrix.get m .a) (Matrix.get m .b) (Matrix.get m .c) (Matrix.get m .d) (Matrix.get m .e) (Matrix.get m .f)

include h2 in
theorem image_eq (x y : ℝ) : image m x y = .ok (mapOf m (x, y)) := by
  simp only [image, transformPoint_2d m h2, unpack, mapOf, affine]

theorem map_line (p q : Pt) : lineAt (mapOf m p) (mapOf m q) = fun t => mapOf m (lineAt p q t) := by
  funext t
  simp only [lineAt, mapOf, affine, Prod.mk.injEq]
  constructor <;> ring

theorem map_quad (p c q : Pt) : quadAt (mapOf m p) (mapOf m c) (mapOf m q) = fun t => mapOf m (quadAt p c q t) := by
  funext t
  simp only [quadAt, mapOf, affine, Prod.mk.injEq]
  constructor <;> ring

theorem map_cubic (p c d q : Pt) :
    cubicAt (mapOf m p) (mapOf m c) (mapOf m d) (mapOf m q) = fun t => mapOf m (cubicAt p c d q t) := by
  funext t
  simp only [cubicAt, mapOf, affine, Prod.mk.injEq]
  constructor <;> ring

theorem map_mirror (p q : Pt) :
    (2 * (mapOf m p).1 - (mapOf m q).1, 2 * (mapOf m p).2 - (mapOf m q).2) = mapOf m (2 * p.1 - q.1, 2 * p.2 - q.2) := by
  simp only [mapOf, affine, Prod.mk.injEq]
  constructor <;> ring

theorem map_smoothCubic (pen out : Pen) (h : PenImage (mapOf m) pen out false) : out.smoothCubic = mapOf m pen.smoothCubic := by
  unfold Pen.smoothCubic
  rw [h.ctrl rfl, h.cur]
  cases pen.ctrl <;> simp only [mapCtrl, map_mirror]

theorem map_smoothQuad (pen out : Pen) (h : PenImage (mapOf m) pen out false) : out.smoothQuad = mapOf m pen.smoothQuad := by
  unfold Pen.smoothQuad
  rw [h.ctrl rfl, h.cur]
  cases pen.ctrl <;> simp only [mapCtrl, map_mirror]

include h2 in
/-- An absolute segment. -/
theorem transformAbs_step (pen out : Pen) (b : Bool) (cp : Pt?) (kx ky : Bool) (s : Seg ℝ) (hr : s.rel = false)
    (hx : kx = true → cp.1 = some pen.cur.1) (hy : ky = true → cp.2 = some pen.cur.2) (hk : Known kx ky b s)
    (hb : s.kind ≠ .B) (hz : s.kind ≠ .Z) (h : PenImage (mapOf m) pen out b) :
    ∃ t, transformAbs cp m s = .ok t ∧ List.Forall₂ (Image (mapOf m)) (pen.step s).2 (out.step t).2 ∧
      PenImage (mapOf m) (pen.step s).1 (out.step t).1 false := by
  have hi := image_eq m h2
  have e1 := h.cur
  have e2 := h.start
  have lineCase : ∀ p : Pt, List.Forall₂ (Image (mapOf m)) [.draw (lineAt pen.cur p)] [.draw (lineAt out.cur (mapOf m p))] := by
    intro p
    rw [e1, map_line]
    exact .cons (.draw _) .nil
  obtain ⟨-, hk⟩ := hk
  rcases s with ⟨r, rx, ry, rot, fa, fs, x, y⟩ | ⟨r, a⟩ | ⟨r, x1, y1, x2, y2, x, y⟩ | ⟨r, x⟩ | ⟨r, x, y⟩ | ⟨r, x, y⟩ |
    ⟨r, x1, y1, x, y⟩ | ⟨r, x2, y2, x, y⟩ | ⟨r, x, y⟩ | ⟨r, y⟩ | ⟨r⟩ <;> simp only [Seg.rel] at hr <;> (try subst hr)
  · simp only at hk
    refine ⟨.arc false rx ry rot fa fs (mapOf m (x, y)).1 (mapOf m (x, y)).2, ?_, ?_, ?_⟩
    · simp only [transformAbs, hi, Except.map]
    · simp only [Pen.step, hk, if_true, Pen.lineTo, Pen.at, Bool.false_eq_true, if_false]; exact lineCase _
    · simp only [Pen.step, hk, if_true, Pen.lineTo, Pen.at, Bool.false_eq_true, if_false]; exact ⟨rfl, e2, fun _ => rfl, fun _ => rfl⟩
  · exact absurd rfl hb
  · refine ⟨_, by simp only [transformAbs, hi, Except.map, Except.bind]; rfl, ?_, ?_⟩
    · simp only [Pen.step, Pen.at, Bool.false_eq_true, if_false, e1, Prod.mk.eta, map_cubic]
      exact .cons (.draw _) .nil
    · simp only [Pen.step, Pen.at, Bool.false_eq_true, if_false]; exact ⟨rfl, e2, fun _ => rfl, fun _ => rfl⟩
  · have := hy hk
    refine ⟨_, by simp only [transformAbs, this, float, hi, Except.map, Except.bind]; rfl, ?_, ?_⟩
    · simp only [Pen.step, Pen.lineTo, Pen.at, Bool.false_eq_true, if_false]; exact lineCase _
    · simp only [Pen.step, Pen.lineTo, Pen.at, Bool.false_eq_true, if_false]; exact ⟨rfl, e2, fun _ => rfl, fun _ => rfl⟩
  · refine ⟨_, by simp only [transformAbs, hi, Except.map]; rfl, ?_, ?_⟩
    · simp only [Pen.step, Pen.lineTo, Pen.at, Bool.false_eq_true, if_false]; exact lineCase _
    · simp only [Pen.step, Pen.lineTo, Pen.at, Bool.false_eq_true, if_false]; exact ⟨rfl, e2, fun _ => rfl, fun _ => rfl⟩
  · simp only at hk
    subst hk
    refine ⟨.move false (mapOf m (x, y)).1 (mapOf m (x, y)).2, by simp only [transformAbs, hi, Except.map], ?_, ?_⟩
    · simp only [Pen.step, Pen.at, Bool.false_eq_true, if_false, h.moved rfl]
      cases pen.moved
      · exact .cons (.begin _) .nil
      · exact lineCase _
    · simp only [Pen.step, Pen.at, Bool.false_eq_true, if_false, h.moved rfl]
      cases pen.moved
      · exact ⟨rfl, rfl, fun _ => rfl, fun _ => rfl⟩
      · exact ⟨rfl, e2, fun _ => rfl, fun _ => rfl⟩
  · refine ⟨_, by simp only [transformAbs, hi, Except.map, Except.bind]; rfl, ?_, ?_⟩
    · simp only [Pen.step, Pen.at, Bool.false_eq_true, if_false, e1, Prod.mk.eta, map_quad]
      exact .cons (.draw _) .nil
    · simp only [Pen.step, Pen.at, Bool.false_eq_true, if_false]; exact ⟨rfl, e2, fun _ => rfl, fun _ => rfl⟩
  · simp only at hk
    subst hk
    refine ⟨_, by simp only [transformAbs, hi, Except.map, Except.bind]; rfl, ?_, ?_⟩
    · simp only [Pen.step, Pen.at, Bool.false_eq_true, if_false, map_smoothCubic m pen out h, e1, Prod.mk.eta, map_cubic]
      exact .cons (.draw _) .nil
    · simp only [Pen.step, Pen.at, Bool.false_eq_true, if_false]; exact ⟨rfl, e2, fun _ => rfl, fun _ => rfl⟩
  · simp only at hk
    subst hk
    refine ⟨_, by simp only [transformAbs, hi, Except.map, Except.bind]; rfl, ?_, ?_⟩
    · simp only [Pen.step, Pen.at, Bool.false_eq_true, if_false, map_smoothQuad m pen out h, e1, Prod.mk.eta, map_quad]
      exact .cons (.draw _) .nil
    · simp only [Pen.step, Pen.at, Bool.false_eq_true, if_false, map_smoothQuad m pen out h]; exact ⟨rfl, e2, fun _ => rfl, fun _ => rfl⟩
  · have := hx hk
    refine ⟨_, by simp only [transformAbs, this, float, hi, Except.map, Except.bind]; rfl, ?_, ?_⟩
    · simp only [Pen.step, Pen.lineTo, Pen.at, Bool.false_eq_true, if_false]; exact lineCase _
    · simp only [Pen.step, Pen.lineTo, Pen.at, Bool.false_eq_true, if_false]; exact ⟨rfl, e2, fun _ => rfl, fun _ => rfl⟩
  · exact absurd rfl hz

/-- The variables of the loop describe the pen. -/
structure TInv (g : Pt → Pt) (st : State) (pen out : Pen) (k : Bool × Bool) (b : Bool) : Prop where
  x : k.1 = true → st.cp.1 = some pen.cur.1
  y : k.2 = true → st.cp.2 = some pen.cur.2
  start : st.start = someP pen.start
  bearing : st.bearing = pen.bearing
  image : PenImage g pen out b
  moved : b = false → (pen.moved = true ↔ st.last = some .M)

theorem toAbs_absolute (cp : Pt?) (b : ℝ) (s : Seg ℝ) : (toAbs cp b s).rel = false := by
  rcases s with ⟨_ | _, _⟩ | ⟨_ | _, _⟩ | ⟨_ | _, _⟩ | ⟨_ | _, _⟩ | ⟨_ | _, _⟩ | ⟨_ | _, _⟩ | ⟨_ | _, _⟩ | ⟨_ | _, _⟩ |
    ⟨_ | _, _⟩ | ⟨_ | _, _⟩ | ⟨_ | _⟩ <;> rfl

theorem toAbs_id (cp : Pt?) (b : ℝ) (s : Seg ℝ) (h : s.rel = false) : toAbs cp b s = s := by
  rcases s with ⟨_ | _, _⟩ | ⟨_ | _, _⟩ | ⟨_ | _, _⟩ | ⟨_ | _, _⟩ | ⟨_ | _, _⟩ | ⟨_ | _, _⟩ | ⟨_ | _, _⟩ | ⟨_ | _, _⟩ |
    ⟨_ | _, _⟩ | ⟨_ | _, _⟩ | ⟨_ | _⟩ <;> first | rfl | cases h

theorem toAbs_kind (cp : Pt?) (b : ℝ) (s : Seg ℝ) (hb : s.kind ≠ .B) (hz : s.kind ≠ .Z) :
    (toAbs cp b s).kind ≠ .B ∧ (toAbs cp b s).kind ≠ .Z := by
  rcases s with ⟨_ | _, _⟩ | ⟨_ | _, _⟩ | ⟨_ | _, _⟩ | ⟨_ | _, _⟩ | ⟨_ | _, _⟩ | ⟨_ | _, _⟩ | ⟨_ | _, _⟩ | ⟨_ | _, _⟩ |
    ⟨_ | _, _⟩ | ⟨_ | _, _⟩ | ⟨_ | _⟩ <;> simp [Seg.kind] at hb hz <;> simp [toAbs, Seg.kind]

theorem known_toAbs (cp : Pt?) (c : ℝ) (kx ky b : Bool) (s : Seg ℝ) (h : Known kx ky b s) : Known kx ky b (toAbs cp c s) := by
  obtain ⟨-, h⟩ := h
  refine ⟨fun hr => by (rw [toAbs_absolute] at hr; cases hr), ?_⟩
  rcases s with ⟨_ | _, _⟩ | ⟨_ | _, _⟩ | ⟨_ | _, _⟩ | ⟨_ | _, _⟩ | ⟨_ | _, _⟩ | ⟨_ | _, _⟩ | ⟨_ | _, _⟩ | ⟨_ | _, _⟩ |
    ⟨_ | _, _⟩ | ⟨_ | _, _⟩ | ⟨_ | _⟩ <;> exact h

/-- The end point known to the code, and whether it takes it as the start. -/
theorem end_step (pen : Pen) (cp : Pt?) (k : Bool × Bool) (s : Seg ℝ) (hb : s.kind ≠ .B) (hz : s.kind ≠ .Z)
    (hr : s.rel = true → cp = someP pen.cur) :
    let e := endPt (toAbs cp pen.bearing s)
    ((knows k s).1 = true → e.1 = some (pen.step s).1.cur.1) ∧ ((knows k s).2 = true → e.2 = some (pen.step s).1.cur.2) ∧
    ((pen.step s).1.bearing = pen.bearing) ∧ ((pen.step s).1.moved = true ↔ s.kind = .M) ∧
    ((pen.step s).1.start = if s.kind = .M ∧ pen.moved = false then (pen.step s).1.cur else pen.start) ∧
    (s.kind = .M → e = someP (pen.step s).1.cur) := by
  have hm : ∀ x y, moveBy (someP pen.cur) pen.bearing x y = pen.at true x y := moveBy_eq pen
  have hf : ∀ x y, pen.at false x y = (x, y) := fun x y => rfl
  rcases s with ⟨_ | _, _⟩ | ⟨_ | _, _⟩ | ⟨_ | _, _⟩ | ⟨_ | _, _⟩ | ⟨_ | _, _⟩ | ⟨_ | _, _⟩ | ⟨_ | _, _⟩ | ⟨_ | _, _⟩ |
    ⟨_ | _, _⟩ | ⟨_ | _, _⟩ | ⟨_ | _⟩ <;> simp [Seg.kind] at hb hz <;>
    first
      | (have := hr rfl; subst this; simp only [toAbs, hm, Pen.step, Pen.lineTo, endPt, knows, Seg.kind]; (try split) <;> simp_all [someP])
      | (simp only [toAbs, Pen.step, Pen.lineTo, hf, endPt, knows, Seg.kind]; (try split) <;> simp_all [someP])

include h2 in
theorem transformFrom_inv (st : State) (pen out : Pen) (k : Bool × Bool) (b : Bool) (l : List (Seg ℝ))
    (h : TInv (mapOf m) st pen out k b) (ha : AllKnown k b l) :
    ∃ n, transformFrom m st l = .ok n ∧ List.Forall₂ (Image (mapOf m)) (pen.draw l) (out.draw n) := by
  induction l generalizing st pen out k b with
  | nil => exact ⟨[], rfl, .nil⟩
  | cons s l ih =>
    obtain ⟨h1, h3⟩ := ha
    by_cases hk : s.kind = .B
    · obtain ⟨r, a, rfl⟩ : ∃ r a, s = .bearing r a := by
        cases s <;> simp [Seg.kind] at hk
        exact ⟨_, _, rfl⟩
      have hi : TInv (mapOf m) { st with bearing := getBearing st.bearing (.bearing r a), last := some .B }
          (pen.step (.bearing r a)).1 out (knows k (.bearing r a)) true := by
        refine ⟨h.x, h.y, h.start, ?_, ⟨h.image.cur, h.image.start, by simp, by simp⟩, by simp⟩
        cases r <;> simp [getBearing, Pen.step, h.bearing]
      obtain ⟨n, e1, e2⟩ := ih _ _ _ _ _ hi (by simpa [Seg.kind] using h3)
      exact ⟨n, by simp only [transformFrom, Seg.kind, if_true]; exact e1, e2⟩
    · by_cases hz : s.kind = .Z
      · obtain ⟨r, rfl⟩ : ∃ r, s = .close r := by
          cases s <;> simp [Seg.kind] at hz
          exact ⟨_, rfl⟩
        have hi : TInv (mapOf m) { st with cp := if known st.start then st.start else st.cp, last := some .Z }
            (pen.step (.close r)).1 (out.step (.close false)).1 (knows k (.close r)) false := by
          refine ⟨fun _ => ?_, fun _ => ?_, h.start, h.bearing, ⟨h.image.start, h.image.start, fun _ => rfl, fun _ => rfl⟩, fun _ => ?_⟩
          · simp [h.start, known, someP, Pen.step]
          · simp [h.start, known, someP, Pen.step]
          · simp [Pen.step]
        obtain ⟨n, e1, e2⟩ := ih _ _ _ _ _ hi (by simpa [Seg.kind] using h3)
        refine ⟨.close false :: n, ?_, ?_⟩
        · simp only [transformFrom, Seg.kind, reduceCtorEq, if_false, if_true, e1, Except.map]
        · simp only [Pen.draw]
          have hp : (out.step (.close false)).2 = [.close fun t => mapOf m (lineAt pen.cur pen.start t)] := by
            simp only [Pen.step, h.image.cur, h.image.start, map_line]
          rw [hp]
          exact .cons (.close _) e2
      · have hcp : s.rel = true → st.cp = someP pen.cur := by
          intro hr
          obtain ⟨a1, a2⟩ := h1.1 hr hz hk
          exact Prod.ext (h.x a1) (h.y a2)
        have hstep : pen.step (toAbs st.cp pen.bearing s) = pen.step s := by
          cases hr : s.rel with
          | false => rw [toAbs_id _ _ _ hr]
          | true => rw [hcp hr]; exact toAbs_step pen s
        obtain ⟨k1, k2⟩ := toAbs_kind st.cp pen.bearing s hk hz
        obtain ⟨t, t1, t2, t3⟩ := transformAbs_step m h2 pen out b st.cp k.1 k.2 (toAbs st.cp pen.bearing s)
          (toAbs_absolute ..) h.x h.y (known_toAbs _ _ _ _ _ _ h1) k1 k2 h.image
        rw [hstep] at t2 t3
        obtain ⟨s1, s2, s3, s4, s5, s6⟩ := end_step pen st.cp k s hk hz hcp
        have hi : TInv (mapOf m) { st with
              start := (movePoints st s.kind (endPt (toAbs st.cp pen.bearing s))).1,
              cp := endPt (toAbs st.cp pen.bearing s), last := some s.kind }
            (pen.step s).1 (out.step t).1 (knows k s) false := by
          refine ⟨s1, s2, ?_, by rw [s3]; exact h.bearing, t3, fun _ => by simpa using s4⟩
          simp only [movePoints, hz, if_false, h.start, known, someP, Option.isSome_some, Bool.and_self, Bool.true_eq_false, or_false]
          rw [s5]
          by_cases hM : s.kind = .M
          · have hb' : b = false := by
              cases s <;> simp [Seg.kind] at hM
              exact h1.2
            have := h.moved hb'
            by_cases hl : st.last = some .M
            · simp [hl, this.mpr hl]
            · have hv : pen.moved = false := by
                cases hv : pen.moved
                · rfl
                · exact absurd (this.mp hv) hl
              simp only [hM, hl, hv, ne_eq, not_false_eq_true, and_self, if_true]
              exact s6 hM
          · simp [hM]
        obtain ⟨n, e1, e2⟩ := ih _ _ _ _ _ hi (by simpa [hk] using h3)
        refine ⟨t :: n, ?_, List.rel_append t2 e2⟩
        rw [← h.bearing] at t1 e1
        simp only [transformFrom, hk, hz, if_false, transformSeg, t1, e1, Except.map]

include h2 in
/-- **C15** Path data that starts with a moveto, if each segment is among those described
by `Known`, is transformed by a matrix of the plane to path data whose drawing is the
image, piece by piece, under the affine map of the matrix.  Missing: arcs, and the orders
that the code gets wrong. -/
theorem transform_draw_partial (r : Bool) (x y : ℝ) (l : List (Seg ℝ)) (h : AllKnown (true, true) false l) :
    ∃ n, transform m (.move r x y :: l) = .ok n ∧
      List.Forall₂ (Image (affine (Matrix.get m .a) (Matrix.get m .b) (Matrix.get m .c) (Matrix.get m .d)
        (Matrix.get m .e) (Matrix.get m .f))) (Pen.new.draw (.move r x y :: l)) (Pen.new.draw n) := by
  have e : toAbs (none, none) 0 (.move r x y) = .move false x y := by
    cases r <;> simp [toAbs, moveBy, turn, orZero]
  have ep : Pen.new.step (.move r x y) = Pen.new.step (.move false x y) := by
    cases r <;> simp [Pen.step, Pen.new, Pen.at]
  have ht : transformSeg (none, none) 0 m (.move r x y) = .ok (.move false (mapOf m (x, y)).1 (mapOf m (x, y)).2) := by
    simp only [transformSeg, Seg.kind, reduceCtorEq, if_false, e, transformAbs, image_eq m h2, Except.map]
  have hi : TInv (mapOf m) ⟨someP (x, y), someP (x, y), (none, none), 0, some .M⟩ (Pen.new.step (.move r x y)).1
      (Pen.new.step (.move false (mapOf m (x, y)).1 (mapOf m (x, y)).2)).1 (true, true) false := by
    rw [ep]
    refine ⟨fun _ => rfl, fun _ => rfl, rfl, rfl, ⟨rfl, rfl, fun _ => rfl, fun _ => rfl⟩, fun _ => ?_⟩
    simp [Pen.step, Pen.new]
  obtain ⟨n, h1, h2'⟩ := transformFrom_inv m h2 _ _ _ _ _ l hi h
  refine ⟨.move false (mapOf m (x, y)).1 (mapOf m (x, y)).2 :: n, ?_, ?_⟩
  · simp only [transform, transformFrom, Seg.kind, reduceCtorEq, if_false, ht, e, endPt, movePoints, ne_eq, not_false_eq_true,
      and_self, true_or, if_true]
    simp only [someP] at h1
    rw [h1]; rfl
  · simp only [Pen.draw]
    refine List.rel_append ?_ h2'
    rw [ep]
    exact .cons (.begin _) .nil

end

/-- **C15 fails** after an absolute horizontal line: the next relative segment is placed at
the height 0. -/
theorem transform_horizontal_violated :
    ∃ n, transform newMatrix [.move false 0 5, .horiz false 1, .line true 1 0] = .ok n ∧
      n = [.move false 0 5, .line false 1 5, .line false 2 0] := by
  have hi : ∀ x y, image newMatrix x y = .ok (x, y) := by
    intro x y
    rw [image_eq newMatrix rfl]
    simp [mapOf, affine, newMatrix, matrix2d, Matrix.get, row, col]
  refine ⟨_, ?_, rfl⟩
  simp [transform, transformFrom, Seg.kind, transformSeg, toAbs, transformAbs, hi, Except.map, Except.bind, float, endPt, movePoints,
    known, moveBy, turn, orZero]
  norm_num

/-- **C15 fails** with a `TypeError` for two absolute horizontal lines in a row. -/
theorem transform_horizontal_error :
    transform newMatrix [.move false 0 5, .horiz false 1, .horiz false 2] = .error .typeError := by
  have hi : ∀ x y, image newMatrix x y = .ok (x, y) := by
    intro x y
    rw [image_eq newMatrix rfl]
    simp [mapOf, affine, newMatrix, matrix2d, Matrix.get, row, col]
  simp [transform, transformFrom, Seg.kind, transformSeg, toAbs, transformAbs, hi, Except.map, Except.bind, float, endPt, movePoints,
    known, moveBy, turn, orZero]

/-- **C15 fails** for arcs: the radii stay as they are when the path is enlarged. -/
theorem transform_arc_violated :
    transform ⟨matrix2d 2 0 0 2 0 0, true⟩ [.move false 0 0, .arc false 5 5 0 0 1 3 0] =
      .ok [.move false 0 0, .arc false 5 5 0 0 1 6 0] := by
  have hi : ∀ x y, image ⟨matrix2d 2 0 0 2 0 0, true⟩ x y = .ok (2 * x, 2 * y) := by
    intro x y
    rw [image_eq ⟨matrix2d 2 0 0 2 0 0, true⟩ rfl]
    simp [mapOf, affine, matrix2d, Matrix.get, row, col]
  simp [transform, transformFrom, Seg.kind, transformSeg, toAbs, transformAbs, hi, Except.map, Except.bind, float, endPt, movePoints,
    known]
  norm_num

/-- Non-trivial instances. -/
example : AllAllowed .line false [.horiz true 3, .smooth false 1 1 2 2, .bearing true 30, .curve true 1 1 2 2 3 3, .smooth true 1 0 2 0,
    .quad true 1 1 2 2, .tsmooth true 4 4, .arc true 0 3 0 1 1 5 5, .tsmooth false 1 1, .close true, .move true 1 1] := by
  simp [AllAllowed, Allowed, Prev.next, Seg.kind]

example : AllKnown (true, true) false [.horiz true 3, .horiz false 3, .vert false 7, .smooth false 1 1 2 2, .bearing true 30,
    .curve true 1 1 2 2 3 3, .smooth true 1 0 2 0, .close true, .move true 1 1, .tsmooth true 1 1] := by
  simp [AllKnown, Known, knows, Seg.kind, Seg.rel]

/-- **C15** (single segments).  A closing segment transformed by itself stays what
it is; a bearing cannot be transformed. -/
theorem transformSeg_special (cp : Pt?) (b : ℝ) (m : Mat) (r : Bool) (a : ℝ) :
    transformSeg cp b m (.close r) = .ok (.close r) ∧
    transformSeg cp b m (.bearing r a) = .error .notImplemented := by
  constructor <;> simp [transformSeg, Seg.kind]

end SvgPy.PathGeom
