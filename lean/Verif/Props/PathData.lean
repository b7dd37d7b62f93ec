import Verif.Model.PathData
import Verif.Props.PathText
import Verif.Props.PathGeom
import Verif.Props.PathLength
import Verif.Props.Rect

/-!
C132.  Path and text elements give the path data of what they draw.
-/

set_option linter.unusedSimpArgs false
set_option linter.unusedVariables false

namespace SvgPy.PathData

open SvgPy.Path SvgPy.PathGeom SvgPy.PathText SvgPy.PathLength SvgPy.Rect
  SvgPy.PyStr SvgPy.NumText SvgPy.Formatter

/-! ## Path elements -/

/-- Two segments are the same command with the same numbers. -/
def Same (s : Seg ℚ) (t : Seg ℝ) : Prop :=
  s.kind = t.kind ∧ s.rel = t.rel ∧ List.Forall₂ (fun (a : ℚ) (b : ℝ) => (a : ℝ) = b) s.values t.values

/-- The attribute names no path: it is missing, empty, or `none`. -/
def NoPath (d : Option Str) : Prop := d = none ∨ d = some [] ∨ d = some ['n', 'o', 'n', 'e']

theorem same_toReal (s : Seg ℚ) : Same s (toReal s) := by
  cases s <;> exact ⟨rfl, rfl, by simp [toReal, Seg.values]⟩

theorem same_list (l : List (Seg ℚ)) : List.Forall₂ Same l (l.map toReal) := by
  induction l with
  | nil => exact .nil
  | cons s l ih => exact .cons (same_toReal s) ih

theorem geometry_none {d : Option Str} (h : NoPath d) : geometry d = none := by
  rcases h with rfl | rfl | rfl <;> rfl

theorem geometry_some {t : Str} (h : ¬ NoPath (some t)) : geometry (some t) = some t := by
  unfold geometry
  rw [if_neg]
  · rfl
  · rintro (h' | h')
    · exact h (.inr (.inr (by rw [show t = _ from h']; rfl)))
    · exact h (.inr (.inl (by rw [show t = [] from List.length_eq_zero_iff.1 h'])))

/-- **C132, empty paths.**  A path element without a path has no segments and
the length 0. -/
theorem empty_spec (d : Option Str) (s : Settings) (h : NoPath d) :
    getPathData d s = .ok [] ∧ getTotalLength d = .ok 0 := by
  constructor
  · simp [getPathData, geometry_none h]
  · simp [getTotalLength, getPathData, geometry_none h]

example : NoPath (some "none".toList) := .inr (.inr rfl)

/-- **C132, paths.**  A path element whose attribute is written in the grammar
of paths, with white space before it, gives exactly the segments written. -/
theorem written_spec_partial (a text : Str) (segs : List (Seg ℚ)) (ha : Blank a)
    (h : PathWritten text segs) (s : Settings) (hs : s = .absent ∨ s = .given false) :
    ∃ l, getPathData (some (a ++ text)) s = .ok l ∧ List.Forall₂ Same segs l := by
  obtain ⟨c, r, hc, hn⟩ := pathWritten_head text segs h
  refine ⟨segs.map toReal, ?_, same_list segs⟩
  have hne : ¬ NoPath (some (a ++ text)) := by
    have hp : (∃ x ∈ a ++ text, notCmd x = false) := ⟨c, by simp [hc], hn⟩
    rintro (e | e | e)
    · cases e
    · obtain ⟨x, hx, _⟩ := hp
      rw [Option.some.inj e] at hx; cases hx
    · obtain ⟨x, hx, hx'⟩ := hp
      rw [Option.some.inj e] at hx
      simp only [List.mem_cons, List.not_mem_nil, or_false] at hx
      rcases hx with rfl | rfl | rfl | rfl <;> revert hx' <;> decide
  simp only [getPathData, geometry_some hne, parse_written_partial text segs h a ha]
  rcases hs with rfl | rfl <;> rfl

theorem parse_quiet (t : Str) (h : NoPath (some t)) : parse t = [] := by
  rcases h with e | e | e
  · cases e
  · rw [Option.some.inj e]; rfl
  · rw [Option.some.inj e]; decide +kernel

/-- **C132, assigned.**  Path data assigned to a path element are read back
with their numbers rounded to the precision. -/
theorem assigned_partial (p : Nat) (hp : p ≠ 0) (l : List (Seg ℚ)) (h : NoDoubleClose l) :
    ∃ m, getPathData (setPathData p (some l)) .absent = .ok (m.map toReal) ∧
      List.Forall₂ (SegRounded p) l m := by
  have hr := roundtrip_rounded_partial p hp l h
  refine ⟨_, ?_, hr⟩
  by_cases hl : l = []
  · subst hl
    have : parse (pathText p []) = [] := List.forall₂_nil_left_iff.1 hr
    simp only [this]
    rfl
  · have hl' : l.length ≠ 0 := fun e => hl (List.length_eq_zero_iff.1 e)
    have hne : ¬ NoPath (some (pathText p l)) := fun hn => by
      rw [parse_quiet _ hn] at hr
      exact hl (List.forall₂_nil_right_iff.1 hr)
    simp only [setPathData, if_neg hl', getPathData, geometry_some hne, apply]

/-- **C132, assigned.**  If the numbers need no rounding they come back. -/
theorem assigned_exact_partial (p : Nat) (hp : p ≠ 0) (l : List (Seg ℚ)) (h : NoDoubleClose l)
    (hr : ∀ s ∈ l, ∀ v ∈ numbers s, Rounded p v v) :
    ∃ m, getPathData (setPathData p (some l)) .absent = .ok m ∧ List.Forall₂ Same l m := by
  have e := roundtrip_exact_partial p hp l h hr
  refine ⟨l.map toReal, ?_, same_list l⟩
  by_cases hl : l = []
  · subst hl; rfl
  · have hl' : l.length ≠ 0 := fun e => hl (List.length_eq_zero_iff.1 e)
    have hne : ¬ NoPath (some (pathText p l)) := fun hn => by
      rw [parse_quiet _ hn] at e; exact hl e.symm
    simp only [setPathData, if_neg hl', getPathData, geometry_some hne, apply, e]

example : NoDoubleClose [.move false 1 2, .line true 3 4, .close false] := by
  simp [NoDoubleClose, Seg.kind]

/-- **C132, assigned.**  Nothing assigned is no path. -/
theorem assigned_nothing (p : Nat) (l : Option (List (Seg ℚ))) (h : l = none ∨ l = some []) :
    NoPath (setPathData p l) := by
  rcases h with rfl | rfl <;> exact .inr (.inr rfl)

example : (some [] : Option (List (Seg ℚ))) = none ∨
    (some [] : Option (List (Seg ℚ))) = some [] := .inr rfl

/-- **C132, normalised.**  When normalised path data are asked for, they are
absolute moves, lines, cubic curves and closings that draw what the path
draws. -/
theorem normalized_partial (d : Option Str) (r : Bool) (x y : ℝ) (l : List (Seg ℝ))
    (hd : getPathData d .absent = .ok (.move r x y :: l)) (h : AllAllowed .line false l) :
    ∃ n, getPathData d (.given true) = .ok n ∧ (∀ t ∈ n, Base t) ∧
      Pen.new.draw n = Pen.new.draw (.move r x y :: l) := by
  obtain ⟨n, h1, h2, h3⟩ := normalize_draw_partial r x y l h
  refine ⟨n, ?_, h3, h2⟩
  unfold getPathData at hd ⊢
  cases hg : geometry d with
  | none => rw [hg] at hd; simp at hd
  | some t =>
    rw [hg] at hd
    simp only [apply, Except.ok.injEq] at hd ⊢
    rw [hd, h1]

theorem sample_parse : PathText.parse "M1,2 h3".toList = [.move false 1 2, .horiz true 3] := by
  decide +kernel

theorem sample_path : getPathData (some "M1,2 h3".toList) .absent =
    .ok [.move false 1 2, .horiz true 3] := by
  have : ¬ NoPath (some "M1,2 h3".toList) := by
    rintro (e | e | e)
    · cases e
    · exact absurd (Option.some.inj e) (by decide)
    · exact absurd (Option.some.inj e) (by decide)
  simp only [getPathData, geometry_some this, apply, sample_parse]
  simp [toReal]

example : AllAllowed .line false [.horiz true 3] := by simp [AllAllowed, Allowed]

/-- **C132, length.**  The length of a path element is the length of what its
path data draw. -/
theorem length_partial (d : Option Str) (r : Bool) (x y : ℝ) (l : List (Seg ℝ))
    (hd : getPathData d .absent = .ok (.move r x y :: l)) (h : AllSmooth .line false l)
    (hc : ∀ p ∈ Pen.new.draw (.move r x y :: l), ClearArc p) :
    ∃ len, getTotalLength d = .ok len ∧ DrawnLength (Pen.new.draw (.move r x y :: l)) len := by
  obtain ⟨len, h1, h2⟩ := totalLength_partial r x y l h hc
  refine ⟨len, ?_, h2⟩
  simp only [getTotalLength, hd, List.length_cons, Nat.add_one_ne_zero, if_false, h1]

example : AllSmooth .line false [.horiz true 3] ∧
    ∀ p ∈ Pen.new.draw [.move false 1 2, .horiz true 3], ClearArc p := by
  constructor
  · simp [AllSmooth, Smooth]
  · intro p hp
    simp [Pen.draw, Pen.step, Pen.new, Pen.at, Pen.lineTo] at hp
    rcases hp with rfl | rfl <;> simp [ClearArc]

/-- **C132, settings.**  Settings of another class are refused when there is a
path. -/
theorem settings_refused_partial (d : Option Str) (h : ¬ NoPath d) :
    getPathData d .other = .error .typeError := by
  cases d with
  | none => exact absurd (.inl rfl) h
  | some t => simp only [getPathData, geometry_some h, apply]

example : ¬ NoPath (some ['M']) := by
  rintro (e | e | e)
  · cases e
  · exact absurd (Option.some.inj e) (by decide)
  · exact absurd (Option.some.inj e) (by decide)

/-- **C132 violated: settings of an empty path.**  They are not looked at. -/
theorem settings_violated (d : Option Str) (h : NoPath d) :
    getPathData d .other = .ok [] := (empty_spec d _ h).1

/-! ## Text elements -/

/-- The pieces of text that stand in one of the elements `inside`. -/
def Own (inside : List Nat) (ps : List Piece) : List Piece :=
  ps.filter (fun p => decide (p.element ∈ inside))

/-- A box is right for pieces: it is the smallest rectangle around their
boxes. -/
def BoxOf (ps : List Piece) (r : DRect ℝ) : Prop :=
  IsBoundingBox {q | ∃ p ∈ ps, Mem q p.box} r

theorem textBox_eq (render : Nat → List Piece) (self : Chain) :
    textBox render self = uniteAll ((charsInfo render self).map (·.box)) := by
  unfold textBox uniteAll
  simp only [List.foldl_map]
  split
  · next h => rw [List.length_eq_zero_iff.1 h]; rfl
  · rfl

theorem foldl_path (ps : List Piece) (acc : List (Seg ℝ)) :
    ps.foldl (fun l i => l ++ i.path) acc = acc ++ (ps.map (·.path)).flatten := by
  induction ps generalizing acc with
  | nil => simp
  | cons p ps ih => simp [ih, List.append_assoc]

/-- **C132, text.**  The bounding box of a `<text>` is the smallest rectangle
around the boxes of all its characters, as long as none of these is a line. -/
theorem text_box_partial (render : Nat → List Piece) (n : Nat) (around : Chain)
    (h : ∀ p ∈ render n, AreaOrPoint p.box) :
    BoxOf (render n) (textBox render ((n, true) :: around)) := by
  have e : charsInfo render ((n, true) :: around) = render n := rfl
  rw [textBox_eq, e]
  have := uniteAll_isBoundingBox_partial ((render n).map (·.box)) (by
    intro r hr
    obtain ⟨p, hp, rfl⟩ := List.mem_map.1 hr
    exact h p hp)
  unfold BoxOf
  have e2 : {q : ℝ × ℝ | ∃ p ∈ render n, Mem q p.box}
      = {p | ∃ r ∈ (render n).map (·.box), Mem p r} := by
    ext q; simp
  rw [e2]; exact this

/-- **C132, text.**  The path data of a `<text>` are those of its characters,
in order. -/
theorem text_path (render : Nat → List Piece) (n : Nat) (around : Chain) :
    textPathData render ((n, true) :: around) .absent =
      .ok ((render n).flatMap (·.path)) := by
  have e : charsInfo render ((n, true) :: around) = render n := rfl
  simp only [textPathData, e, foldl_path, apply, List.nil_append, ← List.flatMap_def]
  split
  · next h => rw [List.length_eq_zero_iff.1 h]; rfl
  · rfl

/-- **C132, text, normalised.** -/
theorem text_normalized_partial (render : Nat → List Piece) (n : Nat) (around : Chain)
    (r : Bool) (x y : ℝ) (l : List (Seg ℝ))
    (hd : (render n).flatMap (·.path) = .move r x y :: l) (h : AllAllowed .line false l) :
    ∃ m, textPathData render ((n, true) :: around) (.given true) = .ok m ∧ (∀ t ∈ m, Base t) ∧
      Pen.new.draw m = Pen.new.draw ((render n).flatMap (·.path)) := by
  obtain ⟨m, h1, h2, h3⟩ := normalize_draw_partial r x y l h
  have e : charsInfo render ((n, true) :: around) = render n := rfl
  refine ⟨m, ?_, h3, by rw [hd]; exact h2⟩
  simp only [textPathData, e, foldl_path, apply, List.nil_append, ← List.flatMap_def]
  rw [if_neg, hd, h1]
  intro h0
  rw [List.length_eq_zero_iff.1 h0] at hd
  cases hd

example : [(⟨1, [.move false 0 0, .line false 1 1], ⟨some 0, some 0, 1, 1⟩⟩ : Piece)].flatMap
    (·.path) = .move false 0 0 :: [.line false 1 1] ∧
    AllAllowed .line false [.line false 1 1] := ⟨rfl, by simp [AllAllowed, Allowed]⟩

/-- **C132, elsewhere.**  A text content element that is in no `<text>` has no
box and draws nothing. -/
theorem outside_spec (render : Nat → List Piece) (self : Chain) (s : Settings)
    (h : ∀ e ∈ self, e.2 = false) :
    textBox render self = DRect.new ∧ textPathData render self s = .ok [] := by
  have hn : nearest self = none := by
    induction self with
    | nil => rfl
    | cons e rest ih =>
      obtain ⟨n, b⟩ := e
      have hb : b = false := h (n, b) List.mem_cons_self
      subst hb
      simpa [nearest] using ih (fun x hx => h x (List.mem_cons_of_mem _ hx))
  have hc : charsInfo render self = [] := by simp [charsInfo, hn]
  simp [textBox, textPathData, hc]

example : ∀ e ∈ ([(1, false), (2, false)] : Chain), e.2 = false := by simp

/-- Inside a `<text>` every element gives the box and the path data of the
whole `<text>`. -/
theorem inside_eq (render : Nat → List Piece) (inner : Chain) (n : Nat) (around : Chain)
    (h : ∀ e ∈ inner, e.2 = false) (s : Settings) :
    textBox render (inner ++ (n, true) :: around) = textBox render ((n, true) :: around) ∧
    textPathData render (inner ++ (n, true) :: around) s =
      textPathData render ((n, true) :: around) s := by
  have hn : nearest (inner ++ (n, true) :: around) = some n := by
    induction inner with
    | nil => rfl
    | cons e rest ih =>
      obtain ⟨m, b⟩ := e
      have hb : b = false := h (m, b) List.mem_cons_self
      subst hb
      simpa [nearest] using ih (fun x hx => h x (List.mem_cons_of_mem _ hx))
  have hc : charsInfo render (inner ++ (n, true) :: around)
      = charsInfo render ((n, true) :: around) := by
    simp only [charsInfo, hn, nearest, if_true]
  simp [textBox, textPathData, hc]

/-- Text 1 with characters of its own at the origin, and a span 2 in it with
characters further right. -/
noncomputable def sampleRender : Nat → List Piece := fun _ =>
  [⟨1, [.move false 0 0, .line false 1 1], ⟨some 0, some 0, 1, 1⟩⟩,
   ⟨2, [.move false 5 0, .line false 6 1], ⟨some 5, some 0, 1, 1⟩⟩]

example : ∀ p ∈ sampleRender 1, AreaOrPoint p.box := by
  intro p hp
  simp only [sampleRender, List.mem_cons, List.not_mem_nil, or_false] at hp
  rcases hp with rfl | rfl <;> exact .inl ⟨by norm_num, by norm_num⟩

/-- **C132 violated: a span.**  The box of a `<tspan>` is not that of its own
characters but that of the whole text around it, and so are its path data. -/
theorem span_violated :
    ¬ BoxOf (Own [2] (sampleRender 1)) (textBox sampleRender [(2, false), (1, true)]) ∧
    textPathData sampleRender [(2, false), (1, true)] .absent ≠
      .ok ((Own [2] (sampleRender 1)).flatMap (·.path)) := by
  have hb : ∀ p ∈ sampleRender 1, AreaOrPoint p.box := by
    intro p hp
    simp only [sampleRender, List.mem_cons, List.not_mem_nil, or_false] at hp
    rcases hp with rfl | rfl <;> exact .inl ⟨by norm_num, by norm_num⟩
  have hi := inside_eq sampleRender [(2, false)] 1 [] (by simp) .absent
  have ho : Own [2] (sampleRender 1) =
      [⟨2, [.move false 5 0, .line false 6 1], ⟨some 5, some 0, 1, 1⟩⟩] := by
    simp [Own, sampleRender]
  constructor
  · intro h
    have hw := text_box_partial sampleRender 1 [] hb
    have h0 : Mem ((0 : ℝ), (0 : ℝ)) (textBox sampleRender [(2, false), (1, true)]) := by
      rw [show [((2 : Nat), false), (1, true)] = [(2, false)] ++ (1, true) :: [] from rfl, hi.1]
      refine hw.1 (0, 0) ⟨⟨1, [.move false 0 0, .line false 1 1], ⟨some 0, some 0, 1, 1⟩⟩,
        by simp [sampleRender], 0, 0, rfl, rfl, ?_⟩
      norm_num
    have := (h.2 5 6 0 1 (by
      rintro q ⟨p, hp, x, y, hx, hy, hq⟩
      rw [ho] at hp
      simp only [List.mem_cons, List.not_mem_nil, or_false] at hp
      subst hp
      simp only [Option.some.injEq] at hx hy
      subst hx hy
      norm_num at hq ⊢
      exact hq) _ h0).1
    norm_num at this
  · rw [show [((2 : Nat), false), (1, true)] = [(2, false)] ++ (1, true) :: [] from rfl, hi.2,
      text_path, ho]
    intro h
    have := congrArg (fun r => match r with | Except.ok l => l.length | .error _ => 0) h
    simp [sampleRender] at this

end SvgPy.PathData
