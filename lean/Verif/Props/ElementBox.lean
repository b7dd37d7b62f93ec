import Verif.Props.Bezier
import Verif.Props.PathGeom
import Verif.Model.Elements

/-! Property C86: the bounding boxes of elements with children and transforms. -/

set_option linter.unusedSimpArgs false

namespace SvgPy.ElementBox

open SvgPy.Path SvgPy.PathGeom SvgPy.Matrix SvgPy.Bezier SvgPy.Rect SvgPy.Elements Set

/-! ### Specification -/

/-- The points that path data visits: where it begins and the points of its strokes. -/
def Traced (d : List (Seg ℝ)) : Set Pt :=
  {p | (∃ x y l, d = .move false x y :: l ∧ p = (x, y)) ∨ ∃ f ∈ strokes (Pen.new.draw d), p ∈ f '' Icc (0:ℝ) 1}

/-- The map of a `transform` attribute, if there is one. -/
noncomputable def mapBy : Option Mat → Pt → Pt
  | none, p => p
  | some m, p => affine (Matrix.get m .a) (Matrix.get m .b) (Matrix.get m .c) (Matrix.get m .d) (Matrix.get m .e) (Matrix.get m .f) p

/-- A graphics element whose `display` is not `none`. -/
def Displayed : Elem → Prop
  | .shape hidden _ _ => hidden = false
  | .use hidden _ _ _ _ _ => hidden = false
  | .container _ hidden _ _ => hidden = false
  | .other => False

/-- The points an element draws, in the coordinates of its parent: those of its path data, or of
its children that are displayed, under its transform.  A `use` element draws what the element it
refers to draws in its parent, moved by `x` and `y`, then under its own transform. -/
inductive Draws : Elem → Pt → Prop
  | shape (hidden t d p) : p ∈ Traced d → Draws (.shape hidden t (.ok d)) (mapBy t p)
  | use (hidden t x y rt d p) : p ∈ Traced d →
      Draws (.use hidden t x y rt (.ok d)) (mapBy t ((mapBy rt p).1 + x, (mapBy rt p).2 + y))
  | child (name hidden t children e p) : name = "a".toList ∨ name = "g".toList → e ∈ children → Displayed e → Draws e p →
      Draws (.container name hidden t children) (mapBy t p)

/-- The points of a stroke count for the box, except those of a horizontal or vertical line other
than its upper left end; these must be within the extremes of points that count. -/
def Covered (S K : Set Pt) : Prop :=
  ∀ p ∈ S, (∃ q ∈ K, q.1 ≤ p.1) ∧ (∃ q ∈ K, p.1 ≤ q.1) ∧ (∃ q ∈ K, q.2 ≤ p.2) ∧ (∃ q ∈ K, p.2 ≤ q.2)

/-- The points differ in both coordinates. -/
def Wide (S : Set Pt) : Prop := (∃ p ∈ S, ∃ q ∈ S, p.1 < q.1) ∧ (∃ p ∈ S, ∃ q ∈ S, p.2 < q.2)

/-- Path data that is empty, or starts with a moveto, continues with absolute lines, curves, moveto
and closepath segments, and under the map `g` has width and height, which the points that count
give. -/
def LeafOk (g : Pt → Pt) (d : List (Seg ℝ)) : Prop :=
  d = [] ∨ ∃ x y l, d = .move false x y :: l ∧ (∀ s ∈ l, Plain s) ∧ Wide (g '' Traced d) ∧
    Covered (g '' Traced d) ({g (x, y)} ∪ {q | ∃ f ∈ strokes (Pen.new.draw d), q ∈ kept fun t => g (f t)})

/-- Elements whose shapes are as above, whose groups have transforms with `Q`, and whose `use`
elements have no transform, and refer to elements without transform or do not move them. -/
inductive Fine (Q : Mat → Prop) : Elem → Prop
  | shape (hidden t d) : (∀ m, t = some m → m.is2d = true) → LeafOk (mapBy t) d → Fine Q (.shape hidden t (.ok d))
  | use (hidden x y rt d) : (∀ m, rt = some m → m.is2d = true) → rt = none ∨ x = 0 ∧ y = 0 →
      LeafOk (fun p => ((mapBy rt p).1 + x, (mapBy rt p).2 + y)) d → Fine Q (.use hidden none x y rt (.ok d))
  | group (name hidden t children) : name = "a".toList ∨ name = "g".toList → (∀ m, t = some m → Q m) →
      (∀ e ∈ children, Displayed e → Fine Q e) → Fine Q (.container name hidden t children)
  | unseen (name hidden t children) : name = "defs".toList ∨ name = "symbol".toList → Fine Q (.container name hidden t children)

/-- Invertible, and among the matrices for which boxes are transformed properly (C03). -/
def Proper (m : Mat) : Prop :=
  Matrix.get m .a * Matrix.get m .d - Matrix.get m .b * Matrix.get m .c ≠ 0 ∧
    ¬ (Matrix.get m .a < 0 ∧ Matrix.get m .c < 0) ∧ ¬ (Matrix.get m .b < 0 ∧ Matrix.get m .d < 0)

/-- Made of translations, scalings, reflections and quarter turns. -/
def Straight (m : Mat) : Prop :=
  (Matrix.get m .a ≠ 0 ∧ Matrix.get m .b = 0 ∧ Matrix.get m .c = 0 ∧ Matrix.get m .d ≠ 0) ∨
    (Matrix.get m .a = 0 ∧ Matrix.get m .b ≠ 0 ∧ Matrix.get m .c ≠ 0 ∧ Matrix.get m .d = 0)

/-! ### Path data under a map -/

/-- A segment under a map. -/
def segMap (g : Pt → Pt) : Seg ℝ → Seg ℝ
  | .curve _ x1 y1 x2 y2 x y => .curve false (g (x1, y1)).1 (g (x1, y1)).2 (g (x2, y2)).1 (g (x2, y2)).2 (g (x, y)).1 (g (x, y)).2
  | .line _ x y => .line false (g (x, y)).1 (g (x, y)).2
  | .move _ x y => .move false (g (x, y)).1 (g (x, y)).2
  | .close _ => .close false
  | s => s

theorem plain_segMap (g : Pt → Pt) (s : Seg ℝ) (h : Plain s) : Plain (segMap g s) := by
  obtain ⟨h1, h2⟩ := h
  cases s <;> simp [Seg.kind, Seg.rel, segMap, Plain] at *

theorem plain_known (l : List (Seg ℝ)) (h : ∀ s ∈ l, Plain s) : AllKnown (true, true) false l := by
  induction l with
  | nil => trivial
  | cons s l ih =>
    have ih := ih fun a ha => h a (List.mem_cons_of_mem _ ha)
    obtain ⟨h1, h2⟩ := h s List.mem_cons_self
    cases s <;> simp [Seg.kind, Seg.rel, AllKnown, Known, knows] at * <;> exact ih

theorem transformFrom_plain (m : Mat) (h2 : m.is2d = true) (l : List (Seg ℝ)) (h : ∀ s ∈ l, Plain s) (st : State) :
    transformFrom m st l = .ok (l.map (segMap (mapOf m))) := by
  induction l generalizing st with
  | nil => rfl
  | cons s l ih =>
    have ih := ih fun a ha => h a (List.mem_cons_of_mem _ ha)
    obtain ⟨h1, h3⟩ := h s List.mem_cons_self
    cases s <;> simp only [Seg.kind, Seg.rel, reduceCtorEq, or_self, or_false, false_or, or_true] at h1 h3 <;> subst h1 <;>
      simp [transformFrom, Seg.kind, transformSeg, toAbs, transformAbs, image_eq m h2, Except.map, Except.bind, ih, segMap]

theorem strokes_image (g : Pt → Pt) (a b : List Piece) (h : List.Forall₂ (Image g) a b) :
    strokes b = (strokes a).map fun f t => g (f t) := by
  induction h with
  | nil => rfl
  | cons h _ ih => cases h <;> simp [strokes, ih]

/-- Path data under a transform. -/
theorem moved_plain (t : Option Mat) (h2 : ∀ m, t = some m → m.is2d = true) (x y : ℝ) (l : List (Seg ℝ)) (hl : ∀ s ∈ l, Plain s) :
    ∃ l', moved t (.move false x y :: l) = .ok (.move false (mapBy t (x, y)).1 (mapBy t (x, y)).2 :: l') ∧ (∀ s ∈ l', Plain s) ∧
      strokes (Pen.new.draw (.move false (mapBy t (x, y)).1 (mapBy t (x, y)).2 :: l')) =
        (strokes (Pen.new.draw (.move false x y :: l))).map fun f s => mapBy t (f s) := by
  cases t with
  | none => exact ⟨l, rfl, hl, by simp [mapBy]⟩
  | some m =>
    have e2 := h2 m rfl
    have hp : ∀ s ∈ (.move false x y :: l : List (Seg ℝ)), Plain s := by
      intro s hs
      rcases List.mem_cons.1 hs with rfl | hs
      · simp [Plain, Seg.rel, Seg.kind]
      · exact hl s hs
    obtain ⟨n, e, hi⟩ := transform_draw_partial m e2 false x y l (plain_known l hl)
    have e' := transformFrom_plain m e2 _ hp {}
    rw [PathGeom.transform, e'] at e
    cases e
    refine ⟨l.map (segMap (mapOf m)), e', ?_, strokes_image _ _ _ hi⟩
    intro s hs
    obtain ⟨a, ha, rfl⟩ := List.mem_map.1 hs
    exact plain_segMap _ _ (hl a ha)

theorem traced_move (x y : ℝ) (l : List (Seg ℝ)) : Traced (.move false x y :: l) =
    {(x, y)} ∪ {p | ∃ f ∈ strokes (Pen.new.draw (.move false x y :: l)), p ∈ f '' Icc (0:ℝ) 1} := by
  ext p
  simp only [Traced, mem_ofPred_eq, mem_union, mem_singleton_iff]
  refine or_congr_left ⟨?_, ?_⟩
  · rintro ⟨x', y', l', e, rfl⟩
    cases e
    rfl
  · rintro rfl
    exact ⟨_, _, _, rfl, rfl⟩

theorem traced_nil : Traced [] = ∅ := by
  ext p
  simp [Traced, Pen.draw, strokes]

/-! ### Boxes -/

/-- No box, or one with area. -/
def Good (r : DRect ℝ) : Prop := r = DRect.new ∨ ∃ x y w h, r = ⟨some x, some y, w, h⟩ ∧ 0 < w ∧ 0 < h

theorem good_accum {r : DRect ℝ} (h : Good r) : Accum r := by
  rcases h with rfl | ⟨x, y, w, h, rfl, h1, h2⟩
  · exact .inl rfl
  · exact .inr ⟨rfl, rfl, h1.le, h2.le⟩

theorem good_area {r : DRect ℝ} (h : Good r) : AreaOrPoint r := by
  rcases h with rfl | ⟨x, y, w, h, rfl, h1, h2⟩
  · exact .inr ⟨rfl, rfl⟩
  · exact .inl ⟨h1, h2⟩

/-- A box around points that differ in both coordinates has area. -/
theorem wide_good (S : Set Pt) (r : DRect ℝ) (h : ∀ p ∈ S, Mem p r) (hw : Wide S) :
    ∃ x y w h, r = ⟨some x, some y, w, h⟩ ∧ 0 < w ∧ 0 < h := by
  obtain ⟨⟨p1, m1, q1, n1, l1⟩, ⟨p2, m2, q2, n2, l2⟩⟩ := hw
  obtain ⟨rx, ry, w, hh⟩ := r
  obtain ⟨x, y, ex, ey, a1, a2, a3, a4⟩ := h p1 m1
  cases ex; cases ey
  have k : ∀ p ∈ S, x ≤ p.1 ∧ p.1 ≤ x + w ∧ y ≤ p.2 ∧ p.2 ≤ y + hh := by
    intro p hp
    obtain ⟨x', y', ex, ey, k⟩ := h p hp
    cases ex; cases ey
    exact k
  have := k _ n1
  have := k _ m2
  have := k _ n2
  exact ⟨x, y, w, hh, rfl, by linarith, by linarith⟩

theorem empty_box : IsBoundingBox (∅ : Set Pt) (DRect.new : DRect ℝ) := by
  refine ⟨by simp, ?_⟩
  rintro _ _ _ _ _ p ⟨x, y, e, -⟩
  simp [DRect.new] at e

theorem good_unite (a b : DRect ℝ) (ha : Good a) (hb : Good b) : Good (a.unite b) := by
  rcases hb with rfl | ⟨x, y, w, h, rfl, h1, h2⟩
  · exact ha
  · have k := unite_isBoundingBox_partial a ⟨some x, some y, w, h⟩ (good_accum ha) (.inl ⟨h1, h2⟩)
    refine .inr (wide_good (points ⟨some x, some y, w, h⟩) _ (fun p hp => k.1 p (.inr hp)) ?_)
    have m0 : (x, y) ∈ points (⟨some x, some y, w, h⟩ : DRect ℝ) := ⟨x, y, rfl, rfl, by simp [h1.le, h2.le]⟩
    have m1 : (x + w, y + h) ∈ points (⟨some x, some y, w, h⟩ : DRect ℝ) := ⟨x, y, rfl, rfl, by simp [h1.le, h2.le]⟩
    exact ⟨⟨_, m0, _, m1, by simpa using h1⟩, ⟨_, m0, _, m1, by simpa using h2⟩⟩

theorem covered_box (S K : Set Pt) (r : DRect ℝ) (hK : IsBoundingBox K r) (hs : K ⊆ S) (hc : Covered S K) : IsBoundingBox S r := by
  constructor
  · intro p hp
    obtain ⟨⟨q1, m1, l1⟩, ⟨q2, m2, l2⟩, ⟨q3, m3, l3⟩, ⟨q4, m4, l4⟩⟩ := hc p hp
    obtain ⟨x, y, ex, ey, a1, a2, a3, a4⟩ := hK.1 q1 m1
    have k : ∀ p ∈ K, x ≤ p.1 ∧ p.1 ≤ x + r.width ∧ y ≤ p.2 ∧ p.2 ≤ y + r.height := by
      intro p hp
      obtain ⟨x', y', ex', ey', k⟩ := hK.1 p hp
      rw [ex] at ex'; rw [ey] at ey'
      cases ex'; cases ey'
      exact k
    have := k _ m2
    have := k _ m3
    have := k _ m4
    exact ⟨x, y, ex, ey, by linarith, by linarith, by linarith, by linarith⟩
  · intro a b c d h
    exact hK.2 a b c d fun p hp => h p (hs hp)

/-- The box of path data under a map. -/
theorem leaf_box (g : Pt → Pt) (x y : ℝ) (l : List (Seg ℝ)) (x' y' : ℝ) (l' : List (Seg ℝ)) (h0 : (x', y') = g (x, y))
    (hp : ∀ s ∈ l', Plain s)
    (hs : strokes (Pen.new.draw (.move false x' y' :: l')) = (strokes (Pen.new.draw (.move false x y :: l))).map fun f s => g (f s))
    (hw : Wide (g '' Traced (.move false x y :: l)))
    (hc : Covered (g '' Traced (.move false x y :: l))
      ({g (x, y)} ∪ {q | ∃ f ∈ strokes (Pen.new.draw (.move false x y :: l)), q ∈ kept fun t => g (f t)})) :
    ∃ r, dataBox (.move false x' y' :: l') = .ok r ∧ Good r ∧ IsBoundingBox (g '' Traced (.move false x y :: l)) r := by
  obtain ⟨r, e1, e2, e3⟩ := bbox_exact x' y' l' hp
  have hb := covered_box _ _ r (by
    convert e3 using 1
    rw [hs, h0]
    congr 1
    ext q
    simp only [List.mem_map, mem_ofPred_eq, exists_exists_and_eq_and]) (by
    rintro q (rfl | ⟨f, hf, hq⟩)
    · exact ⟨(x, y), .inl ⟨_, _, _, rfl, rfl⟩, rfl⟩
    · obtain ⟨⟨t, ht, rfl⟩, -⟩ := hq
      exact ⟨f t, .inr ⟨f, hf, t, ht, rfl⟩, rfl⟩) hc
  exact ⟨r, by rw [dataBox, if_neg (List.cons_ne_nil _ _), e1], .inr (wide_good _ r hb.1 hw), hb⟩

/-! ### C86 -/

theorem ok_bind {α β : Type} (a : α) (f : α → Py β) : Except.bind (.ok a) f = f a := rfl

/-- The loop over the children leaves out exactly the others. -/
theorem skipped_iff (e : Elem) : skipped e = false ↔ Displayed e := by
  cases e <;> simp [skipped, Displayed]

theorem shapeData_cons (t : Option Mat) (s : Seg ℝ) (l : List (Seg ℝ)) : shapeData t (.ok (s :: l)) = moved t (s :: l) := rfl

theorem usedData_cons (t : Option Mat) (x y : ℝ) (rt : Option Mat) (d : List (Seg ℝ)) (s : Seg ℝ) (l : List (Seg ℝ))
    (h : moved (useMatrix t x y) d = .ok (s :: l)) : usedData t x y rt (.ok d) = (moved rt (s :: l)).bind (moved t) := by
  rw [usedData, useData, ok_bind, h]
  rfl

/-- The matrix of the translation of a `use` element. -/
theorem use_shift (x y : ℝ) (hxy : x ≠ 0 ∨ y ≠ 0) : ∃ m : Mat, useMatrix none x y = some m ∧ m.is2d = true ∧
    ∀ p, mapBy (some m) p = (p.1 + x, p.2 + y) := by
  have hn : ¬ (x = 0 ∧ y = 0 ∧ (0:ℝ) = 0) := by
    rintro ⟨h1, h2, -⟩
    rcases hxy with h | h
    · exact h h1
    · exact h h2
  refine ⟨_, by rw [useMatrix, if_pos hxy], ?_, ?_⟩
  · rw [translateSelf, if_neg hn]
    simp [multiplySelf, Transform.newMatrix]
  · intro p
    rw [translateSelf, if_neg hn]
    simp [multiplySelf, Option.getD_none, Transform.newMatrix, mapBy, affine, Matrix.get, matrix2d, matrix3d, row, col,
      _root_.Matrix.mul_apply, Fin.sum_univ_four]

/-- What is common to the theorems below: `B` relates the points that are drawn to the box. -/
theorem fine_box (Q : Mat → Prop) (B : Set Pt → DRect ℝ → Prop) (h1 : ∀ S r, IsBoundingBox S r → B S r)
    (h2 : ∀ S T a b, Good a → Good b → B S a → B T b → B (S ∪ T) (a.unite b))
    (h3 : ∀ m S r, Q m → Good r → B S r → Good (r.transform (affineOf m)) ∧ B (mapBy (some m) '' S) (r.transform (affineOf m)))
    (e : Elem) (h : Fine Q e) : ∃ r, getBBox true e = .ok r ∧ Good r ∧ B {p | Draws e p} r := by
  have list : ∀ (l : List Elem), (∀ e ∈ l, Displayed e → ∃ r, getBBox true e = .ok r ∧ Good r ∧ B {p | Draws e p} r) →
      ∀ S r, Good r → B S r → ∃ r', childBoxes r l = .ok r' ∧ Good r' ∧ B (S ∪ {p | ∃ e ∈ l, Displayed e ∧ Draws e p}) r' := by
    intro l
    induction l with
    | nil =>
      intro _ S r hr hB
      refine ⟨r, by simp [childBoxes], hr, ?_⟩
      convert hB using 1
      simp
    | cons e l ih =>
      intro hl S r hr hB
      have ih := ih fun a ha => hl a (List.mem_cons_of_mem _ ha)
      by_cases hs : skipped e = true
      · obtain ⟨r', e1, e2, e3⟩ := ih S r hr hB
        refine ⟨r', by simp [childBoxes, hs, e1], e2, ?_⟩
        convert e3 using 2
        have hd : ¬ Displayed e := fun h => by rw [(skipped_iff e).2 h] at hs; cases hs
        ext p
        simp [hd]
      · rw [Bool.not_eq_true] at hs
        have hd := (skipped_iff e).1 hs
        obtain ⟨b, k1, k2, k3⟩ := hl e List.mem_cons_self hd
        obtain ⟨r', e1, e2, e3⟩ := ih _ _ (good_unite r b hr k2) (h2 _ _ _ _ hr k2 hB k3)
        refine ⟨r', by simp [childBoxes, hs, k1, Except.bind, e1], e2, ?_⟩
        convert e3 using 1
        rw [union_assoc]
        congr 1
        ext p
        simp [hd]
  induction h with
  | shape hidden t d hm hd =>
    rcases hd with rfl | ⟨x, y, l, rfl, hp, hw, hc⟩
    · refine ⟨DRect.new, by simp [getBBox, shapeData, Except.bind, dataBox], .inl rfl, h1 _ _ ?_⟩
      convert empty_box
      ext p
      simp only [mem_ofPred_eq, mem_empty_iff_false, iff_false]
      intro h
      cases h with
      | shape _ _ _ p h => simp [traced_nil] at h
    · obtain ⟨l', e1, e2, e3⟩ := moved_plain t hm x y l hp
      obtain ⟨r, k1, k2, k3⟩ := leaf_box (mapBy t) x y l _ _ l' rfl e2 e3 hw hc
      refine ⟨r, by rw [getBBox, shapeData_cons, e1]; exact k1, k2, h1 _ _ ?_⟩
      convert k3 using 1
      ext p
      constructor
      · intro h
        cases h with
        | shape _ _ _ p h => exact ⟨p, h, rfl⟩
      · rintro ⟨p, h, rfl⟩
        exact .shape _ _ _ _ h
  | use hidden x y rt d hm hrt hd =>
    have draws : ∀ p, Draws (.use hidden none x y rt (.ok d)) p ↔ p ∈ (fun p => ((mapBy rt p).1 + x, (mapBy rt p).2 + y)) '' Traced d := by
      intro p
      constructor
      · intro h
        cases h with
        | use _ _ _ _ _ _ p h => exact ⟨p, h, rfl⟩
      · rintro ⟨p, h, rfl⟩
        exact .use _ _ _ _ _ _ _ h
    by_cases hxy : x ≠ 0 ∨ y ≠ 0
    · have hr : rt = none := hrt.resolve_right (by rintro ⟨rfl, rfl⟩; simp at hxy)
      subst hr
      obtain ⟨m, em, m2, mm⟩ := use_shift x y hxy
      rcases hd with rfl | ⟨x0, y0, l, rfl, hp, hw, hc⟩
      · refine ⟨DRect.new, ?_, .inl rfl, h1 _ _ ?_⟩
        · simp [getBBox, usedData, useData, em, moved, PathGeom.transform, transformFrom, Except.bind, dataBox]
        · convert empty_box
          ext p
          simp [draws, traced_nil]
      · obtain ⟨l', e1, e2, e3⟩ := moved_plain (some m) (by rintro m' h; cases h; exact m2) x0 y0 l hp
        simp only [mm] at e1 e3
        obtain ⟨r, k1, k2, k3⟩ := leaf_box (fun p => (p.1 + x, p.2 + y)) x0 y0 l _ _ l' rfl e2 e3 hw hc
        refine ⟨r, ?_, k2, h1 _ _ ?_⟩
        · rw [getBBox, usedData_cons none x y none _ _ _ (by rw [em, e1])]
          exact k1
        · convert k3 using 1
          ext p
          exact draws p
    · have hx : x = 0 := by by_contra h; exact hxy (.inl h)
      have hy : y = 0 := by by_contra h; exact hxy (.inr h)
      subst hx hy
      simp only [add_zero, Prod.mk.eta] at hd draws
      rcases hd with rfl | ⟨x0, y0, l, rfl, hp, hw, hc⟩
      · refine ⟨DRect.new, ?_, .inl rfl, h1 _ _ ?_⟩
        · simp [getBBox, usedData, useData, useMatrix, hxy, moved, Except.bind, dataBox]
        · convert empty_box
          ext p
          simp [draws, traced_nil]
      · obtain ⟨l', e1, e2, e3⟩ := moved_plain rt hm x0 y0 l hp
        obtain ⟨r, k1, k2, k3⟩ := leaf_box (mapBy rt) x0 y0 l _ _ l' rfl e2 e3 hw hc
        refine ⟨r, ?_, k2, h1 _ _ ?_⟩
        · have em : useMatrix none 0 0 = none := by simp [useMatrix]
          rw [getBBox, usedData_cons none 0 0 rt _ _ _ (by rw [em]; rfl), e1]
          exact k1
        · convert k3 using 1
          ext p
          exact draws p
  | group name hidden t children hn hQ _ ih =>
    obtain ⟨r, e1, e2, e3⟩ := list children ih ∅ DRect.new (.inl rfl) (h1 _ _ empty_box)
    rw [empty_union] at e3
    have hd : ¬ (name = "defs".toList ∨ name = "symbol".toList) := by
      rcases hn with rfl | rfl <;> decide
    have draws : {p | Draws (.container name hidden t children) p} =
        mapBy t '' {p | ∃ e ∈ children, Displayed e ∧ Draws e p} := by
      ext p
      constructor
      · intro h
        cases h with
        | child _ _ _ _ e p _ h1 h2 h3 => exact ⟨p, ⟨e, h1, h2, h3⟩, rfl⟩
      · rintro ⟨p, ⟨e, h1, h2, h3⟩, rfl⟩
        exact .child _ _ _ _ e p hn h1 h2 h3
    rw [draws]
    cases t with
    | none =>
      refine ⟨r, by simp only [getBBox, hd, if_false, e1, Except.map, placed, if_true], e2, ?_⟩
      convert e3 using 1
      ext p
      simp [mapBy]
    | some m =>
      obtain ⟨k1, k2⟩ := h3 m _ r (hQ m rfl) e2 e3
      exact ⟨_, by simp only [getBBox, hd, if_false, e1, Except.map, placed, if_true], k1, k2⟩
  | unseen name hidden t children hn =>
    refine ⟨DRect.new, by simp only [getBBox, hn, if_true], .inl rfl, h1 _ _ ?_⟩
    convert empty_box
    ext p
    simp only [mem_ofPred_eq, mem_empty_iff_false, iff_false]
    intro h
    cases h with
    | child _ _ _ _ _ _ hn' =>
      rcases hn with rfl | rfl <;> rcases hn' with h | h <;> exact absurd h (by decide)

/-- Transforming a box with area. -/
theorem transform_area (m : Mat) (hm : Proper m) (x y w h : ℝ) (hw : 0 < w) (hh : 0 < h) :
    Good (DRect.transform ⟨some x, some y, w, h⟩ (affineOf m)) ∧
      IsBoundingBox (mapBy (some m) '' points ⟨some x, some y, w, h⟩) (DRect.transform ⟨some x, some y, w, h⟩ (affineOf m)) := by
  obtain ⟨h1, h2⟩ := hm
  have hb := (transform_isBoundingBox_iff_partial x y w h hw hh (affineOf m)).2 h2
  refine ⟨.inr (wide_good _ _ hb.1 ?_), hb⟩
  have m0 : (x, y) ∈ points (⟨some x, some y, w, h⟩ : DRect ℝ) := ⟨x, y, rfl, rfl, by simp [hw.le, hh.le]⟩
  have m1 : (x + w, y) ∈ points (⟨some x, some y, w, h⟩ : DRect ℝ) := ⟨x, y, rfl, rfl, by simp [hw.le, hh.le]⟩
  have m2 : (x, y + h) ∈ points (⟨some x, some y, w, h⟩ : DRect ℝ) := ⟨x, y, rfl, rfl, by simp [hw.le, hh.le]⟩
  have n0 := mem_image_of_mem (affineOf m).apply m0
  have n1 := mem_image_of_mem (affineOf m).apply m1
  have n2 := mem_image_of_mem (affineOf m).apply m2
  have key : ∀ k : Pt → ℝ, ∀ u v c : ℝ, (∀ p, k ((affineOf m).apply p) = u * p.1 + v * p.2 + c) → ¬ (u = 0 ∧ v = 0) →
      ∃ p ∈ (affineOf m).apply '' points ⟨some x, some y, w, h⟩, ∃ q ∈ (affineOf m).apply '' points ⟨some x, some y, w, h⟩, k p < k q := by
    intro k u v c hk h0
    by_cases hu : u = 0
    · have hv : v ≠ 0 := fun hv => h0 ⟨hu, hv⟩
      rcases lt_or_gt_of_ne hv with hv | hv
      · exact ⟨_, n2, _, n0, by rw [hk, hk]; simp only; nlinarith⟩
      · exact ⟨_, n0, _, n2, by rw [hk, hk]; simp only; nlinarith⟩
    · rcases lt_or_gt_of_ne hu with hv | hv
      · exact ⟨_, n1, _, n0, by rw [hk, hk]; simp only; nlinarith⟩
      · exact ⟨_, n0, _, n1, by rw [hk, hk]; simp only; nlinarith⟩
  refine ⟨key Prod.fst _ _ _ (fun p => rfl) ?_, key Prod.snd _ _ _ (fun p => rfl) ?_⟩
  · rintro ⟨k1, k2⟩
    simp only [affineOf] at k1 k2
    rw [k1, k2] at h1
    simp at h1
  · rintro ⟨k1, k2⟩
    simp only [affineOf] at k1 k2
    rw [k1, k2] at h1
    simp at h1

theorem transform_new (m : Affine ℝ) : (DRect.new : DRect ℝ).transform m = DRect.new := transform_no_area _ _ (.inl (le_refl _))

theorem mem_good {p : Pt} {r : DRect ℝ} (h : Good r) (hp : Mem p r) : ∃ x y w h, r = ⟨some x, some y, w, h⟩ ∧ 0 < w ∧ 0 < h := by
  rcases h with rfl | h
  · obtain ⟨x, y, e, -⟩ := hp
    simp [DRect.new] at e
  · exact h

/-- The box holds the points. -/
def Holds (S : Set Pt) (r : DRect ℝ) : Prop := ∀ p ∈ S, Mem p r

theorem holds_box (e : Elem) (h : Fine Proper e) : ∃ r, getBBox true e = .ok r ∧ Good r ∧ Holds {p | Draws e p} r := by
  refine fine_box Proper Holds (fun S r h => h.1) ?_ ?_ e h
  · intro S T a b ha hb hS hT p hp
    have k := unite_isBoundingBox_partial a b (good_accum ha) (good_area hb)
    exact k.1 p (hp.imp (hS p) (hT p))
  · intro m S r hm hr hS
    rcases hr with rfl | ⟨x, y, w, h, rfl, h1, h2⟩
    · rw [transform_new]
      refine ⟨.inl rfl, ?_⟩
      rintro _ ⟨p, hp, rfl⟩
      obtain ⟨x, y, e, -⟩ := hS p hp
      simp [DRect.new] at e
    · obtain ⟨k1, k2⟩ := transform_area m hm x y w h h1 h2
      refine ⟨k1, ?_⟩
      rintro _ ⟨p, hp, rfl⟩
      exact k2.1 _ ⟨p, hS p hp, rfl⟩

/-- **C86** The bounding box of an element, in the coordinates of its parent, holds all points that
the element and its descendants draw.  Missing: shapes whose horizontal and vertical lines stick
out or that have no area, transforms of groups for which C03 fails, transforms of `use` elements,
and containers other than `a`, `g`, `defs` and `symbol`; see the theorems below. -/
theorem element_box_holds_partial (e : Elem) (h : Fine Proper e) :
    ∃ r, getBBox true e = .ok r ∧ ∀ p, Draws e p → Mem p r := by
  obtain ⟨r, e1, -, e2⟩ := holds_box e h
  exact ⟨r, e1, e2⟩

/-- The numbers that a linear map takes into an interval are an interval. -/
theorem interval (a e lo hi : ℝ) (ha : a ≠ 0) : ∃ l h, ∀ u : ℝ, (lo ≤ a * u + e ∧ a * u + e ≤ hi) ↔ (l ≤ u ∧ u ≤ h) := by
  rcases lt_or_gt_of_ne ha with h | h
  · refine ⟨(hi - e) / a, (lo - e) / a, fun u => ?_⟩
    rw [div_le_iff_of_neg h, le_div_iff_of_neg h]
    constructor
    · rintro ⟨h1, h2⟩
      constructor <;> linarith
    · rintro ⟨h1, h2⟩
      constructor <;> linarith
  · refine ⟨(lo - e) / a, (hi - e) / a, fun u => ?_⟩
    rw [div_le_iff₀ h, le_div_iff₀ h]
    constructor
    · rintro ⟨h1, h2⟩
      constructor <;> linarith
    · rintro ⟨h1, h2⟩
      constructor <;> linarith

theorem straight_proper (m : Mat) (h : Straight m) : Proper m := by
  rcases h with ⟨h1, h2, h3, h4⟩ | ⟨h1, h2, h3, h4⟩
  · refine ⟨?_, ?_, ?_⟩
    · rw [h2, h3, zero_mul, sub_zero]
      exact mul_ne_zero h1 h4
    · rw [h3]; simp
    · rw [h2]; simp
  · refine ⟨?_, ?_, ?_⟩
    · rw [h1, h4, zero_mul, zero_sub, neg_ne_zero]
      exact mul_ne_zero h2 h3
    · rw [h1]; simp
    · rw [h4]; simp

/-- A straight map takes smallest boxes to smallest boxes. -/
theorem straight_box (m : Mat) (hm : Straight m) (S : Set Pt) (x y w h : ℝ) (hw : 0 < w) (hh : 0 < h)
    (hS : IsBoundingBox S ⟨some x, some y, w, h⟩) :
    IsBoundingBox (mapBy (some m) '' S) (DRect.transform ⟨some x, some y, w, h⟩ (affineOf m)) := by
  obtain ⟨-, k1, k2⟩ := transform_area m (straight_proper m hm) x y w h hw hh
  constructor
  · rintro _ ⟨p, hp, rfl⟩
    exact k1 _ ⟨p, hS.1 p hp, rfl⟩
  · intro a b c d hb
    refine k2 a b c d ?_
    have hb' : ∀ p ∈ S, a ≤ (mapBy (some m) p).1 ∧ (mapBy (some m) p).1 ≤ b ∧ c ≤ (mapBy (some m) p).2 ∧ (mapBy (some m) p).2 ≤ d :=
      fun p hp => hb _ ⟨p, hp, rfl⟩
    rintro _ ⟨p, hp, rfl⟩
    rcases hm with ⟨e1, e2, e3, e4⟩ | ⟨e1, e2, e3, e4⟩
    · obtain ⟨l1, u1, i1⟩ := interval (Matrix.get m .a) (Matrix.get m .e) a b e1
      obtain ⟨l2, u2, i2⟩ := interval (Matrix.get m .d) (Matrix.get m .f) c d e4
      simp only [mapBy, affine, e2, e3, zero_mul, add_zero, zero_add] at hb' ⊢
      have k := hS.2 l1 u1 l2 u2 (fun q hq => by
        obtain ⟨a1, a2, a3, a4⟩ := hb' q hq
        have j1 := (i1 _).1 ⟨a1, a2⟩
        have j2 := (i2 _).1 ⟨a3, a4⟩
        exact ⟨j1.1, j1.2, j2.1, j2.2⟩) p hp
      have j1 := (i1 _).2 ⟨k.1, k.2.1⟩
      have j2 := (i2 _).2 k.2.2
      exact ⟨j1.1, j1.2, j2.1, j2.2⟩
    · obtain ⟨l1, u1, i1⟩ := interval (Matrix.get m .c) (Matrix.get m .e) a b e3
      obtain ⟨l2, u2, i2⟩ := interval (Matrix.get m .b) (Matrix.get m .f) c d e2
      simp only [mapBy, affine, e1, e4, zero_mul, add_zero, zero_add] at hb' ⊢
      have k := hS.2 l2 u2 l1 u1 (fun q hq => by
        obtain ⟨a1, a2, a3, a4⟩ := hb' q hq
        have j1 := (i1 _).1 ⟨a1, a2⟩
        have j2 := (i2 _).1 ⟨a3, a4⟩
        exact ⟨j2.1, j2.2, j1.1, j1.2⟩) p hp
      have j1 := (i1 _).2 k.2.2
      have j2 := (i2 _).2 ⟨k.1, k.2.1⟩
      exact ⟨j1.1, j1.2, j2.1, j2.2⟩

theorem exact_box (e : Elem) (h : Fine Straight e) : ∃ r, getBBox true e = .ok r ∧ Good r ∧ IsBoundingBox {p | Draws e p} r := by
  refine fine_box Straight IsBoundingBox (fun S r h => h) ?_ ?_ e h
  · intro S T a b ha hb hS hT
    exact bounding_union S T a b (good_accum ha) (good_area hb) hS hT
  · intro m S r hm hr hS
    rcases hr with rfl | ⟨x, y, w, h, rfl, h1, h2⟩
    · rw [transform_new]
      refine ⟨.inl rfl, ?_⟩
      constructor
      · rintro _ ⟨p, hp, rfl⟩
        obtain ⟨x, y, e, -⟩ := hS.1 p hp
        simp [DRect.new] at e
      · rintro _ _ _ _ _ p ⟨x, y, e, -⟩
        simp [DRect.new] at e
    · exact ⟨(transform_area m (straight_proper m hm) x y w h h1 h2).1, straight_box m hm S x y w h h1 h2 hS⟩

/-- **C86** If the transforms of the groups are made of translations, scalings, reflections and
quarter turns, the bounding box of an element, in the coordinates of its parent, is the smallest
box that holds the points it draws.  Missing: as above, and other transforms of groups, for which
the box of the box is larger. -/
theorem element_box_partial (e : Elem) (h : Fine Straight e) :
    ∃ r, getBBox true e = .ok r ∧ IsBoundingBox {p | Draws e p} r := by
  obtain ⟨r, e1, -, e2⟩ := exact_box e h
  exact ⟨r, e1, e2⟩

/-- A group, or another rendered container, at which the call of `get_bbox` starts: its box is in
its own coordinates, that is, without its own transform. -/
theorem root_box (name : Str) (hidden : Bool) (t : Option Mat) (children : List Elem)
    (hn : name ≠ "defs".toList ∧ name ≠ "symbol".toList) :
    getBBox false (.container name hidden t children) = getBBox true (.container "g".toList hidden none children) := by
  have h1 : ¬ (name = "defs".toList ∨ name = "symbol".toList) := by rintro (h | h); exacts [hn.1 h, hn.2 h]
  have h2 : ¬ ("g".toList = "defs".toList ∨ "g".toList = "symbol".toList) := by decide
  simp only [getBBox, h1, h2, if_false]
  congr 1

/-- **C86** `get_bbox` of a group (or of the outermost `svg` element) gives, under the same
conditions, the smallest box that holds what its children draw, in its own coordinates. -/
theorem group_box_partial (name : Str) (hidden : Bool) (t : Option Mat) (children : List Elem)
    (hn : name ≠ "defs".toList ∧ name ≠ "symbol".toList) (h : ∀ e ∈ children, Displayed e → Fine Straight e) :
    ∃ r, getBBox false (.container name hidden t children) = .ok r ∧
      IsBoundingBox {p | ∃ e ∈ children, Displayed e ∧ Draws e p} r := by
  rw [root_box name hidden t children hn]
  obtain ⟨r, e1, e2⟩ := element_box_partial _ (.group "g".toList hidden none children (.inr rfl) (by simp) h)
  refine ⟨r, e1, ?_⟩
  convert e2 using 1
  ext p
  constructor
  · rintro ⟨e, h1, h2, h3⟩
    exact .child _ _ none _ e p (.inr rfl) h1 h2 h3
  · intro h
    cases h with
    | child _ _ _ _ e p _ h1 h2 h3 => exact ⟨e, h1, h2, h3⟩

/-! ### Examples and violations -/

/-- If no stroke is horizontal or vertical under the map (unless it is one point), all points
count. -/
theorem covered_slanted (g : Pt → Pt) (x y : ℝ) (l : List (Seg ℝ))
    (h : ∀ f ∈ strokes (Pen.new.draw (.move false x y :: l)), Flat (fun t => g (f t)) → Still fun t => g (f t)) :
    Covered (g '' Traced (.move false x y :: l))
      ({g (x, y)} ∪ {q | ∃ f ∈ strokes (Pen.new.draw (.move false x y :: l)), q ∈ kept fun t => g (f t)}) := by
  rintro _ ⟨p, hp, rfl⟩
  have : g p ∈ ({g (x, y)} ∪ {q | ∃ f ∈ strokes (Pen.new.draw (.move false x y :: l)), q ∈ kept fun t => g (f t)} : Set Pt) := by
    rw [traced_move] at hp
    rcases hp with hp | ⟨f, hf, t, ht, rfl⟩
    · rw [mem_singleton_iff] at hp
      rw [hp]
      exact .inl rfl
    · refine .inr ⟨f, hf, ⟨t, ht, rfl⟩, fun hfl s hs => ?_⟩
      obtain ⟨q, hq⟩ := h f hf hfl
      have a := hq t ht
      have b := hq s hs
      exact ⟨(congrArg Prod.fst (a.trans b.symm)).le, (congrArg Prod.snd (a.trans b.symm)).le⟩
  exact ⟨⟨_, this, le_refl _⟩, ⟨_, this, le_refl _⟩, ⟨_, this, le_refl _⟩, ⟨_, this, le_refl _⟩⟩

/-- The path data `M 0 0 L 1 1`. -/
def diagonal : List (Seg ℝ) := [.move false 0 0, .line false 1 1]

theorem diagonal_strokes : strokes (Pen.new.draw diagonal) = [lineAt (0, 0) (1, 1)] := by
  simp [diagonal, Pen.draw, Pen.step, Pen.new, Pen.at, Pen.lineTo, strokes]

theorem diagonal_traced (p : Pt) : p ∈ Traced diagonal ↔ ∃ t ∈ Icc (0:ℝ) 1, p = (t, t) := by
  rw [diagonal, traced_move]
  have e := diagonal_strokes
  rw [diagonal] at e
  rw [e]
  simp only [mem_union, mem_singleton_iff, mem_ofPred_eq, List.mem_singleton, exists_eq_left, mem_image, lineAt]
  constructor
  · rintro (rfl | ⟨t, ht, rfl⟩)
    · exact ⟨0, by norm_num, rfl⟩
    · exact ⟨t, ht, by simp⟩
  · rintro ⟨t, ht, rfl⟩
    exact .inr ⟨t, ht, by simp⟩

theorem diagonal_leaf (g : Pt → Pt) (h1 : (g (0, 0)).1 < (g (1, 1)).1) (h2 : (g (0, 0)).2 < (g (1, 1)).2) : LeafOk g diagonal := by
  have m0 : ((0, 0) : Pt) ∈ Traced diagonal := (diagonal_traced _).2 ⟨0, by norm_num, rfl⟩
  have m1 : ((1, 1) : Pt) ∈ Traced diagonal := (diagonal_traced _).2 ⟨1, by norm_num, rfl⟩
  refine .inr ⟨0, 0, [.line false 1 1], rfl, by simp [Plain, Seg.rel, Seg.kind],
    ⟨⟨_, ⟨_, m0, rfl⟩, _, ⟨_, m1, rfl⟩, h1⟩, ⟨_, ⟨_, m0, rfl⟩, _, ⟨_, m1, rfl⟩, h2⟩⟩, covered_slanted g 0 0 _ ?_⟩
  have e := diagonal_strokes
  rw [diagonal] at e
  rw [e]
  intro f hf hfl
  rw [List.mem_singleton] at hf
  subst hf
  exfalso
  have z : (0:ℝ) ∈ Icc (0:ℝ) 1 := by norm_num
  have o : (1:ℝ) ∈ Icc (0:ℝ) 1 := by norm_num
  have e0 : lineAt (0, 0) (1, 1) 0 = (0, 0) := by simp [lineAt]
  have e1 : lineAt (0, 0) (1, 1) 1 = (1, 1) := by simp [lineAt]
  rcases hfl with ⟨c, hc⟩ | ⟨c, hc⟩
  · have a := hc 0 z
    have b := hc 1 o
    simp only [e0, e1] at a b
    linarith
  · have a := hc 0 z
    have b := hc 1 o
    simp only [e0, e1] at a b
    linarith

theorem mapBy_none (p : Pt) : mapBy none p = p := rfl

/-- `matrix(a, b, c, d, e, f)`. -/
def flatMat (a b c d e f : ℝ) : Mat := ⟨matrix2d a b c d e f, true⟩

theorem flatMat_map (a b c d e f : ℝ) (p : Pt) :
    mapBy (some (flatMat a b c d e f)) p = (a * p.1 + c * p.2 + e, b * p.1 + d * p.2 + f) := by
  simp [mapBy, affine, flatMat, Matrix.get, matrix2d, row, col]

/-- A group, scaled by 2 and moved, of a line with a translation, a `use` element that moves the
line, a hidden line and a definition. -/
noncomputable def exampleGroup : Elem :=
  .container "g".toList false (some (flatMat 2 0 0 2 5 5))
    [.shape false (some (flatMat 1 0 0 1 10 0)) (.ok diagonal), .use false none 3 4 none (.ok diagonal),
      .shape true none (.error .valueError), .container "defs".toList false none [.other]]

theorem exampleGroup_fine : Fine Straight exampleGroup := by
  refine .group _ _ _ _ (.inr rfl) ?_ ?_
  · rintro m h
    cases h
    left
    simp [flatMat, Matrix.get, matrix2d, row, col]
  · intro e he hs
    simp only [List.mem_cons, List.not_mem_nil, or_false] at he
    rcases he with rfl | rfl | rfl | rfl
    · refine .shape _ _ _ (by rintro m h; cases h; rfl) (diagonal_leaf _ ?_ ?_) <;> simp [flatMat_map]
    · refine .use _ _ _ _ _ (by simp) (.inl rfl) (diagonal_leaf _ ?_ ?_) <;> simp [mapBy]
    · cases hs
    · exact .unseen _ _ _ _ (.inl rfl)

example : Draws exampleGroup (25, 5) := by
  have h : Draws (.shape false (some (flatMat 1 0 0 1 10 0)) (.ok diagonal)) (10, 0) := by
    have := Draws.shape false (some (flatMat 1 0 0 1 10 0)) diagonal (0, 0) ((diagonal_traced _).2 ⟨0, by norm_num, rfl⟩)
    simpa [flatMat_map] using this
  have := Draws.child "g".toList false (some (flatMat 2 0 0 2 5 5)) _ _ _ (.inr rfl) (List.mem_cons_self (l :=
    [.use false none 3 4 none (.ok diagonal), .shape true none (.error .valueError), .container "defs".toList false none [.other]]))
    (by trivial) h
  rw [flatMat_map] at this
  norm_num at this
  exact this

/-- **C86 fails** for a shape with a transform: `get_bbox` gives the box in the coordinates of the
parent, while that of a group is in its own. -/
theorem shape_box_violated : ∃ t d r, getBBox false (.shape false (some t) (.ok d)) = .ok r ∧ Good r ∧ ∃ p ∈ Traced d, ¬ Mem p r := by
  have hf : Fine Straight (.shape false (some (flatMat 1 0 0 1 10 0)) (.ok diagonal)) := by
    refine .shape _ _ _ (by rintro m h; cases h; rfl) (diagonal_leaf _ ?_ ?_) <;> simp [flatMat_map]
  obtain ⟨r, e1, e2, e3⟩ := exact_box _ hf
  refine ⟨_, _, r, by rw [getBBox] at e1 ⊢; exact e1, e2, (0, 0), (diagonal_traced _).2 ⟨0, by norm_num, rfl⟩, fun hm => ?_⟩
  have := e3.2 10 11 0 1 (by
    intro p hp
    cases hp with
    | shape _ _ _ p hp =>
      obtain ⟨t, ht, rfl⟩ := (diagonal_traced _).1 hp
      rw [flatMat_map]
      obtain ⟨h0, h1⟩ := ht
      simp only
      refine ⟨?_, ?_, ?_, ?_⟩ <;> linarith) (0, 0) hm
  norm_num at this

/-- The box of a `use` element whose path data goes through two maps. -/
theorem use_two (t rt u : Option Mat) (x y : ℝ) (g : Pt → Pt) (hu : useMatrix t x y = u) (h1 : ∀ m, u = some m → m.is2d = true)
    (h2 : ∀ m, rt = some m → m.is2d = true) (h3 : ∀ m, t = some m → m.is2d = true) (hg : ∀ p, g p = mapBy t (mapBy rt (mapBy u p)))
    (hx : (g (0, 0)).1 < (g (1, 1)).1) (hy : (g (0, 0)).2 < (g (1, 1)).2) :
    ∃ r, getBBox true (.use false t x y rt (.ok diagonal)) = .ok r ∧ IsBoundingBox (g '' Traced diagonal) r := by
  have hp : ∀ s ∈ ([.line false 1 1] : List (Seg ℝ)), Plain s := by simp [Plain, Seg.rel, Seg.kind]
  obtain ⟨l1, a1, a2, a3⟩ := moved_plain u h1 0 0 [.line false 1 1] hp
  obtain ⟨l2, b1, b2, b3⟩ := moved_plain rt h2 _ _ l1 a2
  obtain ⟨l3, c1, c2, c3⟩ := moved_plain t h3 _ _ l2 b2
  rw [b3, a3] at c3
  simp only [List.map_map] at c3
  rcases diagonal_leaf g hx hy with h | ⟨x0, y0, l0, e0, -, hw, hc⟩
  · simp [diagonal] at h
  · have e0' := e0
    rw [diagonal] at e0'
    cases e0'
    obtain ⟨r, k1, -, k3⟩ := leaf_box g 0 0 [.line false 1 1] _ _ l3 (by rw [hg]) c2 (c3.trans (by
      congr 1
      funext f s
      exact (hg (f s)).symm)) hw hc
    refine ⟨r, ?_, k3⟩
    rw [getBBox, diagonal, usedData_cons t x y rt _ _ _ (by rw [hu, a1]), b1, ok_bind, c1]
    exact k1

/-- **C86 fails** for a `use` element with a transform, which is applied twice: the line from
(0, 0) is drawn at (10, 0), but the box begins at 20. -/
theorem use_transform_violated : ∃ r p, Draws (.use false (some (flatMat 1 0 0 1 10 0)) 0 0 none (.ok diagonal)) p ∧
    getBBox true (.use false (some (flatMat 1 0 0 1 10 0)) 0 0 none (.ok diagonal)) = .ok r ∧ ¬ Mem p r := by
  obtain ⟨r, e1, e2⟩ := use_two (some (flatMat 1 0 0 1 10 0)) none (some (flatMat 1 0 0 1 10 0)) 0 0 (fun p => (p.1 + 20, p.2))
    (by simp [useMatrix]) (by rintro m h; cases h; rfl) (by simp) (by rintro m h; cases h; rfl)
    (by intro p; simp only [flatMat_map]; simp only [mapBy]; exact Prod.ext (by simp only; ring) (by simp only; ring))
    (by norm_num) (by norm_num)
  refine ⟨r, (10, 0), ?_, e1, fun hm => ?_⟩
  · have := Draws.use false (some (flatMat 1 0 0 1 10 0)) 0 0 none diagonal (0, 0) ((diagonal_traced _).2 ⟨0, by norm_num, rfl⟩)
    simpa [flatMat_map, mapBy_none] using this
  · have := e2.2 20 21 0 1 (by
      rintro _ ⟨p, hp, rfl⟩
      obtain ⟨t, ⟨h0, h1⟩, rfl⟩ := (diagonal_traced _).1 hp
      simp only
      refine ⟨?_, ?_, ?_, ?_⟩ <;> linarith) (10, 0) hm
    norm_num at this

/-- **C86 fails** for a `use` element that moves an element with a transform: the transform is
applied after the translation.  The line is scaled by 2 and moved by 10, but the box begins at
20. -/
theorem use_order_violated : ∃ r p, Draws (.use false none 10 0 (some (flatMat 2 0 0 2 0 0)) (.ok diagonal)) p ∧
    getBBox true (.use false none 10 0 (some (flatMat 2 0 0 2 0 0)) (.ok diagonal)) = .ok r ∧ ¬ Mem p r := by
  obtain ⟨m, em, m2, mm⟩ := use_shift 10 0 (.inl (by norm_num))
  obtain ⟨r, e1, e2⟩ := use_two none (some (flatMat 2 0 0 2 0 0)) (some m) 10 0 (fun p => (2 * p.1 + 20, 2 * p.2))
    em (by rintro m' h; cases h; exact m2) (by rintro m h; cases h; rfl) (by simp)
    (by intro p; rw [mm]; simp only [flatMat_map]; simp only [mapBy]; exact Prod.ext (by simp only; ring) (by simp only; ring))
    (by norm_num) (by norm_num)
  refine ⟨r, (10, 0), ?_, e1, fun hm => ?_⟩
  · have := Draws.use false none 10 0 (some (flatMat 2 0 0 2 0 0)) diagonal (0, 0) ((diagonal_traced _).2 ⟨0, by norm_num, rfl⟩)
    simpa [flatMat_map, mapBy_none] using this
  · have := e2.2 20 22 0 2 (by
      rintro _ ⟨p, hp, rfl⟩
      obtain ⟨t, ⟨h0, h1⟩, rfl⟩ := (diagonal_traced _).1 hp
      simp only
      refine ⟨?_, ?_, ?_, ?_⟩ <;> linarith) (10, 0) hm
    norm_num at this

/-- **C86 fails** for a group with a `marker` or `pattern`, which draws nothing by itself but has
its part in the box. -/
theorem marker_box_violated (name : Str) (hn : name = "marker".toList ∨ name = "pattern".toList) :
    ∃ r p, getBBox false (.container "g".toList false none [.container name false none [.shape false none (.ok diagonal)]]) = .ok r ∧
      Mem p r ∧ ∀ q, ¬ Draws (.container "g".toList false none [.container name false none [.shape false none (.ok diagonal)]]) q := by
  have h1 : ¬ (name = "defs".toList ∨ name = "symbol".toList) := by rcases hn with rfl | rfl <;> decide
  have h2 : ¬ ("g".toList = "defs".toList ∨ "g".toList = "symbol".toList) := by decide
  have e : getBBox false (.container "g".toList false none [.container name false none [.shape false none (.ok diagonal)]]) =
      getBBox true (.container "g".toList false none [.container "g".toList false none [.shape false none (.ok diagonal)]]) := by
    simp only [getBBox, childBoxes, skipped, h1, h2, if_false]
    congr 1
  have hf : Fine Straight (.container "g".toList false none [.container "g".toList false none [.shape false none (.ok diagonal)]]) := by
    refine .group _ _ _ _ (.inr rfl) (by simp) fun a ha _ => ?_
    rw [List.mem_singleton] at ha
    subst ha
    refine .group _ _ _ _ (.inr rfl) (by simp) fun a ha _ => ?_
    rw [List.mem_singleton] at ha
    subst ha
    exact .shape _ _ _ (by simp) (diagonal_leaf _ (by simp [mapBy]) (by simp [mapBy]))
  obtain ⟨r, e1, e2⟩ := element_box_partial _ hf
  refine ⟨r, (0, 0), e.trans e1, e2.1 _ ?_, ?_⟩
  · have := Draws.shape false none diagonal (0, 0) ((diagonal_traced _).2 ⟨0, by norm_num, rfl⟩)
    have := Draws.child "g".toList false none _ _ _ (.inr rfl) (List.mem_singleton_self _) (by trivial) this
    exact Draws.child "g".toList false none _ _ _ (.inr rfl) (List.mem_singleton_self _) (by trivial) this
  · intro q h
    cases h with
    | child _ _ _ _ a p _ ha _ hd =>
      rw [List.mem_singleton] at ha
      subst ha
      cases hd with
      | child _ _ _ _ _ _ hx => rcases hn with rfl | rfl <;> rcases hx with h | h <;> exact absurd h (by decide)

/-- **C86 fails** to be exact for a group that is turned by 45 degrees (and scaled): the line from
(0, 0) to (1, 1) is turned to a vertical line, but the box has the width 2. -/
theorem turned_box_violated : ∃ r, getBBox true (.container "g".toList false (some (flatMat 1 1 (-1) 1 0 0))
      [.shape false none (.ok diagonal)]) = .ok r ∧
    ¬ IsBoundingBox {p | Draws (.container "g".toList false (some (flatMat 1 1 (-1) 1 0 0)) [.shape false none (.ok diagonal)]) p} r := by
  have hp : Proper (flatMat 1 1 (-1) 1 0 0) := by
    simp only [Proper, flatMat, Matrix.get, matrix2d, row, col]
    norm_num
  have hf : Fine Proper (.container "g".toList false (some (flatMat 1 1 (-1) 1 0 0)) [.shape false none (.ok diagonal)]) := by
    refine .group _ _ _ _ (.inr rfl) (by rintro m h; cases h; exact hp) fun a ha _ => ?_
    rw [List.mem_singleton] at ha
    subst ha
    exact .shape _ _ _ (by simp) (diagonal_leaf _ (by simp [mapBy]) (by simp [mapBy]))
  obtain ⟨r, e1, e2, -⟩ := holds_box _ hf
  refine ⟨r, e1, fun hb => ?_⟩
  have h0 : Draws (.container "g".toList false (some (flatMat 1 1 (-1) 1 0 0)) [.shape false none (.ok diagonal)]) (0, 0) := by
    have := Draws.shape false none diagonal (0, 0) ((diagonal_traced _).2 ⟨0, by norm_num, rfl⟩)
    have := Draws.child "g".toList false (some (flatMat 1 1 (-1) 1 0 0)) _ _ _ (.inr rfl) (List.mem_singleton_self _) (by trivial) this
    simpa [flatMat_map, mapBy_none] using this
  obtain ⟨x, y, w, h, rfl, hw, hh⟩ := mem_good e2 (hb.1 _ h0)
  have k : ∀ p, Mem p (⟨some x, some y, w, h⟩ : DRect ℝ) → 0 ≤ p.1 ∧ p.1 ≤ 0 ∧ 0 ≤ p.2 ∧ p.2 ≤ 2 := by
    refine hb.2 0 0 0 2 ?_
    intro p hp
    cases hp with
    | child _ _ _ _ a p _ ha _ hd =>
      rw [List.mem_singleton] at ha
      subst ha
      cases hd with
      | shape _ _ _ p hp =>
        obtain ⟨t, ⟨h0, h1⟩, rfl⟩ := (diagonal_traced _).1 hp
        rw [flatMat_map]
        simp only [mapBy]
        refine ⟨?_, ?_, ?_, ?_⟩ <;> linarith
  have a := k (x, y) ⟨x, y, rfl, rfl, by simp [hw.le, hh.le]⟩
  have b := k (x + w, y) ⟨x, y, rfl, rfl, by simp [hw.le, hh.le]⟩
  simp only at a b
  linarith

/-- **C86 fails** for a group with a transform whose children have no area: the box is not
transformed. -/
theorem flat_box_violated : ∃ r p, Draws (.container "g".toList false (some (flatMat 1 0 0 1 10 0))
      [.shape false none (.ok [.move false 0 0, .line false 3 0])]) p ∧
    getBBox true (.container "g".toList false (some (flatMat 1 0 0 1 10 0))
      [.shape false none (.ok [.move false 0 0, .line false 3 0])]) = .ok r ∧ ¬ Mem p r := by
  have eb : bbox [.move false 0 0, .line false 3 0] = .ok ⟨some 0, some 0, 0, 0⟩ := by
    have h := lineBox_eq (0, 0) (3, 0)
    simp [bbox, bboxFrom, bboxStep, Seg.rel, Seg.kind, segBBox, normalizeSeg, boxLoop, boxStep, Except.map, takeBox, endPt,
      DRect.isvalid, DRect.new, orZero, h, PathGeom.known, DRect.unite, DRect.uniteXY, DRect.contains, DRect.right, DRect.bottom, setCoords]
  have h2 : ¬ ("g".toList = "defs".toList ∨ "g".toList = "symbol".toList) := by decide
  refine ⟨⟨some 0, some 0, 0, 0⟩, (10, 0), ?_, ?_, ?_⟩
  · have := Draws.shape false none [.move false 0 0, .line false 3 0] (0, 0) (.inl ⟨0, 0, _, rfl, rfl⟩)
    have := Draws.child "g".toList false (some (flatMat 1 0 0 1 10 0)) _ _ _ (.inr rfl) (List.mem_singleton_self _) (by trivial) this
    simpa [flatMat_map, mapBy_none] using this
  · have e1 : getBBox true (.shape false none (.ok [.move false 0 0, .line false 3 0])) = .ok ⟨some 0, some 0, 0, 0⟩ := by
      rw [getBBox, shapeData_cons]
      exact eb
    have eu : (DRect.new : DRect ℝ).unite ⟨some 0, some 0, 0, 0⟩ = ⟨some 0, some 0, 0, 0⟩ := by
      simp [DRect.unite, uniteXY_new]
    simp only [getBBox, h2, if_false, childBoxes, skipped, Bool.false_eq_true]
    rw [getBBox] at e1
    rw [e1, ok_bind, eu]
    simp only [Except.map, placed, if_true]
    rw [transform_no_area _ _ (.inl (le_refl _))]
  · rintro ⟨x, y, ex, ey, h1, h2, -⟩
    cases ex
    norm_num at h2

end SvgPy.ElementBox
