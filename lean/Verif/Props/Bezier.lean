import Verif.Model.Bezier
import Verif.Props.PathGeom
import Verif.Props.Rect
import Mathlib.Analysis.Calculus.LocalExtr.Basic
import Mathlib.Analysis.Calculus.Deriv.Mul
import Mathlib.Analysis.Calculus.Deriv.Add
import Mathlib.Analysis.Calculus.Deriv.Pow
import Mathlib.Tactic.FieldSimp
import Mathlib.Tactic.LinearCombination

/-! Properties C16 and C17: bounding boxes of curves and of paths. -/

set_option linter.unusedSimpArgs false

namespace SvgPy.Bezier

open SvgPy.PathGeom SvgPy.Path SvgPy.Rect Set

/-! ### Specification -/

/-- The box holds the stroke (all points `f t` with `0 ≤ t ≤ 1`) and each of its four sides
touches it. -/
def Tight (f : ℝ → Pt) (r : DRect ℝ) : Prop :=
  ∃ x y, r.x = some x ∧ r.y = some y ∧
    (∀ t ∈ Icc (0:ℝ) 1, x ≤ (f t).1 ∧ (f t).1 ≤ x + r.width ∧ y ≤ (f t).2 ∧ (f t).2 ≤ y + r.height) ∧
    (∃ t ∈ Icc (0:ℝ) 1, (f t).1 = x) ∧ (∃ t ∈ Icc (0:ℝ) 1, (f t).1 = x + r.width) ∧
    (∃ t ∈ Icc (0:ℝ) 1, (f t).2 = y) ∧ (∃ t ∈ Icc (0:ℝ) 1, (f t).2 = y + r.height)

/-- The strokes of a drawing. -/
def strokes : List Piece → List (ℝ → Pt)
  | [] => []
  | .draw f :: l => f :: strokes l
  | .close f :: l => f :: strokes l
  | _ :: l => strokes l

/-- A stroke that runs along one horizontal or vertical line (or is one point). -/
def Flat (f : ℝ → Pt) : Prop :=
  (∃ x, ∀ t ∈ Icc (0:ℝ) 1, (f t).1 = x) ∨ (∃ y, ∀ t ∈ Icc (0:ℝ) 1, (f t).2 = y)

/-- A stroke that is one point. -/
def Still (f : ℝ → Pt) : Prop := ∃ p, ∀ t ∈ Icc (0:ℝ) 1, f t = p

/-- The part of a stroke that the bounding box of a path respects: of a flat stroke only
its upper left end. -/
def kept (f : ℝ → Pt) : Set Pt :=
  {p | p ∈ f '' Icc (0:ℝ) 1 ∧ (Flat f → ∀ t ∈ Icc (0:ℝ) 1, p.1 ≤ (f t).1 ∧ p.2 ≤ (f t).2)}

/-- The segments `PathParser.get_bbox` accepts. -/
def Plain (s : Seg ℝ) : Prop := s.rel = false ∧ (s.kind = .C ∨ s.kind = .L ∨ s.kind = .M ∨ s.kind = .Z)

/-! ### C16 -/

theorem roots_complete (a b c u : ℝ) (h : a * u ^ 2 + b * u + c = 0) (hab : ¬ (a = 0 ∧ b = 0)) : u ∈ rootsAt a b c := by
  have hd : b ^ 2 - 4 * a * c = (2 * a * u + b) ^ 2 := by linear_combination (-4 * a) * h
  have hd0 : ¬ b ^ 2 - 4 * a * c < 0 := by rw [hd]; exact not_lt.mpr (sq_nonneg _)
  unfold rootsAt
  simp only
  rw [if_neg hd0]
  by_cases ha : a = 0
  · have hb : b ≠ 0 := fun hb => hab ⟨ha, hb⟩
    rw [if_pos ⟨ha, hb⟩]
    subst ha
    simp only [List.mem_singleton]
    field_simp
    linear_combination h
  · rw [if_neg (fun h => ha h.1)]
    have key : u = solve a b c true ∨ u = solve a b c false := by
      unfold solve
      rw [hd, Real.sqrt_sq_eq_abs]
      rcases abs_choice (2 * a * u + b) with e | e <;> rw [e]
      · left; field_simp; simp
      · right; field_simp; simp
    by_cases h0 : b ^ 2 - 4 * a * c = 0
    · rw [if_pos ⟨h0, ha⟩]
      rw [List.mem_singleton]
      have : solve a b c false = solve a b c true := by unfold solve; rw [h0]; simp
      rw [this, or_self] at key
      exact key
    · rw [if_neg (fun h => h0 h.1), if_pos ha]
      simpa using key

theorem hasDeriv_pointAt (a b c d t : ℝ) :
    HasDerivAt (pointAt a b c d) (3 * coefA a b c d * t ^ 2 + 2 * coefB a b c * t + coefC a b) t := by
  unfold pointAt
  have h1 : HasDerivAt (fun t : ℝ => coefA a b c d * t ^ 3) (coefA a b c d * (3 * t ^ 2)) t := by
    simpa using (hasDerivAt_pow 3 t).const_mul (coefA a b c d)
  have h2 : HasDerivAt (fun t : ℝ => coefB a b c * t ^ 2) (coefB a b c * (2 * t)) t := by
    simpa using (hasDerivAt_pow 2 t).const_mul (coefB a b c)
  have h3 : HasDerivAt (fun t : ℝ => coefC a b * t) (coefC a b) t := by
    simpa using (hasDerivAt_id t).const_mul (coefC a b)
  exact (((h1.add h2).add h3).add_const a).congr_deriv (by ring)

theorem pointAt_continuous (a b c d : ℝ) : Continuous (pointAt a b c d) :=
  continuous_iff_continuousAt.mpr fun t => (hasDeriv_pointAt a b c d t).continuousAt

/-- An extremum of a coordinate is taken at an end or at a root. -/
theorem extremum (a b c d t : ℝ) (ht : t ∈ Icc (0:ℝ) 1)
    (h : IsMinOn (pointAt a b c d) (Icc 0 1) t ∨ IsMaxOn (pointAt a b c d) (Icc 0 1) t) :
    ∃ s, (s = 0 ∨ s = 1 ∨ (s ∈ rootsOf a b c d ∧ 0 ≤ s ∧ s ≤ 1)) ∧ pointAt a b c d s = pointAt a b c d t := by
  rcases eq_or_lt_of_le ht.1 with h0 | h0
  · exact ⟨t, .inl h0.symm, rfl⟩
  rcases eq_or_lt_of_le ht.2 with h1 | h1
  · exact ⟨t, .inr (.inl h1), rfl⟩
  have hn : Icc (0:ℝ) 1 ∈ nhds t := Icc_mem_nhds h0 h1
  have hd : 3 * coefA a b c d * t ^ 2 + 2 * coefB a b c * t + coefC a b = 0 := by
    rcases h with h | h
    · exact (h.isLocalMin hn).hasDerivAt_eq_zero (hasDeriv_pointAt a b c d t)
    · exact (h.isLocalMax hn).hasDerivAt_eq_zero (hasDeriv_pointAt a b c d t)
  by_cases hab : 3 * coefA a b c d = 0 ∧ 2 * coefB a b c = 0
  · refine ⟨0, .inl rfl, ?_⟩
    have e1 : coefA a b c d = 0 := by linarith [hab.1]
    have e2 : coefB a b c = 0 := by linarith [hab.2]
    have e3 : coefC a b = 0 := by rw [e1, e2] at hd; linarith
    simp [pointAt, e1, e2, e3]
  · exact ⟨t, .inr (.inr ⟨roots_complete _ _ _ _ hd hab, ht.1, ht.2⟩), rfl⟩

theorem foldl_min_le (l : List ℝ) (x : ℝ) : l.foldl min x ≤ x ∧ ∀ y ∈ l, l.foldl min x ≤ y := by
  induction l generalizing x with
  | nil => simp
  | cons z l ih =>
    obtain ⟨h1, h2⟩ := ih (min x z)
    refine ⟨le_trans h1 (min_le_left _ _), ?_⟩
    intro y hy
    rcases List.mem_cons.mp hy with rfl | hy
    · exact le_trans h1 (min_le_right _ _)
    · exact h2 y hy

theorem foldl_min_mem (l : List ℝ) (x : ℝ) : l.foldl min x = x ∨ l.foldl min x ∈ l := by
  induction l generalizing x with
  | nil => simp
  | cons z l ih =>
    rcases ih (min x z) with h | h
    · rcases min_choice x z with e | e
      · left; simp only [List.foldl_cons]; rw [h, e]
      · right; simp only [List.foldl_cons]; rw [h, e]; exact List.mem_cons_self
    · right; simp only [List.foldl_cons]; exact List.mem_cons_of_mem _ h

theorem le_foldl_max (l : List ℝ) (x : ℝ) : x ≤ l.foldl max x ∧ ∀ y ∈ l, y ≤ l.foldl max x := by
  induction l generalizing x with
  | nil => simp
  | cons z l ih =>
    obtain ⟨h1, h2⟩ := ih (max x z)
    refine ⟨le_trans (le_max_left _ _) h1, ?_⟩
    intro y hy
    rcases List.mem_cons.mp hy with rfl | hy
    · exact le_trans (le_max_right _ _) h1
    · exact h2 y hy

theorem foldl_max_mem (l : List ℝ) (x : ℝ) : l.foldl max x = x ∨ l.foldl max x ∈ l := by
  induction l generalizing x with
  | nil => simp
  | cons z l ih =>
    rcases ih (max x z) with h | h
    · rcases max_choice x z with e | e
      · left; simp only [List.foldl_cons]; rw [h, e]
      · right; simp only [List.foldl_cons]; rw [h, e]; exact List.mem_cons_self
    · right; simp only [List.foldl_cons]; exact List.mem_cons_of_mem _ h

/-- Least and greatest of the first value and a list of values of the coordinate that
includes those at 1 and at the roots. -/
theorem bounds (a b c d : ℝ) (l : List ℝ) (h1 : (1:ℝ) ∈ l) (hr : ∀ s ∈ rootsOf a b c d, 0 ≤ s → s ≤ 1 → s ∈ l)
    (hl : ∀ s ∈ l, s ∈ Icc (0:ℝ) 1) :
    (∀ t ∈ Icc (0:ℝ) 1, (l.map (pointAt a b c d)).foldl min a ≤ pointAt a b c d t ∧
      pointAt a b c d t ≤ (l.map (pointAt a b c d)).foldl max a) ∧
    (∃ t ∈ Icc (0:ℝ) 1, pointAt a b c d t = (l.map (pointAt a b c d)).foldl min a) ∧
    (∃ t ∈ Icc (0:ℝ) 1, pointAt a b c d t = (l.map (pointAt a b c d)).foldl max a) := by
  have e0 : pointAt a b c d 0 = a := by simp [pointAt]
  obtain ⟨n1, n2⟩ := foldl_min_le (l.map (pointAt a b c d)) a
  obtain ⟨x1, x2⟩ := le_foldl_max (l.map (pointAt a b c d)) a
  have hc : ∀ s, (s = 0 ∨ s = 1 ∨ (s ∈ rootsOf a b c d ∧ 0 ≤ s ∧ s ≤ 1)) →
      (l.map (pointAt a b c d)).foldl min a ≤ pointAt a b c d s ∧
        pointAt a b c d s ≤ (l.map (pointAt a b c d)).foldl max a := by
    rintro s (rfl | rfl | ⟨h, h', h''⟩)
    · rw [e0]; exact ⟨n1, x1⟩
    · exact ⟨n2 _ (List.mem_map_of_mem h1), x2 _ (List.mem_map_of_mem h1)⟩
    · exact ⟨n2 _ (List.mem_map_of_mem (hr s h h' h'')), x2 _ (List.mem_map_of_mem (hr s h h' h''))⟩
  have hcomp : IsCompact (Icc (0:ℝ) 1) := isCompact_Icc
  have hne : (Icc (0:ℝ) 1).Nonempty := ⟨0, by norm_num, by norm_num⟩
  obtain ⟨u, hu, hu'⟩ := hcomp.exists_isMinOn hne (pointAt_continuous a b c d).continuousOn
  obtain ⟨v, hv, hv'⟩ := hcomp.exists_isMaxOn hne (pointAt_continuous a b c d).continuousOn
  obtain ⟨s, hs, es⟩ := extremum a b c d u hu (.inl hu')
  obtain ⟨w, hw, ew⟩ := extremum a b c d v hv (.inr hv')
  refine ⟨fun t ht => ⟨?_, ?_⟩, ?_, ?_⟩
  · exact le_trans (es ▸ (hc s hs).1) (hu' ht)
  · exact le_trans (hv' ht) (ew ▸ (hc w hw).2)
  · rcases foldl_min_mem (l.map (pointAt a b c d)) a with h | h
    · exact ⟨0, by norm_num, by rw [h, e0]⟩
    · obtain ⟨s, hs, e⟩ := List.mem_map.mp h
      exact ⟨s, hl s hs, e⟩
  · rcases foldl_max_mem (l.map (pointAt a b c d)) a with h | h
    · exact ⟨0, by norm_num, by rw [h, e0]⟩
    · obtain ⟨s, hs, e⟩ := List.mem_map.mp h
      exact ⟨s, hl s hs, e⟩

theorem point_eq (p c d q : Pt) (t : ℝ) : Curve.point ⟨p, c, d, q⟩ t = cubicAt p c d q t := by
  simp only [Curve.point, pointAt, coefA, coefB, coefC, cubicAt]
  ext <;> simp only <;> ring

/-- **C16** The box of a cubic curve holds all its points and touches it on each side. -/
theorem curve_bbox (p c d q : Pt) : Tight (cubicAt p c d q) (Curve.bbox ⟨p, c, d, q⟩) := by
  set k : Curve := ⟨p, c, d, q⟩ with hk
  have hl : ∀ s ∈ (1:ℝ) :: k.roots, s ∈ Icc (0:ℝ) 1 := by
    intro s hs
    rcases List.mem_cons.mp hs with rfl | hs
    · constructor <;> norm_num
    · simpa using (List.mem_filter.mp hs).2
  have hr1 : ∀ s ∈ rootsOf p.1 c.1 d.1 q.1, 0 ≤ s → s ≤ 1 → s ∈ (1:ℝ) :: k.roots := by
    intro s hs h0 h1
    exact List.mem_cons_of_mem _ (List.mem_filter.mpr ⟨List.mem_append_left _ hs, by simp [h0, h1]⟩)
  have hr2 : ∀ s ∈ rootsOf p.2 c.2 d.2 q.2, 0 ≤ s → s ≤ 1 → s ∈ (1:ℝ) :: k.roots := by
    intro s hs h0 h1
    exact List.mem_cons_of_mem _ (List.mem_filter.mpr ⟨List.mem_append_right _ hs, by simp [h0, h1]⟩)
  have b1 := bounds p.1 c.1 d.1 q.1 (1 :: k.roots) List.mem_cons_self hr1 hl
  have b2 := bounds p.2 c.2 d.2 q.2 (1 :: k.roots) List.mem_cons_self hr2 hl
  have m1 : ((k.p3 :: k.roots.map k.point).map Prod.fst) = ((1:ℝ) :: k.roots).map (pointAt p.1 c.1 d.1 q.1) := by
    simp only [List.map_cons, List.map_map]
    congr 1
    simp only [hk, pointAt, coefA, coefB, coefC]; ring
  have m2 : ((k.p3 :: k.roots.map k.point).map Prod.snd) = ((1:ℝ) :: k.roots).map (pointAt p.2 c.2 d.2 q.2) := by
    simp only [List.map_cons, List.map_map]
    congr 1
    simp only [hk, pointAt, coefA, coefB, coefC]; ring
  have f1 : ∀ t, (cubicAt p c d q t).1 = pointAt p.1 c.1 d.1 q.1 t := fun t => by rw [← point_eq]; rfl
  have f2 : ∀ t, (cubicAt p c d q t).2 = pointAt p.2 c.2 d.2 q.2 t := fun t => by rw [← point_eq]; rfl
  unfold Curve.bbox
  simp only
  rw [m1, m2]
  refine ⟨_, _, rfl, rfl, ?_, ?_, ?_, ?_, ?_⟩
  · intro t ht
    rw [f1, f2]
    refine ⟨(b1.1 t ht).1, ?_, (b2.1 t ht).1, ?_⟩
    · have := (b1.1 t ht).2
      simp only [hk] at this ⊢
      linarith
    · have := (b2.1 t ht).2
      simp only [hk] at this ⊢
      linarith
  · obtain ⟨t, ht, e⟩ := b1.2.1
    exact ⟨t, ht, by rw [f1, e]⟩
  · obtain ⟨t, ht, e⟩ := b1.2.2
    exact ⟨t, ht, by rw [f1, e]; ring⟩
  · obtain ⟨t, ht, e⟩ := b2.2.1
    exact ⟨t, ht, by rw [f2, e]⟩
  · obtain ⟨t, ht, e⟩ := b2.2.2
    exact ⟨t, ht, by rw [f2, e]; ring⟩

/-- Tight boxes are the smallest boxes. -/
theorem tight_isBoundingBox (f : ℝ → Pt) (r : DRect ℝ) (h : Tight f r) : IsBoundingBox (f '' Icc 0 1) r := by
  obtain ⟨x, y, ex, ey, hb, ⟨t1, ht1, e1⟩, ⟨t2, ht2, e2⟩, ⟨t3, ht3, e3⟩, ⟨t4, ht4, e4⟩⟩ := h
  constructor
  · rintro _ ⟨t, ht, rfl⟩
    exact ⟨x, y, ex, ey, hb t ht⟩
  · rintro xlo xhi ylo yhi h p ⟨x', y', ex', ey', h1, h2, h3, h4⟩
    rw [ex] at ex'; rw [ey] at ey'
    cases ex'; cases ey'
    have a1 := (h _ ⟨t1, ht1, rfl⟩).1
    have a2 := (h _ ⟨t2, ht2, rfl⟩).2.1
    have a3 := (h _ ⟨t3, ht3, rfl⟩).2.2.1
    have a4 := (h _ ⟨t4, ht4, rfl⟩).2.2.2
    rw [e1] at a1; rw [e2] at a2; rw [e3] at a3; rw [e4] at a4
    exact ⟨a1.trans h1, h2.trans a2, a3.trans h3, h4.trans a4⟩

/-! ### C17 -/

theorem lineBox_eq (p q : Pt) : lineBox p q = .ok ⟨some (min p.1 q.1), some (min p.2 q.2), |q.1 - p.1|, |q.2 - p.2|⟩ := by
  unfold lineBox DRect.normalize
  by_cases h1 : q.1 - p.1 < 0 <;> by_cases h2 : q.2 - p.2 < 0
  · rw [min_eq_right (by linarith), min_eq_right (by linarith), abs_of_neg h1, abs_of_neg h2]
    simp only [h1, h2, if_true]
    simp [bind, Except.bind, pure, Except.pure]
  · rw [min_eq_right (by linarith), min_eq_left (by linarith), abs_of_neg h1, abs_of_nonneg (by linarith)]
    simp only [h1, h2, if_true, if_false]
    simp [bind, Except.bind, pure, Except.pure]
  · rw [min_eq_left (by linarith), min_eq_right (by linarith), abs_of_nonneg (by linarith), abs_of_neg h2]
    simp only [h1, h2, if_true, if_false]
    simp [bind, Except.bind, pure, Except.pure]
  · rw [min_eq_left (by linarith), min_eq_left (by linarith), abs_of_nonneg (by linarith), abs_of_nonneg (by linarith)]
    simp only [h1, h2, if_true, if_false]
    simp [bind, Except.bind, pure, Except.pure]

theorem between (a b t : ℝ) (ht : t ∈ Icc (0:ℝ) 1) :
    min a b ≤ (1 - t) * a + t * b ∧ (1 - t) * a + t * b ≤ min a b + |b - a| := by
  obtain ⟨h0, h1⟩ := ht
  rcases le_total a b with h | h
  · rw [min_eq_left h, abs_of_nonneg (by linarith)]
    constructor <;> nlinarith
  · rw [min_eq_right h, abs_of_nonpos (by linarith)]
    constructor <;> nlinarith

theorem attained (a b : ℝ) : (∃ t ∈ Icc (0:ℝ) 1, (1 - t) * a + t * b = min a b) ∧
    (∃ t ∈ Icc (0:ℝ) 1, (1 - t) * a + t * b = min a b + |b - a|) := by
  have z : (0:ℝ) ∈ Icc (0:ℝ) 1 := by constructor <;> norm_num
  have o : (1:ℝ) ∈ Icc (0:ℝ) 1 := by constructor <;> norm_num
  rcases le_total a b with h | h
  · rw [min_eq_left h, abs_of_nonneg (by linarith)]
    exact ⟨⟨0, z, by ring⟩, ⟨1, o, by ring⟩⟩
  · rw [min_eq_right h, abs_of_nonpos (by linarith)]
    exact ⟨⟨1, o, by ring⟩, ⟨0, z, by ring⟩⟩

/-- The box of a line is tight. -/
theorem line_bbox (p q : Pt) : ∃ r, lineBox p q = .ok r ∧ Tight (lineAt p q) r :=
  ⟨_, lineBox_eq p q, _, _, rfl, rfl,
    fun t ht => ⟨(between _ _ t ht).1, (between _ _ t ht).2, (between _ _ t ht).1, (between _ _ t ht).2⟩,
    (attained _ _).1, (attained _ _).2, (attained _ _).1, (attained _ _).2⟩

/-- Uniting a tight box with an empty box gives a box around the kept part. -/
theorem kept_box (f : ℝ → Pt) (r : DRect ℝ) (h : Tight f r) :
    AreaOrPoint (DRect.new.unite r) ∧ IsBoundingBox (kept f) (DRect.new.unite r) := by
  have hbb := tight_isBoundingBox f r h
  obtain ⟨x, y, ex, ey, hb, ⟨t1, ht1, e1⟩, ⟨t2, ht2, e2⟩, ⟨t3, ht3, e3⟩, ⟨t4, ht4, e4⟩⟩ := h
  obtain ⟨rx, ry, w, hh⟩ := r
  simp only at ex ey hb e2 e4
  subst ex ey
  have hw : 0 ≤ w := by have := (hb t1 ht1).2.1; rw [e1] at this; linarith
  have hhh : 0 ≤ hh := by have := (hb t3 ht3).2.2.2; rw [e3] at this; linarith
  by_cases harea : 0 < w ∧ 0 < hh
  · have e : DRect.new.unite ⟨some x, some y, w, hh⟩ = ⟨some x, some y, w, hh⟩ := uniteXY_new x y w hh (.inl harea)
    rw [e]
    refine ⟨.inl harea, ?_⟩
    have hnf : ¬ Flat f := by
      rintro (⟨x', hx⟩ | ⟨y', hy⟩)
      · rw [hx t1 ht1] at e1; rw [hx t2 ht2] at e2; linarith [harea.1]
      · rw [hy t3 ht3] at e3; rw [hy t4 ht4] at e4; linarith [harea.2]
    have : kept f = f '' Icc 0 1 := by
      ext p; simp [kept, hnf]
    rw [this]; exact hbb
  · have hs : w ≤ 0 ∨ hh ≤ 0 := by
      by_contra hc
      rw [not_or, not_le, not_le] at hc
      exact harea hc
    have e : DRect.new.unite ⟨some x, some y, w, hh⟩ = ⟨some x, some y, 0, 0⟩ := by
      rw [unite_segment_is_near_corner _ _ _ _ _ hs]
      exact uniteXY_new x y 0 0 (.inr ⟨rfl, rfl⟩)
    rw [e]
    refine ⟨.inr ⟨rfl, rfl⟩, ?_⟩
    have hflat : Flat f := by
      rcases hs with hs | hs
      · left; exact ⟨x, fun t ht => le_antisymm (by linarith [(hb t ht).2.1]) (hb t ht).1⟩
      · right; exact ⟨y, fun t ht => le_antisymm (by linarith [(hb t ht).2.2.2]) (hb t ht).2.2.1⟩
    have hmem : (x, y) ∈ kept f := by
      refine ⟨?_, fun _ t ht => ⟨(hb t ht).1, (hb t ht).2.2.1⟩⟩
      rcases hs with hs | hs
      · refine ⟨t3, ht3, Prod.ext ?_ e3⟩
        exact le_antisymm (by linarith [(hb t3 ht3).2.1]) (hb t3 ht3).1
      · refine ⟨t1, ht1, Prod.ext e1 ?_⟩
        exact le_antisymm (by linarith [(hb t1 ht1).2.2.2]) (hb t1 ht1).2.2.1
    have honly : ∀ p ∈ kept f, p = (x, y) := by
      rintro p ⟨⟨t, ht, rfl⟩, hp⟩
      have h1 := (hp hflat t1 ht1).1
      have h2 := (hp hflat t3 ht3).2
      rw [e1] at h1; rw [e3] at h2
      exact Prod.ext (le_antisymm h1 (hb t ht).1) (le_antisymm h2 (hb t ht).2.2.1)
    constructor
    · intro p hp
      rw [honly p hp]
      exact ⟨x, y, rfl, rfl, by simp⟩
    · rintro xlo xhi ylo yhi h p ⟨x', y', ex', ey', h1, h2, h3, h4⟩
      cases ex'; cases ey'
      have := h _ hmem
      simp only [add_zero] at h2 h4 this
      rw [show p = (x, y) from Prod.ext (le_antisymm h2 h1) (le_antisymm h4 h3)]
      exact this

theorem bounding_union (S T : Set Pt) (a b : DRect ℝ) (ha : Accum a) (hb : AreaOrPoint b) (hS : IsBoundingBox S a)
    (hT : IsBoundingBox T b) : IsBoundingBox (S ∪ T) (a.unite b) := by
  have h := unite_isBoundingBox_partial a b ha hb
  constructor
  · rintro p (hp | hp)
    · exact h.1 p (.inl (hS.1 p hp))
    · exact h.1 p (.inr (hT.1 p hp))
  · intro xlo xhi ylo yhi hp
    apply h.2
    rintro p (hp' | hp')
    · exact hS.2 _ _ _ _ (fun q hq => hp q (.inl hq)) p hp'
    · exact hT.2 _ _ _ _ (fun q hq => hp q (.inr hq)) p hp'

/-- The box of one segment drawn from a known point. -/
theorem segBBox_spec (pen : Pen) (s : Seg ℝ) (hs : Plain s) (hz : s.kind ≠ .Z) :
    ∃ r f, segBBox (some pen.cur.1, some pen.cur.2) 0 (none, none) s = .ok r ∧ AreaOrPoint r ∧ IsBoundingBox (kept f) r ∧
      ((s.kind = .M ∧ pen.moved = false) ∨ strokes (pen.step s).2 = [f]) := by
  obtain ⟨hr, hk⟩ := hs
  cases s <;> simp only [Seg.kind, Seg.rel, reduceCtorEq, or_false, false_or, or_true, ne_eq, not_true_eq_false,
    not_false_eq_true] at hr hk hz <;> subst hr
  case curve x1 y1 x2 y2 x y =>
    refine ⟨_, cubicAt pen.cur (x1, y1) (x2, y2) (x, y), rfl, (kept_box _ _ (curve_bbox _ _ _ _)).1,
      (kept_box _ _ (curve_bbox _ _ _ _)).2, .inr ?_⟩
    simp [Pen.step, strokes, Pen.at]
  case line x y =>
    obtain ⟨r, hr, ht⟩ := line_bbox pen.cur (x, y)
    refine ⟨DRect.new.unite r, lineAt pen.cur (x, y), ?_, (kept_box _ _ ht).1, (kept_box _ _ ht).2, .inr ?_⟩
    · simp only [segBBox, Seg.kind, reduceCtorEq, or_self, if_false, normalizeSeg, Seg.rel, boxLoop, boxStep]
      simp [boxLoop, boxStep, orZero, hr, Except.map]
    · simp [Pen.step, Pen.lineTo, strokes, Pen.at]
  case move x y =>
    obtain ⟨r, hr, ht⟩ := line_bbox pen.cur (x, y)
    refine ⟨DRect.new.unite r, lineAt pen.cur (x, y), ?_, (kept_box _ _ ht).1, (kept_box _ _ ht).2, ?_⟩
    · simp only [segBBox, Seg.kind, reduceCtorEq, or_self, if_false, normalizeSeg, Seg.rel, boxLoop, boxStep]
      simp [boxLoop, boxStep, hr, Except.map]
    · cases hm : pen.moved
      · left; exact ⟨rfl, rfl⟩
      · right; simp [Pen.step, hm, strokes, Pen.at]

/-- The state of the loop after the first moveto. -/
structure BInv (st : BState) (pen : Pen) (S : Set Pt) : Prop where
  cp : st.cp = (some pen.cur.1, some pen.cur.2)
  start : st.start = (some pen.start.1, some pen.start.2)
  last : st.last ≠ none
  moved : st.last = some .M ↔ pen.moved = true
  accum : Accum st.box
  box : IsBoundingBox S st.box

/-- What the strokes of a drawing leave. -/
def keptAll (l : List Piece) : Set Pt := {p | ∃ f ∈ strokes l, p ∈ kept f}

theorem strokes_append (a b : List Piece) : strokes (a ++ b) = strokes a ++ strokes b := by
  induction a with
  | nil => rfl
  | cons x a ih => cases x <;> simp [strokes, ih]

theorem keptAll_append (a b : List Piece) : keptAll (a ++ b) = keptAll a ∪ keptAll b := by
  ext p
  simp only [keptAll, strokes_append, List.mem_append, mem_ofPred_eq, mem_union]
  constructor
  · rintro ⟨f, h | h, hp⟩
    · exact .inl ⟨f, h, hp⟩
    · exact .inr ⟨f, h, hp⟩
  · rintro (⟨f, h, hp⟩ | ⟨f, h, hp⟩)
    · exact ⟨f, .inl h, hp⟩
    · exact ⟨f, .inr h, hp⟩

theorem keptAll_one (l : List Piece) (f : ℝ → Pt) (h : strokes l = [f]) : keptAll l = kept f := by
  ext p; simp [keptAll, h]

theorem bboxStep_inv (st : BState) (pen : Pen) (S : Set Pt) (h : BInv st pen S) (s : Seg ℝ) (hs : Plain s) :
    ∃ st', bboxStep st s = .ok st' ∧ BInv st' (pen.step s).1 (S ∪ keptAll (pen.step s).2) := by
  by_cases hz : s.kind = .Z
  · obtain ⟨r, f, e1, e2, e3, e4⟩ := segBBox_spec pen (.line false pen.start.1 pen.start.2)
      ⟨rfl, .inr (.inl rfl)⟩ (by simp [Seg.kind])
    have e5 : f = lineAt pen.cur pen.start := by
      rcases e4 with ⟨h, _⟩ | h
      · simp [Seg.kind] at h
      · simpa [Pen.step, Pen.lineTo, strokes, Pen.at, eq_comm] using h
    cases s <;> simp only [Seg.kind, reduceCtorEq] at hz
    case close rel =>
      obtain rfl : rel = false := hs.1
      have hk : keptAll (pen.step (.close false)).2 = kept f := keptAll_one _ _ (by simp [Pen.step, strokes, e5])
      refine ⟨⟨st.box.unite r, st.start, st.start, some .Z⟩, ?_, ?_⟩
      · simp only [bboxStep, Seg.rel, Seg.kind, reduceCtorEq, or_self, and_false, if_false, and_self, if_true, closeBox,
          h.start, h.cp, e1, Except.map]
      · rw [hk]
        exact ⟨h.start, h.start, by simp, by simp [Pen.step], accum_unite _ _ h.accum e2,
          bounding_union _ _ _ _ h.accum e2 h.box e3⟩
  · obtain ⟨r, f, e1, e2, e3, e4⟩ := segBBox_spec pen s hs hz
    have hk' : s.rel = false ∧ (s.kind = .C ∨ s.kind = .L ∨ s.kind = .M) := by
      refine ⟨hs.1, ?_⟩
      rcases hs.2 with h | h | h | h
      · exact .inl h
      · exact .inr (.inl h)
      · exact .inr (.inr h)
      · exact absurd h hz
    refine ⟨takeBox st s.kind r (endPt s), ?_, ?_⟩
    · rw [bboxStep, if_pos hk', h.cp, e1]; rfl
    · have hu := accum_unite _ _ h.accum e2
      have hb := bounding_union _ _ _ _ h.accum e2 h.box e3
      have hst : PathGeom.known st.start = true := by rw [h.start]; rfl
      obtain ⟨hr, hk⟩ := hk'
      cases s <;> simp only [Seg.kind, Seg.rel, reduceCtorEq, or_false, false_or, or_true, or_self] at hr hk e4 <;> subst hr
      case curve x1 y1 x2 y2 x y =>
        rw [keptAll_one _ f (by simpa using e4)]
        simp only [takeBox, Seg.kind, reduceCtorEq, if_false, hst, if_true]
        exact ⟨by simp [endPt, Pen.step, Pen.at], h.start, by simp, by simp [Pen.step], hu, hb⟩
      case line x y =>
        rw [keptAll_one _ f (by simpa using e4)]
        simp only [takeBox, Seg.kind, reduceCtorEq, if_false, hst, if_true]
        exact ⟨by simp [endPt, Pen.step, Pen.lineTo, Pen.at], h.start, by simp, by simp [Pen.step, Pen.lineTo], hu, hb⟩
      case move x y =>
        cases hm : pen.moved
        · have hl : st.last ≠ some .M := by rw [Ne, h.moved, hm]; simp
          have : keptAll (pen.step (.move false x y)).2 = ∅ := by
            ext p; simp [keptAll, Pen.step, hm, strokes]
          rw [this, union_empty]
          simp only [takeBox, Seg.kind, if_true, h.last, hl, if_false]
          exact ⟨by simp [endPt, Pen.step, hm, Pen.at], by simp [endPt, Pen.step, hm, Pen.at], by simp,
            by simp [Pen.step, hm], h.accum, h.box⟩
        · have hl : st.last = some .M := by rw [h.moved, hm]
          rw [keptAll_one _ f (by simpa [hm] using e4)]
          simp only [takeBox, Seg.kind, if_true, h.last, hl, if_false, reduceCtorEq]
          exact ⟨by simp [endPt, Pen.step, hm, Pen.at], by simp [Pen.step, hm, h.start], by simp,
            by simp [Pen.step, hm], hu, hb⟩

theorem bboxFrom_inv (st : BState) (pen : Pen) (S : Set Pt) (h : BInv st pen S) (l : List (Seg ℝ)) (hl : ∀ s ∈ l, Plain s) :
    ∃ r, bboxFrom st l = .ok r ∧ Accum r ∧ IsBoundingBox (S ∪ keptAll (pen.draw l)) r := by
  induction l generalizing st pen S with
  | nil =>
    refine ⟨st.box, rfl, h.accum, ?_⟩
    have : keptAll (pen.draw []) = ∅ := by ext p; simp [keptAll, Pen.draw, strokes]
    rw [this, union_empty]; exact h.box
  | cons s l ih =>
    obtain ⟨st', e, h'⟩ := bboxStep_inv st pen S h s (hl s List.mem_cons_self)
    obtain ⟨r, e', ha, hb⟩ := ih st' _ _ h' (fun s hs => hl s (List.mem_cons_of_mem _ hs))
    refine ⟨r, by simp only [bboxFrom, e, e'], ha, ?_⟩
    rw [Pen.draw, keptAll_append, ← union_assoc]
    exact hb

/-- What `PathParser.get_bbox` computes, for every path of absolute moves, lines, curves and
closings that begins with a move: the smallest box around the first point, all strokes that
are not flat, and the upper left ends of the flat ones. -/
theorem bbox_exact (x y : ℝ) (l : List (Seg ℝ)) (hl : ∀ s ∈ l, Plain s) :
    ∃ r, bbox (.move false x y :: l) = .ok r ∧ Accum r ∧
      IsBoundingBox ({(x, y)} ∪ {p | ∃ f ∈ strokes (Pen.new.draw (.move false x y :: l)), p ∈ kept f}) r := by
  have hb : BInv ⟨⟨some x, some y, 0, 0⟩, (some x, some y), (some x, some y), some .M⟩
      (Pen.new.step (.move false x y)).1 {(x, y)} := by
    refine ⟨rfl, rfl, by simp, by simp [Pen.step, Pen.new], .inr ⟨rfl, rfl, le_refl _, le_refl _⟩, ?_, ?_⟩
    · rintro p rfl
      exact ⟨x, y, rfl, rfl, by simp⟩
    · rintro xlo xhi ylo yhi h p ⟨x', y', ex', ey', h1, h2, h3, h4⟩
      cases ex'; cases ey'
      simp only [add_zero] at h2 h4
      rw [show p = (x, y) from Prod.ext (le_antisymm h2 h1) (le_antisymm h4 h3)]
      exact h _ rfl
  obtain ⟨r, e, ha, hr⟩ := bboxFrom_inv _ _ _ hb l hl
  refine ⟨r, ?_, ha, ?_⟩
  · rw [← e]
    simp [bbox, bboxFrom, bboxStep, Seg.rel, Seg.kind, segBBox, normalizeSeg, boxLoop, boxStep, Except.map, takeBox, endPt,
      DRect.isvalid, DRect.new]
  · have : keptAll (Pen.new.draw (.move false x y :: l)) = keptAll ((Pen.new.step (.move false x y)).1.draw l) := by
      rw [Pen.draw, keptAll_append]
      have : keptAll (Pen.new.step (.move false x y)).2 = ∅ := by ext p; simp [keptAll, Pen.step, Pen.new, strokes]
      rw [this, empty_union]
    show IsBoundingBox ({(x, y)} ∪ keptAll (Pen.new.draw (.move false x y :: l))) r
    rw [this]; exact hr

/-- **C17**, proved for paths none of whose strokes runs along a horizontal or vertical line
(single points aside): the box is the smallest that holds the first point and every point of
every stroke.  Missing: flat strokes, for which it fails. -/
theorem bbox_contains_partial (x y : ℝ) (l : List (Seg ℝ)) (hl : ∀ s ∈ l, Plain s)
    (hf : ∀ f ∈ strokes (Pen.new.draw (.move false x y :: l)), Flat f → Still f) :
    ∃ r, bbox (.move false x y :: l) = .ok r ∧
      IsBoundingBox ({(x, y)} ∪ {p | ∃ f ∈ strokes (Pen.new.draw (.move false x y :: l)), ∃ t ∈ Icc (0:ℝ) 1, p = f t}) r := by
  obtain ⟨r, e, -, h⟩ := bbox_exact x y l hl
  refine ⟨r, e, ?_⟩
  convert h using 3
  ext p
  refine exists_congr fun f => and_congr_right fun hm => ?_
  constructor
  · rintro ⟨t, ht, rfl⟩
    refine ⟨⟨t, ht, rfl⟩, fun hfl t' ht' => ?_⟩
    obtain ⟨q, hq⟩ := hf f hm hfl
    rw [hq t ht, hq t' ht']
    exact ⟨le_refl _, le_refl _⟩
  · rintro ⟨⟨t, ht, rfl⟩, -⟩
    exact ⟨t, ht, rfl⟩

/-- Whatever else the path holds, every stroke that is not flat is within the box. -/
theorem bbox_contains_slanted (x y : ℝ) (l : List (Seg ℝ)) (hl : ∀ s ∈ l, Plain s) :
    ∃ r, bbox (.move false x y :: l) = .ok r ∧
      ∀ f ∈ strokes (Pen.new.draw (.move false x y :: l)), ¬ Flat f → ∀ t ∈ Icc (0:ℝ) 1, Rect.Mem (f t) r := by
  obtain ⟨r, e, -, h⟩ := bbox_exact x y l hl
  exact ⟨r, e, fun f hf hn t ht => h.1 _ (.inr ⟨f, hf, ⟨t, ht, rfl⟩, fun hfl => absurd hfl hn⟩)⟩

/-- **C17** is violated: the box of a horizontal line is its left end. -/
theorem bbox_flat_violated :
    bbox [.move false 0 0, .line false 10 0] = .ok ⟨some 0, some 0, 0, 0⟩ ∧
      (10, 0) ∈ lineAt (0, 0) (10, 0) '' Icc (0:ℝ) 1 ∧ ¬ Rect.Mem ((10, 0) : Pt) (⟨some 0, some 0, 0, 0⟩ : DRect ℝ) := by
  refine ⟨?_, ⟨1, by norm_num, by simp [lineAt]⟩, ?_⟩
  · have h := lineBox_eq (0, 0) (10, 0)
    simp [bbox, bboxFrom, bboxStep, Seg.rel, Seg.kind, segBBox, normalizeSeg, boxLoop, boxStep, Except.map, takeBox, endPt,
      DRect.isvalid, DRect.new, orZero, h, PathGeom.known, DRect.unite, DRect.uniteXY, DRect.contains, DRect.right, DRect.bottom, setCoords]
  · rintro ⟨x', y', ex, ey, h1, h2, h3, h4⟩
    cases ex; cases ey
    norm_num at h2

/-- A non-trivial instance of the hypotheses of `bbox_contains_partial`. -/
example : (∀ s ∈ [Seg.line false 2 3, .curve false 4 8 6 1 9 (5:ℝ)], Plain s) ∧
    ∀ f ∈ strokes (Pen.new.draw (.move false 0 0 :: [Seg.line false 2 3, .curve false 4 8 6 1 9 (5:ℝ)])), Flat f → Still f := by
  have z : (0:ℝ) ∈ Icc (0:ℝ) 1 := by constructor <;> norm_num
  have o : (1:ℝ) ∈ Icc (0:ℝ) 1 := by constructor <;> norm_num
  constructor
  · simp [Plain, Seg.rel, Seg.kind]
  · intro f hf
    simp only [Pen.draw, Pen.step, Pen.new, Pen.lineTo, Pen.at, strokes, List.append_nil, List.cons_append, List.nil_append,
      Bool.false_eq_true, if_false, List.mem_cons, List.not_mem_nil, or_false] at hf
    rintro (⟨x, hx⟩ | ⟨y, hy⟩)
    · have h0 := hx 0 z
      have h1 := hx 1 o
      rcases hf with rfl | rfl
      · simp [lineAt] at h0 h1; linarith
      · simp [cubicAt] at h0 h1; linarith
    · have h0 := hy 0 z
      have h1 := hy 1 o
      rcases hf with rfl | rfl
      · simp [lineAt] at h0 h1; linarith
      · simp [cubicAt] at h0 h1; linarith

end SvgPy.Bezier
