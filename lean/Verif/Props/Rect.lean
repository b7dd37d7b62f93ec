import Verif.Model.Rect
import Mathlib.Tactic.Linarith
import Mathlib.Tactic.NormNum
import Mathlib.Tactic.Ring
import Mathlib.Tactic.Positivity
import Mathlib.Data.Set.Lattice

/-!
Properties C01-C04: rectangles.

The specification talks about points of the plane only: `Mem p r` says that the
point `p` lies in the closed rectangle `r` (a rectangle without a position has
no points), and `IsBoundingBox S r` says that `r` encloses `S` and that every
axis-aligned box enclosing `S` encloses `r`.
-/

set_option linter.unusedSectionVars false
set_option linter.unusedSimpArgs false

namespace SvgPy.Rect

variable {K : Type*} [Field K] [LinearOrder K] [IsStrictOrderedRing K]

/-! ### Specification -/

/-- The point lies inside or on the edge of the rectangle. -/
def Mem (p : K × K) (r : DRect K) : Prop :=
  ∃ x y, r.x = some x ∧ r.y = some y ∧
    x ≤ p.1 ∧ p.1 ≤ x + r.width ∧ y ≤ p.2 ∧ p.2 ≤ y + r.height

/-- The set of points of a rectangle. -/
def points (r : DRect K) : Set (K × K) := {p | Mem p r}

/-- `r` is the smallest axis-aligned rectangle enclosing `S`. -/
def IsBoundingBox (S : Set (K × K)) (r : DRect K) : Prop :=
  (∀ p ∈ S, Mem p r) ∧
  ∀ xlo xhi ylo yhi : K,
    (∀ p ∈ S, xlo ≤ p.1 ∧ p.1 ≤ xhi ∧ ylo ≤ p.2 ∧ p.2 ≤ yhi) →
    ∀ p, Mem p r → xlo ≤ p.1 ∧ p.1 ≤ xhi ∧ ylo ≤ p.2 ∧ p.2 ≤ yhi

/-- A rectangle with area, or a single point: the shapes for which `unite`
works.  Excluded are horizontal and vertical segments. -/
def AreaOrPoint (r : DRect K) : Prop :=
  (0 < r.width ∧ 0 < r.height) ∨ (r.width = 0 ∧ r.height = 0)

/-- A usable accumulator: either `DOMRect()` or positioned with sizes `≥ 0`. -/
def Accum (r : DRect K) : Prop :=
  r = DRect.new ∨ (r.x.isSome ∧ r.y.isSome ∧ 0 ≤ r.width ∧ 0 ≤ r.height)

/-! ### C01 -/

omit [IsStrictOrderedRing K] in
private theorem new_no_points (p : K × K) : ¬ Mem p (DRect.new : DRect K) := by
  rintro ⟨x, y, h, _⟩; simp [DRect.new] at h

/-- The coordinates of a union, when the accumulator is positioned. -/
theorem uniteXY_some (sx sy sw sh x y w h : K) (hw : 0 ≤ sw) (hh : 0 ≤ sh)
    (ho : (0 < w ∧ 0 < h) ∨ (w = 0 ∧ h = 0)) :
    (DRect.uniteXY ⟨some sx, some sy, sw, sh⟩ x y w h) =
      ⟨some (min sx x), some (min sy y),
        max (sx + sw) (x + w) - min sx x, max (sy + sh) (y + h) - min sy y⟩ := by
  unfold DRect.uniteXY
  split
  · rename_i hc
    simp only [DRect.contains, DRect.isvalid] at hc
    split at hc
    · simp at hc
    · rename_i hv
      simp only [Option.isSome_some, Bool.true_and, Bool.not_eq_true', Bool.and_eq_false_iff,
        decide_eq_false_iff_not, not_or, not_not] at hv
      split at hc
      · rename_i hz
        simp only [decide_eq_true_eq] at hc
        obtain ⟨h1, h2, h3, h4⟩ := hc
        rcases ho with ⟨a, b⟩ | ⟨rfl, rfl⟩
        · rcases hz with hz | hz <;> linarith
        · simp [min_eq_left h1, min_eq_left h3, max_eq_left h2, max_eq_left h4]
      · simp only [decide_eq_true_eq] at hc
        obtain ⟨h1, h2, h3, h4, h5, h6, h7, h8⟩ := hc
        simp [min_eq_left h1, min_eq_left h5, max_eq_left h4, max_eq_left h8]
  · simp only [DRect.right, DRect.bottom, Option.map_some, setCoords]
    rcases ho with ⟨a, b⟩ | ⟨rfl, rfl⟩
    · simp only [gt_iff_lt, a, b, and_self, if_true]
      rcases lt_or_ge x sx with hx | hx <;> rcases lt_or_ge y sy with hy | hy <;>
      rcases lt_or_ge (sx+sw) x with hx2 | hx2 <;> rcases lt_or_ge (sy+sh) y with hy2 | hy2 <;>
      rcases lt_or_ge (sx+sw) (x+w) with hx3 | hx3 <;> rcases lt_or_ge (sy+sh) (y+h) with hy3 | hy3 <;>
      simp [hx, hy, hx2, hy2, hx3, hy3, not_lt.mpr, le_of_lt, a, b] <;> linarith
    · simp only [gt_iff_lt, lt_self_iff_false, and_self, if_false, add_zero]
      rcases lt_or_ge x sx with hx | hx <;> rcases lt_or_ge y sy with hy | hy <;>
      rcases lt_or_ge (sx+sw) x with hx2 | hx2 <;> rcases lt_or_ge (sy+sh) y with hy2 | hy2 <;>
      simp [hx, hy, hx2, hy2, not_lt.mpr, le_of_lt] <;> linarith

omit [IsStrictOrderedRing K] in
theorem uniteXY_new (x y w h : K) (ho : (0 < w ∧ 0 < h) ∨ (w = 0 ∧ h = 0)) :
    DRect.uniteXY DRect.new x y w h = ⟨some x, some y, w, h⟩ := by
  unfold DRect.uniteXY
  rcases ho with ⟨a, b⟩ | ⟨rfl, rfl⟩
  · simp [DRect.contains, DRect.isvalid, DRect.new, DRect.right, DRect.bottom, setCoords, a, b]
  · simp [DRect.contains, DRect.isvalid, DRect.new, DRect.right, DRect.bottom]

theorem accum_unite (r o : DRect K) (hr : Accum r) (ho : AreaOrPoint o) :
    Accum (r.unite o) := by
  obtain ⟨ox, oy, ow, oh⟩ := o
  cases ox with
  | none => simpa [DRect.unite] using hr
  | some ox =>
  cases oy with
  | none => simpa [DRect.unite] using hr
  | some oy =>
  have hw0 : 0 ≤ ow := by rcases ho with h | h <;> simp at h <;> linarith
  have hh0 : 0 ≤ oh := by rcases ho with h | h <;> simp at h <;> linarith
  rcases hr with rfl | ⟨hx, hy, hw, hh⟩
  · right
    simp only [DRect.unite, uniteXY_new _ _ _ _ ho]
    simp [hw0, hh0]
  · right
    obtain ⟨rx, ry, rw_, rh⟩ := r
    obtain ⟨sx, rfl⟩ := Option.isSome_iff_exists.mp hx
    obtain ⟨sy, rfl⟩ := Option.isSome_iff_exists.mp hy
    simp only at hw hh
    simp only [DRect.unite, uniteXY_some _ _ _ _ _ _ _ _ hw hh ho]
    refine ⟨rfl, rfl, ?_, ?_⟩ <;> simp only [sub_nonneg]
    · exact le_trans (min_le_left _ _) (le_trans (by linarith) (le_max_left _ _))
    · exact le_trans (min_le_left _ _) (le_trans (by linarith) (le_max_left _ _))

/-- **C01** (pairs).  Uniting with a rectangle that has area, or is a single
point, gives the smallest rectangle enclosing both.  Missing from the full
statement: `o` a horizontal or vertical segment, see `unite_segment_violated`. -/
theorem unite_isBoundingBox_partial (r o : DRect K) (hr : Accum r) (ho : AreaOrPoint o) :
    IsBoundingBox (points r ∪ points o) (r.unite o) := by
  obtain ⟨ox, oy, ow, oh⟩ := o
  have key : ox = none ∨ oy = none →
      IsBoundingBox (points r ∪ points ⟨ox, oy, ow, oh⟩) (r.unite ⟨ox, oy, ow, oh⟩) := by
    intro h
    have e : r.unite ⟨ox, oy, ow, oh⟩ = r := by
      rcases h with rfl | rfl
      · rfl
      · cases ox <;> rfl
    have emp : ∀ p, ¬ Mem p (⟨ox, oy, ow, oh⟩ : DRect K) := by
      rintro p ⟨x, y, h1, h2, -⟩
      rcases h with rfl | rfl <;> simp_all
    rw [e]
    refine ⟨?_, fun xlo xhi ylo yhi hb p hp => hb p (Or.inl hp)⟩
    rintro p (hp | hp)
    · exact hp
    · exact absurd hp (emp p)
  cases ox with
  | none => exact key (Or.inl rfl)
  | some ox =>
  cases oy with
  | none => exact key (Or.inr rfl)
  | some oy =>
  clear key
  have hw0 : 0 ≤ ow := by rcases ho with h | h <;> simp at h <;> linarith
  have hh0 : 0 ≤ oh := by rcases ho with h | h <;> simp at h <;> linarith
  rcases hr with rfl | ⟨hx, hy, hw, hh⟩
  · simp only [DRect.unite, uniteXY_new _ _ _ _ ho]
    refine ⟨?_, fun xlo xhi ylo yhi hb p hp => hb p (Or.inr hp)⟩
    rintro p (hp | hp)
    · exact absurd hp (new_no_points p)
    · exact hp
  · obtain ⟨rx, ry, rw_, rh⟩ := r
    obtain ⟨sx, rfl⟩ := Option.isSome_iff_exists.mp hx
    obtain ⟨sy, rfl⟩ := Option.isSome_iff_exists.mp hy
    simp only at hw hh
    simp only [DRect.unite, uniteXY_some _ _ _ _ _ _ _ _ hw hh ho]
    constructor
    · rintro p (⟨x, y, h1, h2, h3, h4, h5, h6⟩ | ⟨x, y, h1, h2, h3, h4, h5, h6⟩)
      all_goals
        simp only [Option.some.injEq] at h1 h2
        subst h1 h2
        simp only at h4 h6
        refine ⟨_, _, rfl, rfl, ?_, ?_, ?_, ?_⟩ <;> simp [*]
    · intro xlo xhi ylo yhi hb p ⟨x, y, h1, h2, h3, h4, h5, h6⟩
      simp only [Option.some.injEq] at h1 h2
      subst h1 h2
      simp only [add_sub_cancel] at h4 h6
      have a1 := hb (sx, sy) (Or.inl ⟨sx, sy, rfl, rfl, by simp [hw, hh]⟩)
      have a2 := hb (sx + rw_, sy + rh) (Or.inl ⟨sx, sy, rfl, rfl, by simp [hw, hh]⟩)
      have a3 := hb (ox, oy) (Or.inr ⟨ox, oy, rfl, rfl, by simp [hw0, hh0]⟩)
      have a4 := hb (ox + ow, oy + oh) (Or.inr ⟨ox, oy, rfl, rfl, by simp [hw0, hh0]⟩)
      simp only at a1 a2 a3 a4
      refine ⟨le_trans (le_min a1.1 a3.1) h3, le_trans h4 (max_le a2.2.1 a4.2.1),
        le_trans (le_min a1.2.2.1 a3.2.2.1) h5, le_trans h6 (max_le a2.2.2.2 a4.2.2.2)⟩

/-- Non-trivial instance: two disjoint rectangles. -/
example : Accum (⟨some 0, some 0, 1, 1⟩ : DRect ℚ) ∧ AreaOrPoint (⟨some 5, some (-3), 2, 1⟩ : DRect ℚ)
    ∧ (⟨some 0, some 0, 1, 1⟩ : DRect ℚ).unite ⟨some 5, some (-3), 2, 1⟩ = ⟨some 0, some (-3), 7, 4⟩ := by
  refine ⟨Or.inr (by norm_num), Or.inl (by norm_num), ?_⟩
  simp [DRect.unite, uniteXY_some]; norm_num

private theorem uniteAll_aux (rs : List (DRect K)) (acc : DRect K) (S : Set (K × K))
    (ha : Accum acc) (hb : IsBoundingBox S acc) (hrs : ∀ r ∈ rs, AreaOrPoint r) :
    Accum (rs.foldl DRect.unite acc) ∧
    IsBoundingBox (S ∪ {p | ∃ r ∈ rs, Mem p r}) (rs.foldl DRect.unite acc) := by
  induction rs generalizing acc S with
  | nil => exact ⟨ha, by simpa using hb⟩
  | cons r rs ih =>
    have ho := hrs r (by simp)
    have h1 := unite_isBoundingBox_partial acc r ha ho
    have h2 : IsBoundingBox (S ∪ points r) (acc.unite r) := by
      constructor
      · rintro p (hp | hp)
        · exact h1.1 p (Or.inl (hb.1 p hp))
        · exact h1.1 p (Or.inr hp)
      · intro xlo xhi ylo yhi hs p hp
        refine h1.2 xlo xhi ylo yhi ?_ p hp
        rintro q (hq | hq)
        · exact hb.2 xlo xhi ylo yhi (fun q' hq' => hs q' (Or.inl hq')) q hq
        · exact hs q (Or.inr hq)
    have := ih (acc.unite r) (S ∪ points r) (accum_unite acc r ha ho) h2
      (fun r' hr' => hrs r' (by simp [hr']))
    refine ⟨this.1, ?_⟩
    have e : S ∪ points r ∪ {p | ∃ r ∈ rs, Mem p r} = S ∪ {p | ∃ r' ∈ r :: rs, Mem p r'} := by
      ext p
      simp [points, or_assoc]
    rw [← e]
    exact this.2

/-- **C01** (lists).  Accumulating any finite list of rectangles, each with area
or a single point, gives the bounding box of all of them.  Missing: segments. -/
theorem uniteAll_isBoundingBox_partial (rs : List (DRect K)) (h : ∀ r ∈ rs, AreaOrPoint r) :
    IsBoundingBox {p | ∃ r ∈ rs, Mem p r} (uniteAll rs) := by
  have := (uniteAll_aux rs DRect.new ∅ (Or.inl rfl)
    ⟨by simp, fun _ _ _ _ _ p hp => absurd hp (new_no_points p)⟩ h).2
  simpa [uniteAll] using this

/-- Two accumulators that bound the same non-empty set are equal. -/
private theorem boundingBox_unique (S : Set (K × K)) (r s : DRect K)
    (hr : Accum r) (hs : Accum s) (h1 : IsBoundingBox S r) (h2 : IsBoundingBox S s) : r = s := by
  rcases hr with rfl | ⟨hx, hy, hw, hh⟩ <;> rcases hs with rfl | ⟨hx', hy', hw', hh'⟩
  · rfl
  · exfalso
    obtain ⟨sx, sy, sw, sh⟩ := s
    obtain ⟨sx, rfl⟩ := Option.isSome_iff_exists.mp hx'
    obtain ⟨sy, rfl⟩ := Option.isSome_iff_exists.mp hy'
    have : ∀ p, p ∉ S := fun p hp => new_no_points p (h1.1 p hp)
    have := h2.2 (sx + 1) (sx + 1) 0 0 (fun p hp => absurd hp (this p)) (sx, sy)
      ⟨sx, sy, rfl, rfl, by simp only at hw' hh'; simp [hw', hh']⟩
    linarith [this.1]
  · exfalso
    obtain ⟨sx, sy, sw, sh⟩ := r
    obtain ⟨sx, rfl⟩ := Option.isSome_iff_exists.mp hx
    obtain ⟨sy, rfl⟩ := Option.isSome_iff_exists.mp hy
    have : ∀ p, p ∉ S := fun p hp => new_no_points p (h2.1 p hp)
    have := h1.2 (sx + 1) (sx + 1) 0 0 (fun p hp => absurd hp (this p)) (sx, sy)
      ⟨sx, sy, rfl, rfl, by simp only at hw hh; simp [hw, hh]⟩
    linarith [this.1]
  · obtain ⟨rx, ry, rw_, rh⟩ := r
    obtain ⟨rx, rfl⟩ := Option.isSome_iff_exists.mp hx
    obtain ⟨ry, rfl⟩ := Option.isSome_iff_exists.mp hy
    obtain ⟨sx, sy, sw, sh⟩ := s
    obtain ⟨sx, rfl⟩ := Option.isSome_iff_exists.mp hx'
    obtain ⟨sy, rfl⟩ := Option.isSome_iff_exists.mp hy'
    simp only at hw hh hw' hh'
    have inb : ∀ (x y w h : K) (p : K × K), Mem p (⟨some x, some y, w, h⟩ : DRect K) →
        x ≤ p.1 ∧ p.1 ≤ x + w ∧ y ≤ p.2 ∧ p.2 ≤ y + h := by
      rintro x y w h p ⟨x', y', e1, e2, h'⟩
      simp only [Option.some.injEq] at e1 e2
      subst e1 e2; exact h'
    have c1 := h2.2 rx (rx + rw_) ry (ry + rh) (fun p hp => inb _ _ _ _ p (h1.1 p hp))
    have c2 := h1.2 sx (sx + sw) sy (sy + sh) (fun p hp => inb _ _ _ _ p (h2.1 p hp))
    have d1 := c1 (sx, sy) ⟨sx, sy, rfl, rfl, by simp [hw', hh']⟩
    have d2 := c1 (sx + sw, sy + sh) ⟨sx, sy, rfl, rfl, by simp [hw', hh']⟩
    have d3 := c2 (rx, ry) ⟨rx, ry, rfl, rfl, by simp [hw, hh]⟩
    have d4 := c2 (rx + rw_, ry + rh) ⟨rx, ry, rfl, rfl, by simp [hw, hh]⟩
    simp only at d1 d2 d3 d4
    have e1 : rx = sx := le_antisymm d1.1 d3.1
    have e2 : ry = sy := le_antisymm d1.2.2.1 d3.2.2.1
    subst e1 e2
    have e3 : rw_ = sw := by linarith [d2.2.1, d4.2.1]
    have e4 : rh = sh := by linarith [d2.2.2.2, d4.2.2.2]
    subst e3 e4; rfl

/-- **C01** (order).  The accumulated box does not depend on the order.
Missing: segments. -/
theorem uniteAll_perm_partial (rs ss : List (DRect K)) (hp : rs.Perm ss)
    (h : ∀ r ∈ rs, AreaOrPoint r) : uniteAll rs = uniteAll ss := by
  have h' : ∀ r ∈ ss, AreaOrPoint r := fun r hr => h r (hp.mem_iff.mpr hr)
  have z : IsBoundingBox (∅ : Set (K × K)) (DRect.new : DRect K) :=
    ⟨by simp, fun _ _ _ _ _ p hp => absurd hp (new_no_points p)⟩
  have a := uniteAll_aux rs DRect.new ∅ (Or.inl rfl) z h
  have b := uniteAll_aux ss DRect.new ∅ (Or.inl rfl) z h'
  refine boundingBox_unique _ _ _ a.1 b.1 a.2 ?_
  have : {p : K × K | ∃ r ∈ rs, Mem p r} = {p | ∃ r ∈ ss, Mem p r} := by
    ext p; simp [hp.mem_iff]
  rw [this]; exact b.2

/-- Non-trivial instance: three rectangles, one of them a point. -/
example : ∀ r ∈ [(⟨some 0, some 0, 1, 1⟩ : DRect ℚ), ⟨some 9, some 9, 0, 0⟩, ⟨some 2, some 2, 3, 4⟩],
    AreaOrPoint r := by
  simp [AreaOrPoint]

/-- **C01** is violated for segments: uniting a unit square with the horizontal
segment from (0,0) to (5,0) loses the far end of the segment. -/
theorem unite_segment_violated :
    ¬ ∀ r o : DRect ℚ, Accum r → (0 ≤ o.width ∧ 0 ≤ o.height) →
      IsBoundingBox (points r ∪ points o) (r.unite o) := by
  intro H
  have h := (H ⟨some 0, some 0, 1, 1⟩ ⟨some 0, some 0, 5, 0⟩ (Or.inr (by norm_num)) (by norm_num)).1
    (5, 0) (Or.inr ⟨0, 0, rfl, rfl, by norm_num⟩)
  have e : (⟨some 0, some 0, 1, 1⟩ : DRect ℚ).unite ⟨some 0, some 0, 5, 0⟩ = ⟨some 0, some 0, 1, 1⟩ := by
    decide +kernel
  rw [e] at h
  obtain ⟨x, y, h1, h2, h3, h4, -⟩ := h
  simp only [Option.some.injEq] at h1
  subst h1
  norm_num at h4

/-- More generally, uniting a positioned rectangle with a segment is the same as
uniting with the segment's near corner only: that is the whole defect. -/
theorem unite_segment_is_near_corner (r : DRect K) (x y w h : K) (hs : w ≤ 0 ∨ h ≤ 0) :
    r.unite ⟨some x, some y, w, h⟩ = r.unite ⟨some x, some y, 0, 0⟩ := by
  have hc : r.contains x y w h = r.contains x y 0 0 := by
    simp [DRect.contains, hs]
  have hn : ¬ (w > 0 ∧ h > 0) := by
    rintro ⟨a, b⟩; rcases hs with hs | hs <;> linarith
  simp only [DRect.unite, DRect.uniteXY, hc, hn, gt_iff_lt, lt_self_iff_false, and_self, if_false]

/-! ### C02 -/

/-- The interiors of two rectangles meet. -/
def InteriorsMeet (r o : DRect K) : Prop :=
  ∃ p : K × K, (∃ x y, r.x = some x ∧ r.y = some y ∧
      x < p.1 ∧ p.1 < x + r.width ∧ y < p.2 ∧ p.2 < y + r.height) ∧
    (∃ x y, o.x = some x ∧ o.y = some y ∧
      x < p.1 ∧ p.1 < x + o.width ∧ y < p.2 ∧ p.2 < y + o.height)

/-- **C02**, proved for rectangles whose interiors meet: the result has exactly
the common points.  Missing: rectangles without common area, see
`intersect_disjoint_violated`. -/
theorem intersect_points_partial (r o : DRect K) (h : InteriorsMeet r o) :
    points (r.intersect o) = points r ∩ points o := by
  obtain ⟨⟨px, py⟩, ⟨sl, st, e1, e2, a1, a2, a3, a4⟩, ⟨ol, ot, e3, e4, b1, b2, b3, b4⟩⟩ := h
  obtain ⟨rx, ry, rw_, rh⟩ := r
  obtain ⟨ox, oy, ow, oh⟩ := o
  simp only at e1 e2 e3 e4 a1 a2 a3 a4 b1 b2 b3 b4
  subst e1 e2 e3 e4
  have hw : 0 < rw_ := by linarith
  have hh : 0 < rh := by linarith
  have hw' : 0 < ow := by linarith
  have hh' : 0 < oh := by linarith
  ext ⟨qx, qy⟩
  simp only [DRect.intersect, DRect.isvalid, Option.isSome_some, Bool.and_self, gt_iff_lt, hw, hh,
    hw', hh', decide_true, Bool.not_true, Bool.or_self, Bool.false_eq_true, if_false, points,
    Set.mem_ofPred_eq, Set.mem_inter_iff]
  split
  · rename_i hc
    simp only [DRect.contains, DRect.isvalid, Option.isSome_some, Bool.and_self, gt_iff_lt, hw', hh',
      decide_true, Bool.not_true, Bool.false_eq_true, if_false, not_le.mpr hw, not_le.mpr hh, or_self,
      decide_eq_true_eq] at hc
    simp only [Mem, Option.some.injEq, exists_and_left, exists_eq_left', iff_self_and]
    intro h; constructor
    · linarith
    · refine ⟨?_, ?_, ?_⟩ <;> linarith
  · have horz : (ol < sl ∧ sl + rw_ < ol + ow) ∨ (sl ≤ ol ∧ ol < sl + rw_) ∨
        (sl < ol + ow ∧ ol + ow ≤ sl + rw_) := by
      rcases lt_or_ge ol sl with h1 | h1
      · rcases lt_or_ge (sl + rw_) (ol + ow) with h2 | h2
        · exact Or.inl ⟨h1, h2⟩
        · exact Or.inr (Or.inr ⟨by linarith, h2⟩)
      · exact Or.inr (Or.inl ⟨h1, by linarith⟩)
    have vert : (ot < st ∧ st + rh < ot + oh) ∨ (st ≤ ot ∧ ot < st + rh) ∨
        (st < ot + oh ∧ ot + oh ≤ st + rh) := by
      rcases lt_or_ge ot st with h1 | h1
      · rcases lt_or_ge (st + rh) (ot + oh) with h2 | h2
        · exact Or.inl ⟨h1, h2⟩
        · exact Or.inr (Or.inr ⟨by linarith, h2⟩)
      · exact Or.inr (Or.inl ⟨h1, by linarith⟩)
    simp only [horz, vert, and_true, setCoords, Mem, Option.some.injEq, exists_and_left,
      exists_eq_left', add_sub_cancel]
    have i1 : ol < sl + rw_ := by linarith
    have i2 : sl < ol + ow := by linarith
    have i3 : ot < st + rh := by linarith
    have i4 : st < ot + oh := by linarith
    simp only [i1, i2, i3, i4, and_true, true_and]
    constructor
    · rintro ⟨h1, h2, h3, h4⟩
      split_ifs at h1 h2 h3 h4 <;> refine ⟨⟨?_, ?_, ?_, ?_⟩, ?_, ?_, ?_, ?_⟩ <;> linarith
    · rintro ⟨⟨h1, h2, h3, h4⟩, h5, h6, h7, h8⟩
      refine ⟨?_, ?_, ?_, ?_⟩ <;> split_ifs <;> linarith

/-- Non-trivial instance. -/
example : InteriorsMeet (⟨some 0, some 0, 4, 4⟩ : DRect ℚ) ⟨some 2, some (-1), 9, 3⟩ :=
  ⟨(3, 1), ⟨0, 0, rfl, rfl, by norm_num⟩, ⟨2, -1, rfl, rfl, by norm_num⟩⟩

/-- What the code does in the remaining cases: the receiver comes back
unchanged, whatever the argument. -/
theorem intersect_no_common_area (r o : DRect K) (h : ¬ InteriorsMeet r o) :
    r.intersect o = r := by
  obtain ⟨rx, ry, rw_, rh⟩ := r
  obtain ⟨ox, oy, ow, oh⟩ := o
  unfold DRect.intersect
  split
  · rfl
  · rename_i hv
    simp only [DRect.isvalid, gt_iff_lt, Bool.or_eq_true, Bool.not_eq_true', Bool.and_eq_false_iff,
      decide_eq_false_iff_not, not_or, not_not, Bool.not_eq_false] at hv
    obtain ⟨⟨⟨⟨hx, hy⟩, hw⟩, hh⟩, ⟨⟨hx', hy'⟩, hw'⟩, hh'⟩ := hv
    obtain ⟨sl, rfl⟩ := Option.isSome_iff_exists.mp hx
    obtain ⟨st, rfl⟩ := Option.isSome_iff_exists.mp hy
    obtain ⟨ol, rfl⟩ := Option.isSome_iff_exists.mp hx'
    obtain ⟨ot, rfl⟩ := Option.isSome_iff_exists.mp hy'
    simp only
    split
    · rfl
    · have hsep : ¬ (max sl ol < min (sl + rw_) (ol + ow) ∧ max st ot < min (st + rh) (ot + oh)) := by
        rintro ⟨h1, h2⟩
        obtain ⟨px, q1, q2⟩ := exists_between h1
        obtain ⟨py, q3, q4⟩ := exists_between h2
        simp only [max_lt_iff, lt_min_iff] at q1 q2 q3 q4
        exact h ⟨(px, py), ⟨sl, st, rfl, rfl, q1.1, q2.1, q3.1, q4.1⟩,
          ⟨ol, ot, rfl, rfl, q1.2, q2.2, q3.2, q4.2⟩⟩
      simp only [max_lt_iff, lt_min_iff] at hsep
      simp only [setCoords, DRect.mk.injEq, Option.some.injEq]
      have e1 : ¬ ((sl < ol ∧ ol < sl + rw_) ∧ (ot < st ∧ st + rh < ot + oh ∨
          st ≤ ot ∧ ot < st + rh ∨ st < ot + oh ∧ ot + oh ≤ st + rh)) := by
        rintro ⟨⟨a, b⟩, c⟩
        apply hsep
        refine ⟨⟨⟨?_, ?_⟩, ?_, ?_⟩, ⟨?_, ?_⟩, ?_, ?_⟩ <;> rcases c with c | c | c <;> linarith
      have e2 : ¬ ((st < ot ∧ ot < st + rh) ∧ (ol < sl ∧ sl + rw_ < ol + ow ∨
          sl ≤ ol ∧ ol < sl + rw_ ∨ sl < ol + ow ∧ ol + ow ≤ sl + rw_)) := by
        rintro ⟨⟨a, b⟩, c⟩
        apply hsep
        refine ⟨⟨⟨?_, ?_⟩, ?_, ?_⟩, ⟨?_, ?_⟩, ?_, ?_⟩ <;> rcases c with c | c | c <;> linarith
      have e3 : ¬ ((sl < ol + ow ∧ ol + ow < sl + rw_) ∧ (ot < st ∧ st + rh < ot + oh ∨
          st ≤ ot ∧ ot < st + rh ∨ st < ot + oh ∧ ot + oh ≤ st + rh)) := by
        rintro ⟨⟨a, b⟩, c⟩
        apply hsep
        refine ⟨⟨⟨?_, ?_⟩, ?_, ?_⟩, ⟨?_, ?_⟩, ?_, ?_⟩ <;> rcases c with c | c | c <;> linarith
      have e4 : ¬ ((st < ot + oh ∧ ot + oh < st + rh) ∧ (ol < sl ∧ sl + rw_ < ol + ow ∨
          sl ≤ ol ∧ ol < sl + rw_ ∨ sl < ol + ow ∧ ol + ow ≤ sl + rw_)) := by
        rintro ⟨⟨a, b⟩, c⟩
        apply hsep
        refine ⟨⟨⟨?_, ?_⟩, ?_, ?_⟩, ⟨?_, ?_⟩, ?_, ?_⟩ <;> rcases c with c | c | c <;> linarith
      rw [if_neg e1, if_neg e2, if_neg e3, if_neg e4]
      simp

/-- **C02** is violated without common area: disjoint squares "intersect" in the
first one, which is not empty. -/
theorem intersect_disjoint_violated :
    ¬ ∀ r o : DRect ℚ, r.isvalid → o.isvalid → points r ∩ points o = ∅ →
      (r.intersect o).isempty := by
  intro H
  have := H ⟨some 0, some 0, 1, 1⟩ ⟨some 5, some 5, 1, 1⟩ (by decide +kernel) (by decide +kernel) (by
    ext ⟨x, y⟩
    simp only [points, Mem, Set.mem_inter_iff, Set.mem_ofPred_eq, Set.mem_empty_iff_false, iff_false]
    rintro ⟨⟨x1, y1, h1, h2, h3, h4, -⟩, ⟨x2, y2, h5, h6, h7, h8, -⟩⟩
    simp only [Option.some.injEq] at h1 h5
    subst h1 h5
    linarith)
  exact absurd this (by decide +kernel)

/-! ### C03 -/

omit [Field K] [IsStrictOrderedRing K] in
private theorem min4_le {x1 x2 x3 x4 : K} :
    min (min (min x1 x2) x3) x4 ≤ x1 ∧ min (min (min x1 x2) x3) x4 ≤ x2 ∧
    min (min (min x1 x2) x3) x4 ≤ x3 ∧ min (min (min x1 x2) x3) x4 ≤ x4 := by
  simp [min_le_iff]

omit [Field K] [IsStrictOrderedRing K] in
private theorem le_max4 {x1 x2 x3 x4 : K} :
    x1 ≤ max (max (max x1 x2) x3) x4 ∧ x2 ≤ max (max (max x1 x2) x3) x4 ∧
    x3 ≤ max (max (max x1 x2) x3) x4 ∧ x4 ≤ max (max (max x1 x2) x3) x4 := by
  simp [le_max_iff]

private theorem mul_between (a s w : K) (h0 : 0 ≤ s) (h1 : s ≤ w) :
    (0 ≤ a → 0 ≤ a * s ∧ a * s ≤ a * w) ∧ (a ≤ 0 → a * w ≤ a * s ∧ a * s ≤ 0) :=
  ⟨fun h => ⟨mul_nonneg h h0, mul_le_mul_of_nonneg_left h1 h⟩,
   fun h => ⟨mul_le_mul_of_nonpos_left h1 h, mul_nonpos_of_nonpos_of_nonneg h h0⟩⟩

private theorem corner_bounds (p a c s u w h : K) (s0 : 0 ≤ s) (sw : s ≤ w) (u0 : 0 ≤ u) (uh : u ≤ h)
    (hac : ¬ (a < 0 ∧ c < 0)) :
    min (min (min p (p + a * w)) (p + a * w + c * h)) (p + c * h) ≤ p + a * s + c * u ∧
    p + a * s + c * u ≤ max (max (max (min (min (min p (p + a * w)) (p + a * w + c * h)) (p + c * h))
      (p + a * w)) (p + a * w + c * h)) (p + c * h) := by
  have A := mul_between a s w s0 sw
  have C := mul_between c u h u0 uh
  have m := @min4_le _ _ p (p + a * w) (p + a * w + c * h) (p + c * h)
  have M := @le_max4 _ _ (min (min (min p (p + a * w)) (p + a * w + c * h)) (p + c * h))
    (p + a * w) (p + a * w + c * h) (p + c * h)
  rcases le_or_gt 0 a with ha | ha <;> rcases le_or_gt 0 c with hc | hc
  · have A := A.1 ha; have C := C.1 hc; constructor <;> linarith
  · have A := A.1 ha; have C := C.2 hc.le; constructor <;> linarith
  · have A := A.2 ha.le; have C := C.1 hc; constructor <;> linarith
  · exact absurd ⟨ha, hc⟩ hac

private theorem transform_eq (l t w h : K) (hw : 0 < w) (hh : 0 < h) (m : Affine K) :
    let px := m.a * l + m.c * t + m.e
    let py := m.b * l + m.d * t + m.f
    let x1 := min (min (min px (px + m.a * w)) (px + m.a * w + m.c * h)) (px + m.c * h)
    let y1 := min (min (min py (py + m.b * w)) (py + m.b * w + m.d * h)) (py + m.d * h)
    DRect.transform ⟨some l, some t, w, h⟩ m = setCoords x1 y1
      (max (max (max x1 (px + m.a * w)) (px + m.a * w + m.c * h)) (px + m.c * h))
      (max (max (max y1 (py + m.b * w)) (py + m.b * w + m.d * h)) (py + m.d * h)) := by
  intro px py x1 y1
  have e1 : (m.apply (l + w, t)).1 = px + m.a * w := by simp only [Affine.apply, px]; ring
  have e2 : (m.apply (l + w, t)).2 = py + m.b * w := by simp only [Affine.apply, py]; ring
  have e3 : (m.apply (l + w, t + h)).1 = px + m.a * w + m.c * h := by
    simp only [Affine.apply, px]; ring
  have e4 : (m.apply (l + w, t + h)).2 = py + m.b * w + m.d * h := by
    simp only [Affine.apply, py]; ring
  have e5 : (m.apply (l, t + h)).1 = px + m.c * h := by simp only [Affine.apply, px]; ring
  have e6 : (m.apply (l, t + h)).2 = py + m.d * h := by simp only [Affine.apply, py]; ring
  have e7 : (m.apply (l, t)).1 = px := rfl
  have e8 : (m.apply (l, t)).2 = py := rfl
  simp only [DRect.transform, DRect.isvalid, Option.isSome_some, Bool.and_self, gt_iff_lt, hw, hh,
    decide_true, Bool.not_true, Bool.false_eq_true, if_false, e1, e2, e3, e4, e5, e6, e7, e8]
  rfl

/-- **C03**, with the exact condition: for a rectangle with area the transformed
rectangle bounds the image precisely when the matrix does not map both axes to
the negative `x` direction, nor both to the negative `y` direction.  Missing:
matrices outside the condition (where the claim is false, by this very
equivalence) and rectangles without area (see `transform_no_area`). -/
theorem transform_isBoundingBox_iff_partial (l t w h : K) (hw : 0 < w) (hh : 0 < h) (m : Affine K) :
    IsBoundingBox (m.apply '' points ⟨some l, some t, w, h⟩) (DRect.transform ⟨some l, some t, w, h⟩ m)
      ↔ ¬ (m.a < 0 ∧ m.c < 0) ∧ ¬ (m.b < 0 ∧ m.d < 0) := by
  rw [transform_eq l t w h hw hh m]
  set px := m.a * l + m.c * t + m.e with hpx
  set py := m.b * l + m.d * t + m.f with hpy
  have cx := @min4_le _ _ px (px + m.a * w) (px + m.a * w + m.c * h) (px + m.c * h)
  have cy := @min4_le _ _ py (py + m.b * w) (py + m.b * w + m.d * h) (py + m.d * h)
  have mem : ∀ s u : K, 0 ≤ s → s ≤ w → 0 ≤ u → u ≤ h →
      (px + m.a * s + m.c * u, py + m.b * s + m.d * u) ∈
        m.apply '' points ⟨some l, some t, w, h⟩ := by
    intro s u s0 sw u0 uh
    refine ⟨(l + s, t + u), ⟨l, t, rfl, rfl, ?_, ?_, ?_, ?_⟩, ?_⟩ <;> try simp only
    · linarith
    · linarith
    · linarith
    · linarith
    · simp only [Affine.apply, Prod.mk.injEq, hpx, hpy]; constructor <;> ring
  constructor
  · rintro ⟨h1, -⟩
    obtain ⟨x, y, e1, e2, q1, q2, q3, q4⟩ := h1 _ (mem 0 0 le_rfl hw.le le_rfl hh.le)
    simp only [setCoords, Option.some.injEq] at e1 e2
    subst e1 e2
    simp only [setCoords, add_sub_cancel, mul_zero, add_zero] at q2 q4
    constructor
    · rintro ⟨ha, hc⟩
      have A : m.a * w < 0 := mul_neg_of_neg_of_pos ha hw
      have C : m.c * h < 0 := mul_neg_of_neg_of_pos hc hh
      have : max (max (max (min (min (min px (px + m.a * w)) (px + m.a * w + m.c * h)) (px + m.c * h))
        (px + m.a * w)) (px + m.a * w + m.c * h)) (px + m.c * h) < px := by
        simp only [max_lt_iff]
        refine ⟨⟨⟨?_, ?_⟩, ?_⟩, ?_⟩ <;> linarith
      linarith
    · rintro ⟨ha, hc⟩
      have A : m.b * w < 0 := mul_neg_of_neg_of_pos ha hw
      have C : m.d * h < 0 := mul_neg_of_neg_of_pos hc hh
      have : max (max (max (min (min (min py (py + m.b * w)) (py + m.b * w + m.d * h)) (py + m.d * h))
        (py + m.b * w)) (py + m.b * w + m.d * h)) (py + m.d * h) < py := by
        simp only [max_lt_iff]
        refine ⟨⟨⟨?_, ?_⟩, ?_⟩, ?_⟩ <;> linarith
      linarith
  · rintro ⟨nac, nbd⟩
    constructor
    · rintro _ ⟨⟨x, y⟩, ⟨x', y', e1, e2, q1, q2, q3, q4⟩, rfl⟩
      simp only [Option.some.injEq] at e1 e2
      subst e1 e2
      simp only at q1 q2 q3 q4
      have bx := corner_bounds px m.a m.c (x - l) (y - t) w h (by linarith) (by linarith)
        (by linarith) (by linarith) nac
      have by_ := corner_bounds py m.b m.d (x - l) (y - t) w h (by linarith) (by linarith)
        (by linarith) (by linarith) nbd
      have ex : px + m.a * (x - l) + m.c * (y - t) = (m.apply (x, y)).1 := by
        simp only [Affine.apply, hpx]; ring
      have ey : py + m.b * (x - l) + m.d * (y - t) = (m.apply (x, y)).2 := by
        simp only [Affine.apply, hpy]; ring
      rw [ex] at bx; rw [ey] at by_
      refine ⟨_, _, rfl, rfl, bx.1, ?_, by_.1, ?_⟩ <;> simp only [setCoords, add_sub_cancel]
      · exact bx.2
      · exact by_.2
    · intro xlo xhi ylo yhi hb p ⟨x, y, e1, e2, q1, q2, q3, q4⟩
      simp only [setCoords, Option.some.injEq] at e1 e2
      subst e1 e2
      simp only [setCoords, add_sub_cancel] at q2 q4
      have c1 := hb _ (mem 0 0 le_rfl hw.le le_rfl hh.le)
      have c2 := hb _ (mem w 0 hw.le le_rfl le_rfl hh.le)
      have c3 := hb _ (mem w h hw.le le_rfl hh.le le_rfl)
      have c4 := hb _ (mem 0 h le_rfl hw.le hh.le le_rfl)
      simp only [mul_zero, add_zero] at c1 c2 c3 c4
      refine ⟨le_trans ?_ q1, le_trans q2 ?_, le_trans ?_ q3, le_trans q4 ?_⟩
      · simp only [le_min_iff]; tauto
      · simp only [max_le_iff]
        exact ⟨⟨⟨le_trans cx.1 c1.2.1, c2.2.1⟩, c3.2.1⟩, c4.2.1⟩
      · simp only [le_min_iff]; tauto
      · simp only [max_le_iff]
        exact ⟨⟨⟨le_trans cy.1 c1.2.2.2, c2.2.2.2⟩, c3.2.2.2⟩, c4.2.2.2⟩

/-- Non-trivial instance: a quarter turn followed by a translation is fine. -/
example : ¬ ((⟨0, 1, -1, 0, 5, 7⟩ : Affine ℚ).a < 0 ∧ (⟨0, 1, -1, 0, 5, 7⟩ : Affine ℚ).c < 0)
    ∧ ¬ ((⟨0, 1, -1, 0, 5, 7⟩ : Affine ℚ).b < 0 ∧ (⟨0, 1, -1, 0, 5, 7⟩ : Affine ℚ).d < 0) := by
  norm_num

/-- **C03** is violated: `x' = -x - y`, `y' = y` on the unit square. -/
theorem transform_violated :
    ¬ ∀ (r : DRect ℚ) (m : Affine ℚ), r.isvalid → IsBoundingBox (m.apply '' points r) (r.transform m) := by
  intro H
  have := (transform_isBoundingBox_iff_partial (0:ℚ) 0 1 1 (by norm_num) (by norm_num)
    ⟨-1, 0, -1, 1, 0, 0⟩).mp (H _ _ (by decide +kernel))
  norm_num at this

/-- Rectangles without area are returned untransformed. -/
theorem transform_no_area (r : DRect K) (m : Affine K) (h : r.width ≤ 0 ∨ r.height ≤ 0) :
    r.transform m = r := by
  have : r.isvalid = false := by
    simp only [DRect.isvalid, gt_iff_lt, Bool.and_eq_false_iff, decide_eq_false_iff_not, not_lt]
    tauto
  simp [DRect.transform, this]

/-! ### C04 -/

/-- **C04** (validity): a rectangle is valid exactly when it is not empty, which
is exactly when it has interior points. -/
theorem isvalid_iff_not_isempty (r : DRect K) : r.isvalid = !r.isempty := by
  obtain ⟨x, y, w, h⟩ := r
  cases x <;> cases y <;> simp [DRect.isvalid, DRect.isempty]
  rw [Bool.eq_iff_iff]; simp [not_le]

/-- **C04** (validity), in terms of points. -/
theorem isvalid_iff_interior (r : DRect K) : r.isvalid ↔ InteriorsMeet r r := by
  obtain ⟨x, y, w, h⟩ := r
  constructor
  · intro hv
    simp only [DRect.isvalid, gt_iff_lt, Bool.and_eq_true, decide_eq_true_eq] at hv
    obtain ⟨⟨⟨hx, hy⟩, hw⟩, hh⟩ := hv
    obtain ⟨x, rfl⟩ := Option.isSome_iff_exists.mp hx
    obtain ⟨y, rfl⟩ := Option.isSome_iff_exists.mp hy
    have : ∃ x' y', some x = some x' ∧ some y = some y' ∧
      x' < x + w / 2 ∧ x + w / 2 < x' + w ∧ y' < y + h / 2 ∧ y + h / 2 < y' + h :=
      ⟨x, y, rfl, rfl, by linarith, by linarith, by linarith, by linarith⟩
    exact ⟨(x + w / 2, y + h / 2), this, this⟩
  · rintro ⟨p, ⟨x', y', e1, e2, h1, h2, h3, h4⟩, -⟩
    simp only at e1 e2 h2 h4
    subst e1 e2
    simp only [DRect.isvalid, Option.isSome_some, Bool.and_self, gt_iff_lt, Bool.true_and,
      Bool.and_eq_true, decide_eq_true_eq]
    constructor <;> linarith

/-- **C04** (containment), for an argument with area or a single point and a
receiver with area: the answer is whether every point of the argument is inside.
Missing: segments as argument, see `contains_segment_violated`; a receiver without
area contains nothing, see `contains_no_area`. -/
theorem contains_iff_partial (r : DRect K) (hr : r.isvalid) (x y w h : K)
    (ho : AreaOrPoint ⟨some x, some y, w, h⟩) :
    r.contains x y w h ↔ points ⟨some x, some y, w, h⟩ ⊆ points r := by
  obtain ⟨rx, ry, rw_, rh⟩ := r
  have hv := hr
  simp only [DRect.isvalid, gt_iff_lt, Bool.and_eq_true, decide_eq_true_eq] at hr
  obtain ⟨⟨⟨hx, hy⟩, hw⟩, hh⟩ := hr
  obtain ⟨rx, rfl⟩ := Option.isSome_iff_exists.mp hx
  obtain ⟨ry, rfl⟩ := Option.isSome_iff_exists.mp hy
  have sub : points ⟨some x, some y, w, h⟩ ⊆ points ⟨some rx, some ry, rw_, rh⟩ ↔
      rx ≤ x ∧ x + w ≤ rx + rw_ ∧ ry ≤ y ∧ y + h ≤ ry + rh := by
    have hw0 : 0 ≤ w := by rcases ho with h | h <;> simp at h <;> linarith
    have hh0 : 0 ≤ h := by rcases ho with h | h <;> simp at h <;> linarith
    constructor
    · intro hs
      obtain ⟨x1, y1, e1, e2, q1, q2, q3, q4⟩ := hs (a := (x, y)) ⟨x, y, rfl, rfl, by simp [hw0, hh0]⟩
      obtain ⟨x2, y2, e3, e4, q5, q6, q7, q8⟩ :=
        hs (a := (x + w, y + h)) ⟨x, y, rfl, rfl, by simp [hw0, hh0]⟩
      simp only [Option.some.injEq] at e1 e2 e3 e4
      subst e1 e2 e3 e4
      exact ⟨q1, q6, q3, q8⟩
    · rintro ⟨q1, q2, q3, q4⟩ p ⟨x', y', e1, e2, s1, s2, s3, s4⟩
      simp only [Option.some.injEq] at e1 e2
      subst e1 e2
      simp only at s2 s4
      exact ⟨rx, ry, rfl, rfl, by simp only; refine ⟨?_, ?_, ?_, ?_⟩ <;> linarith⟩
  rw [sub]
  simp only [DRect.contains, hv, Bool.not_true, Bool.false_eq_true, if_false]
  rcases ho with ⟨a, b⟩ | ⟨a, b⟩
  · simp only at a b
    rw [if_neg (by rintro (h | h) <;> linarith)]
    simp only [decide_eq_true_eq]
    constructor
    · tauto
    · rintro ⟨q1, q2, q3, q4⟩
      refine ⟨?_, ?_, ?_, ?_, ?_, ?_, ?_, ?_⟩ <;> linarith
  · simp only at a b
    subst a b
    simp

/-- Non-trivial instance. -/
example : (⟨some 0, some 0, 4, 4⟩ : DRect ℚ).isvalid ∧ AreaOrPoint (⟨some 1, some 1, 2, 3⟩ : DRect ℚ)
    ∧ (⟨some 0, some 0, 4, 4⟩ : DRect ℚ).contains 1 1 2 3 ∧
    ¬ (⟨some 0, some 0, 4, 4⟩ : DRect ℚ).contains 1 1 2 (7/2) := by
  refine ⟨by decide +kernel, Or.inl (by norm_num), by decide +kernel, by decide +kernel⟩

/-- A receiver without area contains nothing, not even its own points. -/
theorem contains_no_area (r : DRect K) (hr : ¬ r.isvalid) (x y w h : K) : ¬ r.contains x y w h := by
  simp only [Bool.not_eq_true] at hr
  simp [DRect.contains, hr]

/-- **C04** (containment) is violated for segments: a segment sticking out of
the square is reported as contained. -/
theorem contains_segment_violated :
    ¬ ∀ (r : DRect ℚ) (x y w h : ℚ), r.isvalid → 0 ≤ w → 0 ≤ h →
      (r.contains x y w h ↔ points ⟨some x, some y, w, h⟩ ⊆ points r) := by
  intro H
  have := (H ⟨some 0, some 0, 1, 1⟩ 0 0 5 0 (by decide +kernel) (by norm_num) (by norm_num)).mp
    (by decide +kernel)
  obtain ⟨x, y, e1, e2, h1, h2, -⟩ := this (a := (5, 0)) ⟨0, 0, rfl, rfl, by norm_num⟩
  simp only [Option.some.injEq] at e1
  subst e1
  norm_num at h2

/-- The points of a possibly negative-sized positioned rectangle, as the union of
the corners' span in each direction. -/
def SpanMem (p : K × K) (x y w h : K) : Prop :=
  min x (x + w) ≤ p.1 ∧ p.1 ≤ max x (x + w) ∧ min y (y + h) ≤ p.2 ∧ p.2 ≤ max y (y + h)

/-- **C04** (normalising): a positioned rectangle is normalised to one with
non-negative sizes covering the same span. -/
theorem normalize_spec (x y w h : K) :
    ∃ r' : DRect K, DRect.normalize ⟨some x, some y, w, h⟩ = .ok r' ∧
      0 ≤ r'.width ∧ 0 ≤ r'.height ∧ ∀ p, Mem p r' ↔ SpanMem p x y w h := by
  unfold DRect.normalize
  rcases lt_or_ge w 0 with hw | hw <;> rcases lt_or_ge h 0 with hh | hh
  · refine ⟨⟨some (x + w), some (y + h), x - (x + w), y - (y + h)⟩, ?_, ?_, ?_, ?_⟩
    · simp [hw, hh, pure, Except.pure, bind, Except.bind]
    · simp only; linarith
    · simp only; linarith
    · intro p
      have a : x + w ≤ x := by linarith
      have b : y + h ≤ y := by linarith
      simp [Mem, SpanMem, min_eq_right a, max_eq_left a, min_eq_right b, max_eq_left b]
  · refine ⟨⟨some (x + w), some y, x - (x + w), h⟩, ?_, ?_, ?_, ?_⟩
    · simp [hw, not_lt.mpr hh, pure, Except.pure, bind, Except.bind]
    · simp only; linarith
    · exact hh
    · intro p
      have a : x + w ≤ x := by linarith
      have b : y ≤ y + h := by linarith
      simp [Mem, SpanMem, min_eq_right a, max_eq_left a, min_eq_left b, max_eq_right b]
  · refine ⟨⟨some x, some (y + h), w, y - (y + h)⟩, ?_, ?_, ?_, ?_⟩
    · simp [not_lt.mpr hw, hh, pure, Except.pure, bind, Except.bind]
    · exact hw
    · simp only; linarith
    · intro p
      have a : x ≤ x + w := by linarith
      have b : y + h ≤ y := by linarith
      simp [Mem, SpanMem, min_eq_left a, max_eq_right a, min_eq_right b, max_eq_left b]
  · refine ⟨⟨some x, some y, w, h⟩, ?_, ?_, ?_, ?_⟩
    · simp [not_lt.mpr hw, not_lt.mpr hh, pure, Except.pure, bind, Except.bind]
    · exact hw
    · exact hh
    · intro p
      have a : x ≤ x + w := by linarith
      have b : y ≤ y + h := by linarith
      simp [Mem, SpanMem, min_eq_left a, max_eq_right a, min_eq_left b, max_eq_right b]

/-- Normalising twice is the same as normalising once. -/
theorem normalize_idem (r r' : DRect K) (h : r.normalize = .ok r') : r'.normalize = .ok r' := by
  have hs : 0 ≤ r'.width ∧ 0 ≤ r'.height := by
    obtain ⟨x, y, w, hh⟩ := r
    unfold DRect.normalize at h
    rcases lt_or_ge w 0 with h1 | h1 <;> rcases lt_or_ge hh 0 with h2 | h2 <;> cases x <;> cases y <;>
      simp [h1, h2, not_lt.mpr, pure, Except.pure, bind, Except.bind, throw, throwThe,
        MonadExceptOf.throw] at h <;> subst h <;> simp <;> constructor <;> linarith
  obtain ⟨x, y, w, hh⟩ := r'
  simp only at hs
  simp [DRect.normalize, not_lt.mpr hs.1, not_lt.mpr hs.2, pure, Except.pure, bind, Except.bind]

/-- Transposing twice gives the original back. -/
theorem transpose_transpose (r : DRect K) : r.transpose.transpose = r := rfl

/-- Transposing swaps the sizes and keeps the position. -/
theorem transpose_spec (r : DRect K) :
    r.transpose.x = r.x ∧ r.transpose.y = r.y ∧ r.transpose.width = r.height ∧
      r.transpose.height = r.width := ⟨rfl, rfl, rfl, rfl⟩

/-- **C04** (translating): translation moves every point, and translating back
restores the rectangle.  It succeeds exactly on positioned rectangles. -/
theorem translate_spec (r : DRect K) (dx dy : K) :
    (r.x.isSome ∧ r.y.isSome →
      ∃ r', r.translate dx dy = .ok r' ∧ r'.translate (-dx) (-dy) = .ok r ∧
        ∀ p, Mem p r ↔ Mem (p.1 + dx, p.2 + dy) r') ∧
    (¬ (r.x.isSome ∧ r.y.isSome) → r.translate dx dy = .error .typeError) := by
  obtain ⟨x, y, w, h⟩ := r
  cases x <;> cases y <;> simp [DRect.translate, Mem]
  intro a b _
  constructor
  · rintro ⟨h2, h3, h4⟩; refine ⟨?_, ?_, ?_⟩ <;> linarith
  · rintro ⟨h1, h2, h3⟩; refine ⟨?_, ?_, ?_⟩ <;> linarith

/-- **C04** (adjusting): edges move by the given amounts; adjusting back restores
the rectangle whenever the intermediate one still has area.  Missing from the
full statement: intermediate rectangles without area, see `adjust_violated`. -/
theorem adjust_inverse_partial (r : DRect K) (a b c d : K) (hv : (r.adjust a b c d).isvalid) :
    (r.adjust a b c d).adjust (-a) (-b) (-c) (-d) = r := by
  obtain ⟨x, y, w, h⟩ := r
  by_cases hr : DRect.isvalid ⟨x, y, w, h⟩
  · cases x <;> cases y <;> simp [DRect.isvalid] at hr
    rename_i x y
    have e : DRect.adjust ⟨some x, some y, w, h⟩ a b c d =
        setCoords (x + a) (y + b) (x + w + c) (y + h + d) := by
      simp [DRect.adjust, DRect.isvalid, hr]
    rw [e] at hv ⊢
    rw [DRect.adjust, hv]
    simp [setCoords]
  · simp only [Bool.not_eq_true] at hr
    rw [show DRect.adjust ⟨x, y, w, h⟩ a b c d = ⟨x, y, w, h⟩ by simp [DRect.adjust, hr]]
    simp [DRect.adjust, hr]

/-- Adjusting moves the four edges by the four amounts. -/
theorem adjust_edges (x y w h a b c d : K) (hw : 0 < w) (hh : 0 < h) (p : K × K) :
    Mem p (DRect.adjust ⟨some x, some y, w, h⟩ a b c d) ↔
      x + a ≤ p.1 ∧ p.1 ≤ x + w + c ∧ y + b ≤ p.2 ∧ p.2 ≤ y + h + d := by
  simp [DRect.adjust, DRect.isvalid, hw, hh, setCoords, Mem]

/-- Non-trivial instance. -/
example : (DRect.adjust (⟨some 0, some 0, 4, 4⟩ : DRect ℚ) 1 1 (-1) 3).isvalid := by decide +kernel

/-- **C04** (adjusting) is violated when the first adjustment removes the area. -/
theorem adjust_violated :
    ¬ ∀ (r : DRect ℚ) (a b c d : ℚ), (r.adjust a b c d).adjust (-a) (-b) (-c) (-d) = r := by
  intro H
  exact absurd (H ⟨some 0, some 0, 1, 1⟩ 2 0 0 0) (by decide +kernel)

end SvgPy.Rect
