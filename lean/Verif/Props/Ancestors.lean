import Verif.Model.Ancestors
import Verif.Props.Transform

/-! Properties C52 (lookups along the ancestors) and C64 (current transformation matrices). -/

set_option linter.unusedSimpArgs false

namespace SvgPy.Ancestors

open SvgPy.Matrix SvgPy.Transform SvgPy.Viewport

/-! ### Specification -/

/-- `e` is the first element of the chain with a property. -/
def IsFirst (P : El → Prop) (c : Chain) (e : El) : Prop := ∃ below above, c = below ++ e :: above ∧ P e ∧ ∀ x ∈ below, ¬ P x

/-- `e` is the last element of the chain with a property. -/
def IsLast (P : El → Prop) (c : Chain) (e : El) : Prop := ∃ below above, c = below ++ e :: above ∧ P e ∧ ∀ x ∈ above, ¬ P x

/-- An `svg` element. -/
def Svg (e : El) : Prop := e.name = "svg"

/-- An element that establishes a viewport. -/
def View (e : El) : Prop := e.name = "svg" ∨ e.name = "symbol"

/-- The answer of a search: the element, or nothing if there is none. -/
def Finds (Q : El → Prop) : Option El → Prop
  | some e => Q e
  | none => ∀ e, ¬ Q e

/-- The elements of a tree are different objects. -/
def Distinct (c : Chain) : Prop := (c.map El.id).Nodup

/-- The elements whose `transform` attribute counts. -/
def Transformable (e : El) : Prop :=
  e.name ∈ ["svg", "g", "defs", "a", "switch", "use", "foreignObject", "audio", "canvas", "iframe", "image", "video", "mesh", "path",
    "rect", "circle", "ellipse", "line", "polyline", "polygon", "text", "tspan", "textPath"]

/-- The `transform` of an element as a map of the plane. -/
noncomputable def ownMap (e : El) (p : ℝ × ℝ) : ℝ × ℝ :=
  open Classical in if Transformable e then actAll (e.transform.getD []) p else p

/-- The viewport of an element as a map of the plane. -/
noncomputable def viewMap (e : El) (p : ℝ × ℝ) : ℝ × ℝ :=
  open Classical in if View e then (e.vtm.a * p.1 + e.vtm.e, e.vtm.d * p.2 + e.vtm.f) else p

/-- From the coordinates of the content of the first element to the coordinates outside the
last one: viewport first, then `transform`, element by element. -/
noncomputable def outwards : Chain → ℝ × ℝ → ℝ × ℝ
  | [], p => p
  | e :: c, p => outwards c (ownMap e (viewMap e p))

/-- The zoom and pan of the outermost `svg` element. -/
noncomputable def zoom (e : El) (p : ℝ × ℝ) : ℝ × ℝ := (e.scale * p.1 + e.tx, e.scale * p.2 + e.ty)

/-- An element without a `transform` that counts. -/
def Plain (e : El) : Prop := Transformable e → e.transform.getD [] = []

/-- No transform of an unknown type (parsing never gives one). -/
def Known (c : Chain) : Prop := ∀ e ∈ c, Item.unknown ∉ e.transform.getD []

/-! ### C52 -/

theorem isSvg_iff (e : El) : isSvg e = true ↔ Svg e := by simp [isSvg, Svg]

theorem isView_iff (e : El) : isView e = true ↔ View e := by simp [isView, View]

theorem transformable_iff (e : El) : istransformable e = true ↔ Transformable e := by
  simp only [istransformable, Transformable, transformableNames, List.contains_iff_mem, List.mem_append, List.mem_cons,
    List.not_mem_nil, or_false]
  tauto

theorem nearest_nil (p : El → Bool) (c : Chain) : nearest p c = [] ↔ ∀ x ∈ c, p x = false := by
  induction c with
  | nil => simp [nearest]
  | cons e c ih =>
    by_cases h : p e = true
    · simp [nearest, h]
    · simp [nearest, h, ih]

theorem nearest_cons (p : El → Bool) (c : Chain) (e : El) (up : Chain) (h : nearest p c = e :: up) :
    ∃ below, c = below ++ e :: up ∧ p e = true ∧ ∀ x ∈ below, p x = false := by
  induction c with
  | nil => simp [nearest] at h
  | cons x c ih =>
    by_cases hx : p x = true
    · simp only [nearest, hx, if_true] at h
      cases h
      exact ⟨[], rfl, hx, by simp⟩
    · simp only [nearest, hx] at h
      obtain ⟨below, h1, h2, h3⟩ := ih (by simpa using h)
      refine ⟨x :: below, by rw [h1]; rfl, h2, ?_⟩
      intro y hy
      rcases List.mem_cons.1 hy with rfl | hy
      · simpa using hx
      · exact h3 y hy

theorem nearest_append (p : El → Bool) (below : Chain) (e : El) (up : Chain) (h : ∀ x ∈ below, p x = false) (he : p e = true) :
    nearest p (below ++ e :: up) = e :: up := by
  induction below with
  | nil => simp [nearest, he]
  | cons x below ih =>
    have hx := h x (by simp)
    simp only [List.cons_append, nearest, hx]
    simpa using ih (fun y hy => h y (by simp [hy]))

theorem finds_nearest (p : El → Bool) (P : El → Prop) (hp : ∀ e, p e = true ↔ P e) (c : Chain) :
    Finds (IsFirst P c) (nearest p c).head? := by
  cases h : nearest p c with
  | nil =>
    rw [nearest_nil] at h
    rintro e ⟨below, above, rfl, h2, -⟩
    have := h e (by simp)
    rw [← hp, this] at h2
    cases h2
  | cons e up =>
    obtain ⟨below, h1, h2, h3⟩ := nearest_cons p c e up h
    exact ⟨below, up, h1, (hp e).1 h2, fun x hx hx' => by rw [← hp, h3 x hx] at hx'; cases hx'⟩

theorem farthest_spec (p : El → Bool) (P : El → Prop) (hp : ∀ e, p e = true ↔ P e) (r : Option El) (c : Chain) :
    (∃ e, farthest p r c = some e ∧ IsLast P c e) ∨ (farthest p r c = r ∧ ∀ e ∈ c, ¬ P e) := by
  induction c generalizing r with
  | nil => right; exact ⟨rfl, by simp⟩
  | cons x c ih =>
    rcases ih (if p x then some x else r) with ⟨e, h1, below, above, rfl, h2, h3⟩ | ⟨h1, h2⟩
    · exact .inl ⟨e, h1, x :: below, above, rfl, h2, h3⟩
    · by_cases hx : p x = true
      · left
        exact ⟨x, by simp [farthest, hx] at h1 ⊢; exact h1, [], c, rfl, (hp x).1 hx, h2⟩
      · right
        refine ⟨by rw [farthest, h1, if_neg hx], ?_⟩
        intro e he
        rcases List.mem_cons.1 he with rfl | he
        · rwa [← hp]
        · exact h2 e he

theorem finds_farthest (p : El → Bool) (P : El → Prop) (hp : ∀ e, p e = true ↔ P e) (c : Chain) :
    Finds (IsLast P c) (farthest p none c) := by
  rcases farthest_spec p P hp none c with ⟨e, h1, h2⟩ | ⟨h1, h2⟩
  · rw [h1]; exact h2
  · rw [h1]
    rintro e ⟨below, above, rfl, h3, -⟩
    exact h2 e (by simp) h3

/-- **C52** The nearest `svg` element is the first one on the way from the element itself to
the root, and there is none only if no element on the way is one; the farthest is the last one;
the same for elements that establish a viewport. -/
theorem lookups (c : Chain) :
    Finds (IsFirst Svg c) (nearestSvg c) ∧ Finds (IsFirst View c) (nearestView c) ∧
    Finds (IsLast Svg c) (farthestSvg c) ∧ Finds (IsLast View c) (farthestView c) :=
  ⟨finds_nearest _ _ isSvg_iff c, finds_nearest _ _ isView_iff c, finds_farthest _ _ isSvg_iff c, finds_farthest _ _ isView_iff c⟩

theorem outermost_iff (e : El) (c : Chain) (hd : Distinct (e :: c)) :
    isOutermost (e :: c) = true ↔ Svg e ∧ ∀ x ∈ c, ¬ Svg x := by
  have h := (lookups (e :: c)).2.2.1
  unfold isOutermost
  cases hf : farthestSvg (e :: c) with
  | none =>
    rw [hf] at h
    simp only [Bool.false_eq_true, false_iff, not_and]
    intro h1 h2
    exact h e ⟨[], c, rfl, h1, h2⟩
  | some f =>
    rw [hf] at h
    obtain ⟨below, above, h1, h2, h3⟩ := h
    simp only [beq_iff_eq]
    cases below with
    | nil =>
      simp only [List.nil_append, List.cons.injEq] at h1
      obtain ⟨rfl, rfl⟩ := h1
      exact ⟨fun _ => ⟨h2, h3⟩, fun _ => rfl⟩
    | cons x below =>
      simp only [List.cons_append, List.cons.injEq] at h1
      obtain ⟨rfl, rfl⟩ := h1
      constructor
      · intro hid
        simp only [Distinct, List.map_cons, List.nodup_cons, List.mem_map, not_exists, not_and] at hd
        exact absurd hid (hd.1 f (by simp))
      · rintro ⟨-, h5⟩
        exact absurd h2 (h5 f (by simp))

/-- **C52** The owner of the outermost `svg` element and its viewport element are none. -/
theorem owner_outermost (e : El) (c : Chain) (hd : Distinct (e :: c)) (he : Svg e) (hc : ∀ x ∈ c, ¬ Svg x) :
    ownerSvg (e :: c) = none ∧ viewportElement (e :: c) = none := by
  have := (outermost_iff e c hd).2 ⟨he, hc⟩
  simp [ownerSvg, viewportElement, this]

/-- **C52** The owner of an element that is not itself an `svg` element is the nearest of its
ancestors that is one; the viewport element of an element that does not establish a viewport is
the nearest ancestor that does.  Missing: elements of these kinds below the outermost one, see
`owner_nested_violated`. -/
theorem owner_partial (e : El) (c : Chain) (hd : Distinct (e :: c)) :
    (¬ Svg e → Finds (IsFirst Svg c) (ownerSvg (e :: c))) ∧
    (¬ View e → Finds (IsFirst View c) (viewportElement (e :: c))) := by
  have key : ¬ Svg e → isOutermost (e :: c) = false := by
    intro h
    have := outermost_iff e c hd
    cases h' : isOutermost (e :: c)
    · rfl
    · exact absurd (this.1 h').1 h
  constructor
  · intro h
    have h1 : isSvg e = false := by rw [← Bool.not_eq_true, isSvg_iff]; exact h
    simp only [ownerSvg, key h, nearestSvg, nearest, h1, Bool.false_eq_true, if_false]
    exact finds_nearest _ _ isSvg_iff c
  · intro h
    have h0 : ¬ Svg e := fun h' => h (.inl h')
    have h1 : isView e = false := by rw [← Bool.not_eq_true, isView_iff]; exact h
    simp only [viewportElement, key h0, nearestView, nearest, h1, Bool.false_eq_true, if_false]
    exact finds_nearest _ _ isView_iff c

/-- A non-trivial instance of the hypotheses. -/
example : Distinct [⟨3, "rect", none, ⟨1, 1, 0, 0⟩, none, 1, 0, 0⟩, ⟨2, "svg", none, ⟨1, 1, 0, 0⟩, none, 1, 0, 0⟩,
      ⟨1, "svg", none, ⟨1, 1, 0, 0⟩, none, 1, 0, 0⟩] ∧
    ¬ View ⟨3, "rect", none, ⟨1, 1, 0, 0⟩, none, 1, 0, 0⟩ := by
  constructor
  · simp [Distinct]
  · simp [View]

/-- **C52** is violated for an `svg` element inside another: its owner and its viewport element
are the element itself, not the ancestor. -/
theorem owner_nested_violated (i j : Nat) (h : i ≠ j) :
    ∃ e f : El, e.id = i ∧ f.id = j ∧ Svg e ∧ Svg f ∧ ownerSvg [e, f] = some e ∧ viewportElement [e, f] = some e ∧
      IsFirst Svg [f] f := by
  refine ⟨⟨i, "svg", none, ⟨1, 1, 0, 0⟩, none, 1, 0, 0⟩, ⟨j, "svg", none, ⟨1, 1, 0, 0⟩, none, 1, 0, 0⟩, rfl, rfl, rfl, rfl, ?_, ?_,
    [], [], rfl, rfl, by simp⟩
  · simp [ownerSvg, isOutermost, farthestSvg, farthest, isSvg, nearestSvg, nearest, Ne.symm h]
  · simp [viewportElement, isOutermost, farthestSvg, farthest, isSvg, isView, nearestView, nearest, Ne.symm h]

theorem viewBoxN_spec (n : Nat) (c : Chain) (h : c.length < n) :
    (∀ e, IsFirst (fun e => View e ∧ e.viewBox ≠ none) c e → viewBoxN true n c = e.viewBox) ∧
    ((∀ e ∈ c, View e → e.viewBox = none) → viewBoxN true n c = none) := by
  induction n generalizing c with
  | zero => omega
  | succ n ih =>
    cases hn : nearest isView c with
    | nil =>
      have hh := (nearest_nil _ _).1 hn
      have hv : ∀ e ∈ c, ¬ View e := fun e he hv => by
        have := hh e he
        rw [← isView_iff, this] at hv; cases hv
      refine ⟨?_, fun _ => by simp [viewBoxN, hn]⟩
      rintro e ⟨below, above, rfl, h2, -⟩
      exact absurd h2.1 (hv e (by simp))
    | cons r up =>
      obtain ⟨below, rfl, h2, h3⟩ := nearest_cons _ _ _ _ hn
      have hr : View r := (isView_iff r).1 h2
      have hb : ∀ x ∈ below, ¬ View x := fun x hx hv => by
        have := h3 x hx
        rw [← isView_iff, this] at hv; cases hv
      have hlen : up.length < n := by simp at h; omega
      cases hvb : r.viewBox with
      | some v =>
        have e1 : viewBoxN true (n + 1) (below ++ r :: up) = some v := by simp [viewBoxN, hn, hvb]
        refine ⟨?_, fun hall => by have := hall r (by simp) hr; rw [hvb] at this; cases this⟩
        rintro e ⟨b', a', he, h5, h6⟩
        have : e = r := by
          rcases List.append_eq_append_iff.1 he with ⟨as, h7, h8⟩ | ⟨bs, h7, h8⟩
          · cases as with
            | nil => simp only [List.nil_append, List.cons.injEq] at h8; exact h8.1.symm
            | cons y as =>
              simp only [List.cons_append, List.cons.injEq] at h8
              have : r ∈ b' := by rw [h7, h8.1]; simp
              exact absurd ⟨hr, by simp [hvb]⟩ (h6 r this)
          · cases bs with
            | nil => simp only [List.nil_append, List.cons.injEq] at h8; exact h8.1
            | cons y bs =>
              simp only [List.cons_append, List.cons.injEq] at h8
              have : e ∈ below := by rw [h7, h8.1]; simp
              exact absurd h5.1 (hb e this)
        rw [e1, this, hvb]
      | none =>
        have e1 : viewBoxN true (n + 1) (below ++ r :: up) = viewBoxN true n up := by simp [viewBoxN, hn, hvb]
        rw [e1]
        constructor
        · rintro e ⟨b', a', he, h5, h6⟩
          apply (ih up hlen).1
          rcases List.append_eq_append_iff.1 he with ⟨as, h7, h8⟩ | ⟨bs, h7, h8⟩
          · cases as with
            | nil =>
              simp only [List.nil_append, List.cons.injEq] at h8
              rw [← h8.1] at h5
              exact absurd hvb h5.2
            | cons y as =>
              simp only [List.cons_append, List.cons.injEq] at h8
              exact ⟨as, a', h8.2, h5, fun x hx => h6 x (by rw [h7]; simp [hx])⟩
          · cases bs with
            | nil =>
              simp only [List.nil_append, List.cons.injEq] at h8
              rw [h8.1] at h5
              exact absurd hvb h5.2
            | cons y bs =>
              simp only [List.cons_append, List.cons.injEq] at h8
              have : e ∈ below := by rw [h7, h8.1]; simp
              exact absurd h5.1 (hb e this)
        · intro hall
          exact (ih up hlen).2 (fun e he => hall e (by simp [he]))

/-- **C52** The view box in effect for an element is that of the first element on the way to the
root that establishes a viewport and has one; none if there is no such element. -/
theorem viewBox_spec (c : Chain) :
    (∀ e, IsFirst (fun e => View e ∧ e.viewBox ≠ none) c e → getViewBox true c = e.viewBox) ∧
    ((∀ e ∈ c, View e → e.viewBox = none) → getViewBox true c = none) :=
  viewBoxN_spec _ _ (by omega)

/-- **C52** Without recursion the view box is that of the nearest element that establishes a
viewport, if there is one. -/
theorem viewBox_own (c : Chain) :
    (∀ e, IsFirst View c e → getViewBox false c = e.viewBox) ∧ ((∀ e ∈ c, ¬ View e) → getViewBox false c = none) := by
  constructor
  · rintro e ⟨below, above, rfl, h1, h2⟩
    have := nearest_append isView below e above (fun x hx => by rw [← Bool.not_eq_true, isView_iff]; exact h2 x hx) ((isView_iff e).2 h1)
    simp only [getViewBox, viewBoxN, this]
    cases e.viewBox <;> simp
  · intro h
    have : nearest isView c = [] := (nearest_nil _ _).2 (fun x hx => by rw [← Bool.not_eq_true, isView_iff]; exact h x hx)
    simp [getViewBox, viewBoxN, this]

/-! ### C64 -/

theorem outwards_append (a b : Chain) (p : ℝ × ℝ) : outwards (a ++ b) p = outwards b (outwards a p) := by
  induction a generalizing p with
  | nil => rfl
  | cons e a ih => simp [outwards, ih]

theorem actAll_append (a b : List (Item ℝ)) (p : ℝ × ℝ) : actAll (a ++ b) p = actAll a (actAll b p) := by
  induction a with
  | nil => rfl
  | cons e a ih => simp [actAll, ih]

/-- The transforms collected up to the nearest viewport. -/
theorem transformsUp_spec (inner : Chain) (v : El) (up : Chain) (hi : ∀ e ∈ inner, ¬ View e) (hv : View v) (hp : Plain v)
    (hk : Known inner) (acc : List (Item ℝ)) (ha : Item.unknown ∉ acc) :
    (∀ p, actAll (transformsUp acc (inner ++ v :: up)) p = outwards inner (actAll acc p)) ∧
      Item.unknown ∉ transformsUp acc (inner ++ v :: up) := by
  induction inner generalizing acc with
  | nil =>
    have h1 := (isView_iff v).2 hv
    have h2 : transformsUp acc (v :: up) = acc := by
      simp only [transformsUp, h1, if_true]
      split
      · rename_i ht
        have := hp ((transformable_iff v).1 ht)
        cases hvt : v.transform with
        | none => simp [hvt]
        | some t => rw [hvt] at this; simp at this; simp [hvt, this]
      · rfl
    simp only [List.nil_append, h2, outwards]
    exact ⟨fun _ => trivial, ha⟩
  | cons e inner ih =>
    have he := hi e (by simp)
    have h1 : isView e = false := by rw [← Bool.not_eq_true, isView_iff]; exact he
    have hke := hk e (by simp)
    have ih' := fun acc ha => ih (fun x hx => hi x (by simp [hx])) (fun x hx => hk x (by simp [hx])) acc ha
    simp only [List.cons_append, transformsUp, h1, Bool.false_eq_true, if_false, outwards, viewMap, he]
    by_cases ht : istransformable e = true
    · have ht' := (transformable_iff e).1 ht
      simp only [ht, if_true, ownMap, ht']
      cases het : e.transform with
      | none =>
        simp only [Option.getD_none, actAll]
        exact ih' acc ha
      | some t =>
        simp only [Option.getD_some]
        rw [het] at hke
        simp only [Option.getD_some] at hke
        obtain ⟨a, b⟩ := ih' (t ++ acc) (by simp [hke, ha])
        refine ⟨fun p => ?_, b⟩
        rw [a, actAll_append]
    · have ht' : ¬ Transformable e := by rwa [← transformable_iff]
      simp only [ht, ownMap, ht', if_false, Bool.false_eq_true]
      exact ih' acc ha

/-- A matrix acts on the points of the plane as a map. -/
def Moves (m : Mat) (f : ℝ × ℝ → ℝ × ℝ) : Prop :=
  m.is2d = true ∧ ∀ x y, apply m ⟨x, y, 0, 1⟩ = ⟨(f (x, y)).1, (f (x, y)).2, 0, 1⟩

theorem moves_acts (m : Mat) (f : ℝ × ℝ → ℝ × ℝ) (h : Moves m f) : Acts m f := by
  intro x y
  have := transformPoint_spec m ⟨x, y, 0, 1⟩
  simp only [h.1, and_self, if_true] at this
  rw [this, h.2]

theorem moves_new : Moves newMatrix (fun p => p) := ⟨rfl, fun x y => apply_new _⟩

theorem moves_mul (m n : Mat) (f g : ℝ × ℝ → ℝ × ℝ) (hm : Moves m f) (hn : Moves n g) :
    Moves (multiplySelf m n) (fun p => f (g p)) := by
  refine ⟨by simp [multiplySelf, hm.1, hn.1], fun x y => ?_⟩
  rw [multiply_apply m n _ rfl, hn.2, hm.2]

theorem moves_vtm (e : El) (h : View e) : Moves (vtmMat e.vtm) (viewMap e) := by
  refine ⟨rfl, fun x y => ?_⟩
  simp only [viewMap, h, if_true]
  ext <;> simp [vtmMat, apply, Matrix.get, row, col, matrix2d]

theorem moves_zoom (e : El) : Moves ⟨matrix2d e.scale 0 0 e.scale e.tx e.ty, true⟩ (zoom e) := by
  refine ⟨rfl, fun x y => ?_⟩
  simp only [zoom]
  ext <;> simp [apply, Matrix.get, row, col, matrix2d]

/-- The viewports of the roots, the first outermost. -/
noncomputable def viewsIn : List El → ℝ × ℝ → ℝ × ℝ
  | [], p => p
  | r :: l, p => viewMap r (viewsIn l p)

theorem moves_fold (roots : List El) (h : ∀ r ∈ roots, View r) (m : Mat) (f : ℝ × ℝ → ℝ × ℝ) (hm : Moves m f) :
    Moves (roots.foldl (fun m r => multiplySelf m (vtmMat r.vtm)) m) (fun p => f (viewsIn roots p)) := by
  induction roots generalizing m f with
  | nil => exact hm
  | cons r roots ih =>
    have := ih (fun x hx => h x (by simp [hx])) (multiplySelf m (vtmMat r.vtm)) _ (moves_mul _ _ _ _ hm (moves_vtm r (h r (by simp))))
    exact this

theorem moves_list (l : List (Item ℝ)) (h : Item.unknown ∉ l) (hne : l ≠ []) :
    ∃ t, listMatrix l = .ok (some t) ∧ Moves t (actAll l) := by
  obtain ⟨n, hn, h2, ha⟩ := (mulAll_spec l newMatrix).2 h
  refine ⟨n, by simp [listMatrix, hne, hn], h2 rfl, fun x y => ?_⟩
  rw [ha, apply_new]

theorem moves_withTransforms (m : Mat) (f : ℝ × ℝ → ℝ × ℝ) (hm : Moves m f) (l : List (Item ℝ)) (h : Item.unknown ∉ l) :
    ∃ t, withTransforms m l = .ok t ∧ Moves t (fun p => f (actAll l p)) := by
  cases l with
  | nil => exact ⟨m, by simp [withTransforms], hm⟩
  | cons a l =>
    obtain ⟨t, h1, h2⟩ := moves_list (a :: l) h (by simp)
    exact ⟨multiplySelf m t, by simp [withTransforms, h1], moves_mul _ _ _ _ hm h2⟩

theorem viewsIn_append (a b : List El) (p : ℝ × ℝ) : viewsIn (a ++ b) p = viewsIn a (viewsIn b p) := by
  induction a with
  | nil => rfl
  | cons e a ih => simp [viewsIn, ih]

theorem outwards_plain (c : Chain) (h : ∀ e ∈ c, Plain e) (p : ℝ × ℝ) :
    outwards c p = viewsIn (c.filter isView).reverse p := by
  induction c generalizing p with
  | nil => rfl
  | cons e c ih =>
    have ho : ∀ q, ownMap e q = q := by
      intro q
      unfold ownMap
      split
      · rename_i ht
        rw [h e (by simp) ht]; rfl
      · rfl
    rw [outwards, ho, ih (fun x hx => h x (by simp [hx]))]
    by_cases hv : isView e = true
    · simp [List.filter_cons, hv, viewsIn_append, viewsIn]
    · have : ¬ View e := by rwa [← isView_iff]
      simp [List.filter_cons, hv, viewMap, this]

theorem rootsN_all (n : Nat) (s : Bool) (roots : List El) (c : Chain) (hn : c.length < n) (hd : Distinct c)
    (hr : ∀ r ∈ roots, ∀ e ∈ c, r.id ≠ e.id) :
    rootsN false s n roots c = (c.filter isView).reverse ++ roots := by
  induction n generalizing roots c with
  | zero => omega
  | succ n ih =>
    cases h : nearest isView c with
    | nil =>
      have hh := (nearest_nil _ _).1 h
      have : c.filter isView = [] := by rw [List.filter_eq_nil_iff]; intro x hx; simp [hh x hx]
      simp [rootsN, h, this]
    | cons r up =>
      obtain ⟨below, rfl, h2, h3⟩ := nearest_cons _ _ _ _ h
      have hb : below.filter isView = [] := by rw [List.filter_eq_nil_iff]; intro x hx; simp [h3 x hx]
      have hany : roots.any (fun x => x.id == r.id) = false := by
        rw [List.any_eq_false]
        intro x hx
        simpa using hr x hx r (by simp)
      have hd' : Distinct (r :: up) := by
        simp only [Distinct, List.map_append] at hd
        exact (List.nodup_append.1 hd).2.1
      simp only [Distinct, List.map_cons, List.nodup_cons, List.mem_map, not_exists, not_and] at hd'
      simp only [rootsN, h, hany, Bool.false_eq_true, if_false, Bool.false_and]
      rw [ih (r :: roots) up (by simp at hn; omega) hd'.2]
      · simp [hb, List.filter_cons, h2]
      · intro x hx e he
        rcases List.mem_cons.1 hx with rfl | hx
        · exact fun hh => hd'.1 e he hh.symm
        · exact hr x hx e (by simp [he])

theorem isLast_of (below : Chain) (o : El) (above : Chain) (h1 : Svg o) (h2 : ∀ x ∈ above, ¬ Svg x) :
    farthestSvg (below ++ o :: above) = some o := by
  have key : ∀ (r : Option El), farthest isSvg r above = r := by
    intro r
    rcases farthest_spec isSvg Svg isSvg_iff r above with ⟨e, -, b, a, rfl, h, -⟩ | ⟨h, -⟩
    · exact absurd h (h2 e (by simp))
    · exact h
  have : ∀ r, farthest isSvg r (below ++ o :: above) = some o := by
    induction below with
    | nil => intro r; simp only [List.nil_append, farthest, (isSvg_iff o).2 h1, if_true, key]
    | cons x below ih => intro r; exact ih _
  exact this none

/-- **C64** For an element inside an `svg` document whose transforms stand inside the nearest
viewport, the screen matrix maps the coordinates of the element to the screen: all transforms
and viewports on the way to the outermost `svg` element one after the other, then its zoom and
pan.  Missing: transforms on and outside the nearest viewport, see `screenCtm_violated`. -/
theorem screenCtm_partial (inner : Chain) (v : El) (up : Chain) (o : El) (below above : Chain)
    (hc : inner ++ v :: up = below ++ o :: above) (hd : Distinct (inner ++ v :: up)) (hk : Known inner)
    (hi : ∀ e ∈ inner, ¬ View e) (hv : View v) (ho : Svg o) (ha : ∀ x ∈ above, ¬ View x)
    (hp : ∀ e ∈ v :: up, Plain e) :
    ∃ m, getCtm false (inner ++ v :: up) = .ok m ∧ Acts m (fun p => zoom o (outwards (below ++ [o]) p)) := by
  have hf : farthestSvg (inner ++ v :: up) = some o := by
    rw [hc]; exact isLast_of below o above ho (fun x hx h => ha x hx (.inl h))
  obtain ⟨t1, t2⟩ := transformsUp_spec inner v up hi hv (hp v (by simp)) hk [] (by simp)
  -- what lies above the outermost element is plain and no viewport
  have hmem : ∀ x ∈ above, x ∈ v :: up := by
    intro x hx
    have hx' : x ∈ inner ++ v :: up := by rw [hc]; simp [hx]
    rcases List.mem_append.1 hx' with h | h
    · -- then the outermost element would be among the inner ones
      exfalso
      have ho' : View o := .inl ho
      rcases List.append_eq_append_iff.1 hc with ⟨as, h7, h8⟩ | ⟨bs, h7, h8⟩
      · have hnd : Distinct (below ++ o :: above) := hc ▸ hd
        simp only [Distinct, List.map_append, List.map_cons] at hnd
        have h9 := (List.nodup_append.1 hnd).2.2 x.id (by rw [h7]; simp [List.mem_map]; exact .inl ⟨x, h, rfl⟩) x.id
          (by simp [List.mem_map]; exact .inr ⟨x, hx, rfl⟩)
        exact h9 rfl
      · cases bs with
        | nil =>
          simp only [List.append_nil] at h7
          have hnd : Distinct (below ++ o :: above) := hc ▸ hd
          simp only [Distinct, List.map_append, List.map_cons] at hnd
          have h9 := (List.nodup_append.1 hnd).2.2 x.id (by rw [← h7]; exact List.mem_map.2 ⟨x, h, rfl⟩) x.id
            (by simp [List.mem_map]; exact .inr ⟨x, hx, rfl⟩)
          exact h9 rfl
        | cons y bs =>
          simp only [List.cons_append, List.cons.injEq] at h8
          exact hi o (by rw [h7, h8.1]; simp) ho'
    · exact h
  have hrootmap : ∀ p, outwards (inner ++ v :: up) p = outwards (below ++ [o]) p := by
    intro p
    have : below ++ o :: above = (below ++ [o]) ++ above := by simp
    rw [hc, this, outwards_append, outwards_plain above (fun e he => hp e (hmem e he))]
    have : above.filter isView = [] := by
      rw [List.filter_eq_nil_iff]; intro x hx hx'; exact ha x hx ((isView_iff x).1 hx')
    rw [this]; rfl
  -- the roots
  obtain ⟨self, rest, hself⟩ : ∃ self rest, inner ++ v :: up = self :: rest := by
    cases inner with
    | nil => exact ⟨v, up, rfl⟩
    | cons x inner => exact ⟨x, inner ++ v :: up, rfl⟩
  have hroots : (if o.id == self.id then [o] else rootsN false (isView self) ((self :: rest).length + 1) [] (self :: rest)) =
      ((self :: rest).filter isView).reverse := by
    by_cases hid : o.id = self.id
    · -- the element is the outermost one
      have hb : below = [] := by
        cases below with
        | nil => rfl
        | cons x below =>
          rw [hself, List.cons_append] at hc
          simp only [List.cons.injEq] at hc
          obtain ⟨rfl, rfl⟩ := hc
          rw [hself] at hd
          simp only [Distinct, List.map_cons, List.nodup_cons, List.mem_map, not_exists, not_and] at hd
          exact absurd hid (hd.1 o (by simp))
      subst hb
      rw [hself, List.nil_append] at hc
      simp only [List.cons.injEq] at hc
      obtain ⟨rfl, rfl⟩ := hc
      have : rest.filter isView = [] := by
        rw [List.filter_eq_nil_iff]; intro x hx hx'; exact ha x hx ((isView_iff x).1 hx')
      simp [List.filter_cons, (isView_iff self).2 (.inl ho), this]
    · rw [if_neg (by simpa using hid), rootsN_all _ _ _ _ (by omega) (hself ▸ hd) (by simp)]
      simp
  have hfil : (inner ++ v :: up).filter isView = (v :: up).filter isView := by
    have : inner.filter isView = [] := by
      rw [List.filter_eq_nil_iff]; intro x hx hx'; exact hi x hx ((isView_iff x).1 hx')
    simp [this]
  have hviews : ∀ r ∈ ((self :: rest).filter isView).reverse, View r := by
    intro r hr
    rw [List.mem_reverse, List.mem_filter] at hr
    exact (isView_iff r).1 hr.2
  have hm := moves_fold _ hviews _ _ (moves_mul _ _ _ _ moves_new (moves_zoom o))
  obtain ⟨m, h1, h2⟩ := moves_withTransforms _ _ hm _ t2
  refine ⟨m, ?_, ?_⟩
  · rw [← h1]
    have hne : ((self :: rest).filter isView).reverse.length ≠ 0 := by
      rw [← hself, hfil]
      simp [List.filter_cons, (isView_iff v).2 hv]
    rw [hself] at hf ⊢
    unfold getCtm
    rw [hf]
    simp only [hroots]
    rw [if_neg hne, viewports]
    simp
  · intro x y
    rw [moves_acts _ _ h2 x y]
    simp only [t1, actAll]
    rw [← hself, hfil, ← outwards_plain (v :: up) hp, ← outwards_append, hrootmap]

/-- **C64** For an element that does not establish a viewport itself, the matrix to the nearest
viewport: all transforms up to the nearest element that does, then its viewport, if that element
has no transform of its own. -/
theorem ctm_partial (inner : Chain) (v : El) (up : Chain) (hd : Distinct (inner ++ v :: up)) (hk : Known inner)
    (hi : ∀ e ∈ inner, ¬ View e) (hne : inner ≠ []) (hv : View v) (hp : Plain v)
    (hs : ∃ o ∈ v :: up, Svg o) :
    ∃ m, getCtm true (inner ++ v :: up) = .ok m ∧ Acts m (fun p => viewMap v (outwards inner p)) := by
  obtain ⟨t1, t2⟩ := transformsUp_spec inner v up hi hv hp hk [] (by simp)
  obtain ⟨self, inner', rfl⟩ : ∃ a b, inner = a :: b := List.exists_cons_of_ne_nil hne
  have hself := hi self (by simp)
  have hself' : isView self = false := by rw [← Bool.not_eq_true, isView_iff]; exact hself
  obtain ⟨o, ho1, ho2⟩ := hs
  have hf : ∃ f, farthestSvg (self :: inner' ++ v :: up) = some f ∧ f.id ≠ self.id := by
    have h := (lookups (self :: inner' ++ v :: up)).2.2.1
    have hout : isOutermost (self :: (inner' ++ v :: up)) = false := by
      cases h' : isOutermost (self :: (inner' ++ v :: up))
      · rfl
      · exact absurd (.inl ((outermost_iff self (inner' ++ v :: up) hd).1 h').1) hself
    cases hf : farthestSvg (self :: inner' ++ v :: up) with
    | none =>
      exfalso
      rcases farthest_spec isSvg Svg isSvg_iff none (self :: inner' ++ v :: up) with ⟨e, he, -⟩ | ⟨-, he⟩
      · rw [farthestSvg, he] at hf; cases hf
      · exact he o (by simp at ho1 ⊢; tauto) ho2
    | some f =>
      refine ⟨f, rfl, fun hid => ?_⟩
      have hf' : farthestSvg (self :: (inner' ++ v :: up)) = some f := hf
      simp [isOutermost, hf', hid] at hout
  obtain ⟨f, hf, hid⟩ := hf
  have hnear : nearest isView (self :: inner' ++ v :: up) = v :: up :=
    nearest_append isView _ v up (fun x hx => by rw [← Bool.not_eq_true, isView_iff]; exact hi x hx) ((isView_iff v).2 hv)
  have hroots : ∀ n, rootsN true (isView self) (n + 1) [] (self :: inner' ++ v :: up) = [v] := by
    intro n
    rw [rootsN, hnear]
    simp [hself']
  have hm := moves_fold [v] (by simpa using hv) _ _ moves_new
  obtain ⟨m, h1, h2⟩ := moves_withTransforms _ _ hm _ t2
  refine ⟨m, ?_, ?_⟩
  · rw [← h1]
    unfold getCtm
    rw [hf]
    simp only [List.cons_append] at hroots ⊢
    have hid' : (f.id == self.id) = false := by simpa using hid
    simp only [hid', Bool.false_eq_true, if_false]
    rw [hroots]
    simp [viewports]
  · intro x y
    rw [moves_acts _ _ h2 x y]
    simp only [t1, actAll, viewsIn]

/-- Without an `svg` element there is nothing to map to: the identity. -/
theorem ctm_none (b : Bool) (c : Chain) (h : ∀ e ∈ c, ¬ Svg e) : getCtm b c = .ok newMatrix := by
  have hf : farthestSvg c = none := by
    rcases farthest_spec isSvg Svg isSvg_iff none c with ⟨e, -, b, a, rfl, h', -⟩ | ⟨h', -⟩
    · exact absurd h' (h e (by simp))
    · exact h'
  unfold getCtm
  rw [hf]

/-- A drawing: a shape inside a group inside a document with a view box. -/
def sample : Chain :=
  [⟨3, "rect", some [.rotate 30 0 0], ⟨1, 1, 0, 0⟩, none, 1, 0, 0⟩, ⟨2, "g", some [.translate 1 2, .scale 2 2], ⟨1, 1, 0, 0⟩, none, 1, 0, 0⟩]

/-- The document. -/
noncomputable def root : El := ⟨1, "svg", none, ⟨2, 2, 5, 0⟩, some 0, 3, 1, 1⟩

/-- A non-trivial instance of the hypotheses of `screenCtm_partial` and `ctm_partial`. -/
example : Distinct (sample ++ [root]) ∧ Known sample ∧ (∀ e ∈ sample, ¬ View e) ∧ View root ∧ Svg root ∧ ∀ e ∈ [root], Plain e := by
  refine ⟨by simp [Distinct, sample, root], by simp [Known, sample], by simp [sample, View], .inl rfl, rfl, by simp [Plain, root]⟩

/-- A shape in a document inside a moved group of another document. -/
def nested : Chain :=
  [⟨4, "rect", none, ⟨1, 1, 0, 0⟩, none, 1, 0, 0⟩, ⟨3, "svg", none, ⟨1, 1, 0, 0⟩, none, 1, 0, 0⟩,
    ⟨2, "g", some [.translate 1 0], ⟨1, 1, 0, 0⟩, none, 1, 0, 0⟩, ⟨1, "svg", none, ⟨1, 1, 0, 0⟩, none, 1, 0, 0⟩]

/-- **C64** is violated if a group outside the nearest viewport is transformed: the screen matrix
leaves that transform out.  Here the origin is drawn at (1, 0) but mapped to (0, 0). -/
theorem screenCtm_violated :
    (∃ m, getCtm false nested = .ok m ∧ transformPoint m 0 0 0 1 = [0, 0]) ∧ outwards nested (0, 0) = (1, 0) := by
  constructor
  · have hv : ∀ (i : Nat), View ⟨i, "svg", none, ⟨1, 1, 0, 0⟩, none, 1, 0, 0⟩ := fun i => .inl rfl
    have hm := moves_fold [⟨1, "svg", none, ⟨1, 1, 0, 0⟩, none, 1, 0, 0⟩, ⟨3, "svg", none, ⟨1, 1, 0, 0⟩, none, 1, 0, 0⟩]
      (by simp [View]) _ _ (moves_mul _ _ _ _ moves_new (moves_zoom ⟨1, "svg", none, ⟨1, 1, 0, 0⟩, none, 1, 0, 0⟩))
    refine ⟨_, ?_, (moves_acts _ _ hm 0 0).trans ?_⟩
    · simp [getCtm, nested, farthestSvg, farthest, isSvg, isView, rootsN, nearest, transformsUp, withTransforms, viewports,
        istransformable, transformableNames]
    · simp [viewsIn, viewMap, zoom, View]
  · simp [nested, outwards, ownMap, viewMap, View, Transformable, actAll, act]

/-- **C64** is violated if the document element itself is transformed: its transform is applied
inside its view box.  Here the origin is drawn at (1, 0) but mapped to (2, 0). -/
theorem screenCtm_root_violated :
    ∃ e : El, Svg e ∧ (∃ m, getCtm false [e] = .ok m ∧ transformPoint m 0 0 0 1 = [2, 0]) ∧ zoom e (outwards [e] (0, 0)) = (1, 0) := by
  refine ⟨⟨1, "svg", some [.translate 1 0], ⟨2, 2, 0, 0⟩, none, 1, 0, 0⟩, rfl, ?_, ?_⟩
  · have hm := moves_fold [⟨1, "svg", some [.translate 1 0], ⟨2, 2, 0, 0⟩, none, 1, 0, 0⟩] (by simp [View]) _ _
      (moves_mul _ _ _ _ moves_new (moves_zoom ⟨1, "svg", some [.translate 1 0], ⟨2, 2, 0, 0⟩, none, 1, 0, 0⟩))
    obtain ⟨m, h1, h2⟩ := moves_withTransforms _ _ hm [.translate 1 0] (by simp)
    refine ⟨m, ?_, (moves_acts _ _ h2 0 0).trans ?_⟩
    · rw [← h1]
      simp [getCtm, farthestSvg, farthest, isSvg, isView, transformsUp, viewports, istransformable, transformableNames]
    · simp [viewsIn, viewMap, zoom, View, actAll, act]
  · simp [outwards, ownMap, viewMap, View, Transformable, actAll, act, zoom]

end SvgPy.Ancestors
