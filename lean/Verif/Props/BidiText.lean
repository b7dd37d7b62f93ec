import Verif.Model.BidiText
import Verif.Props.Rect
import Mathlib.Algebra.BigOperators.Group.List.Lemmas

/-! Property C120: text in two directions. -/

set_option linter.unusedSimpArgs false
set_option linter.unusedVariables false
set_option linter.unusedSectionVars false

namespace SvgPy.BidiText

open SvgPy.Rect

variable {K : Type} [Field K] [LinearOrder K]

/-! ### Specification -/

namespace Spec

/-- All sequences of items that satisfy the condition, as long as possible, are reversed. -/
def reverseWhere {α : Type} (p : α → Bool) : List α → List α → List α
  | [], acc => acc
  | x :: xs, acc => if p x then reverseWhere p xs (x :: acc) else acc ++ x :: reverseWhere p xs []

/-- Rule L2 of the Unicode bidirectional algorithm (UAX #9): from the highest level to 1, sequences of items of
this level or a higher one are reversed. -/
def reorder {α : Type} : Nat → List (Nat × α) → List (Nat × α)
  | 0, l => l
  | n + 1, l => reorder n (reverseWhere (fun x => n + 1 ≤ x.1) l [])

/-- The glyphs with their levels, in the order of the characters. -/
def logical (rs : List (Run K)) : List (Nat × Glyph K) :=
  rs.flatMap fun r => r.lines.flatten.map fun g => (r.level, g)

/-- The glyphs from left to right. -/
def visual (rs : List (Run K)) : List (Glyph K) := (reorder 2 (logical rs)).map Prod.snd

/-- Cells one beside the other from left to right. -/
def row (x : K) : List (Glyph K) → List (Cell K)
  | [] => []
  | g :: gs => ⟨g.id, x, g.adv⟩ :: row (x + g.adv) gs

/-- The width of glyphs. -/
def width (gs : List (Glyph K)) : K := (gs.map Glyph.adv).sum

/-- Where the text begins at the left. -/
def leftEdge (ltr : Bool) (start : K) (rs : List (Run K)) : K := if ltr then start else start - width (visual rs)

/-- Text whose levels are those of its two directions; neighbouring runs differ; lines have glyphs, which have a
width and no offset. -/
structure TwoLevels (ltr : Bool) (rs : List (Run K)) : Prop where
  levels : ∀ r ∈ rs, if ltr then r.level = 0 ∨ r.level = 1 else r.level = 1 ∨ r.level = 2
  differ : rs.IsChain (fun a b => a.level ≠ b.level)
  lines : ∀ r ∈ rs, r.lines ≠ [] ∧ ∀ l ∈ r.lines, l ≠ [] ∧ ∀ g ∈ l, 0 < g.adv ∧ g.off = 0

end Spec

open Spec

/-! ### Lemmas: rows -/

variable [IsStrictOrderedRing K]

theorem width_append (a b : List (Glyph K)) : width (a ++ b) = width a + width b := by simp [width]

theorem width_cons (g : Glyph K) (b : List (Glyph K)) : width (g :: b) = g.adv + width b := by simp [width]

theorem width_perm {a b : List (Glyph K)} (h : a.Perm b) : width a = width b := (h.map Glyph.adv).sum_eq

theorem width_pos (l : List (Glyph K)) (h0 : l ≠ []) (h : ∀ g ∈ l, 0 < g.adv) : 0 < width l := by
  have : ∀ l : List (Glyph K), (∀ g ∈ l, 0 < g.adv) → 0 ≤ width l := by
    intro l
    induction l with
    | nil => intro _; simp [width]
    | cons g l ih =>
      intro h
      have := h g (by simp)
      have := ih (fun x hx => h x (by simp [hx]))
      rw [width_cons]
      linarith
  cases l with
  | nil => exact absurd rfl h0
  | cons g l =>
    have a := h g (by simp)
    have b := this l (fun x hx => h x (by simp [hx]))
    rw [width_cons]
    linarith

theorem row_append (x : K) (a b : List (Glyph K)) : row x (a ++ b) = row x a ++ row (x + width a) b := by
  induction a generalizing x with
  | nil => simp [row, width]
  | cons g a ih =>
    simp only [List.cons_append, row, ih, width_cons]
    rw [add_assoc]

theorem row_shift (x d : K) (gs : List (Glyph K)) : (row x gs).map (fun c => { c with x := c.x + d }) = row (x + d) gs := by
  induction gs generalizing x with
  | nil => rfl
  | cons g gs ih =>
    simp only [row, List.map_cons, ih]
    rw [show x + g.adv + d = x + d + g.adv by ring]

theorem run_ltr (cx : K) (gs : List (Glyph K)) (h : ∀ g ∈ gs, g.off = 0) : runCells false cx gs = (row cx gs, cx + width gs) := by
  induction gs generalizing cx with
  | nil => simp [runCells, row, width]
  | cons g gs ih =>
    have h0 := h g (by simp)
    have e : (stepCell false cx g).2 = cx + g.adv := by simp [stepCell, h0]
    simp only [runCells]
    rw [e, ih _ (fun x hx => h x (by simp [hx]))]
    simp [stepCell, h0, row, width_cons, add_assoc]

theorem run_rtl (cx : K) (gs : List (Glyph K)) (h : ∀ g ∈ gs, g.off = 0) :
    runCells true cx gs = ((row (cx - width gs) gs.reverse).reverse, cx - width gs) := by
  induction gs generalizing cx with
  | nil => simp [runCells, row, width]
  | cons g gs ih =>
    have h0 := h g (by simp)
    have e : (stepCell true cx g).2 = cx - g.adv := by simp [stepCell, h0]
    simp only [runCells]
    rw [e, ih _ (fun x hx => h x (by simp [hx]))]
    have e2 : cx - width (g :: gs) = cx - g.adv - width gs := by rw [width_cons]; ring
    rw [e2, List.reverse_cons, row_append, List.reverse_append]
    have e3 : width gs.reverse = width gs := width_perm (List.reverse_perm gs)
    rw [e3]
    simp [row, stepCell, h0]

/-! ### Lemmas: boxes -/

theorem unite_right (x t w h a : K) (hw : 0 ≤ w) (hh : 0 < h) (ha : 0 < a) :
    DRect.unite ⟨some x, some t, w, h⟩ ⟨some (x + w), some t, a, h⟩ = ⟨some x, some t, w + a, h⟩ := by
  simp only [DRect.unite]
  rw [uniteXY_some _ _ _ _ _ _ _ _ hw hh.le (.inl ⟨ha, hh⟩)]
  have e1 : min x (x + w) = x := min_eq_left (by linarith)
  have e2 : max (x + w) (x + w + a) = x + w + a := max_eq_right (by linarith)
  rw [e1, e2, min_self, max_self]
  congr 1 <;> ring

theorem unite_left (x t w h a : K) (hw : 0 ≤ w) (hh : 0 < h) (ha : 0 < a) :
    DRect.unite ⟨some x, some t, w, h⟩ ⟨some (x - a), some t, a, h⟩ = ⟨some (x - a), some t, w + a, h⟩ := by
  simp only [DRect.unite]
  rw [uniteXY_some _ _ _ _ _ _ _ _ hw hh.le (.inl ⟨ha, hh⟩)]
  have e1 : min x (x - a) = x - a := min_eq_right (by linarith)
  have e2 : max (x + w) (x - a + a) = x + w := max_eq_left (by linarith)
  rw [e1, e2, min_self, max_self]
  congr 1 <;> ring

theorem unite_new (x t w h : K) (hh : 0 < h) (hw : 0 < w) : DRect.unite DRect.new ⟨some x, some t, w, h⟩ = ⟨some x, some t, w, h⟩ := by
  simp only [DRect.unite]
  exact uniteXY_new _ _ _ _ (.inl ⟨hw, hh⟩)

theorem box_right (x t w h : K) (hw : 0 ≤ w) (hh : 0 < h) (gs : List (Glyph K)) (hg : ∀ g ∈ gs, 0 < g.adv) :
    ((row (x + w) gs).map (cellBox t h)).foldl DRect.unite ⟨some x, some t, w, h⟩ = ⟨some x, some t, w + width gs, h⟩ := by
  induction gs generalizing w with
  | nil => simp [row, width]
  | cons g gs ih =>
    have ha := hg g (by simp)
    simp only [row, List.map_cons, List.foldl_cons, cellBox]
    rw [unite_right x t w h g.adv hw hh ha, add_assoc]
    have := ih (w + g.adv) (by linarith) (fun y hy => hg y (by simp [hy]))
    rw [show x + (w + g.adv) = x + (w + g.adv) from rfl] at this
    rw [this, width_cons, add_assoc]

theorem box_row (x t h : K) (hh : 0 < h) (gs : List (Glyph K)) (h0 : gs ≠ []) (hg : ∀ g ∈ gs, 0 < g.adv) :
    ((row x gs).map (cellBox t h)).foldl DRect.unite DRect.new = ⟨some x, some t, width gs, h⟩ := by
  cases gs with
  | nil => exact absurd rfl h0
  | cons g gs =>
    have ha := hg g (by simp)
    simp only [row, List.map_cons, List.foldl_cons]
    have e2 : cellBox t h ⟨g.id, x, g.adv⟩ = ⟨some x, some t, g.adv, h⟩ := rfl
    rw [e2, unite_new _ _ _ _ hh ha]
    have := box_right x t g.adv h ha.le hh gs (fun y hy => hg y (by simp [hy]))
    rw [this, width_cons]

theorem box_left (x t w h : K) (hw : 0 ≤ w) (hh : 0 < h) (gs : List (Glyph K)) (hg : ∀ g ∈ gs, 0 < g.adv ∧ g.off = 0) :
    ((runCells true x gs).1.map (cellBox t h)).foldl DRect.unite ⟨some x, some t, w, h⟩ = ⟨some (x - width gs), some t, w + width gs, h⟩ := by
  induction gs generalizing x w with
  | nil => simp [runCells, width]
  | cons g gs ih =>
    have ha := hg g (by simp)
    have e : stepCell true x g = (⟨g.id, x - g.adv, g.adv⟩, x - g.adv) := by simp [stepCell, ha.2]
    simp only [runCells, e, List.map_cons, List.foldl_cons]
    have e2 : cellBox t h ⟨g.id, x - g.adv, g.adv⟩ = ⟨some (x - g.adv), some t, g.adv, h⟩ := rfl
    rw [e2, unite_left x t w h g.adv hw hh ha.1, ih (x - g.adv) (w + g.adv) (by linarith [ha.1]) (fun y hy => hg y (by simp [hy])), width_cons]
    congr 1
    · congr 1; ring
    · ring

theorem box_rtl (x t h : K) (hh : 0 < h) (gs : List (Glyph K)) (h0 : gs ≠ []) (hg : ∀ g ∈ gs, 0 < g.adv ∧ g.off = 0) :
    ((runCells true x gs).1.map (cellBox t h)).foldl DRect.unite DRect.new = ⟨some (x - width gs), some t, width gs, h⟩ := by
  cases gs with
  | nil => exact absurd rfl h0
  | cons g gs =>
    have ha := hg g (by simp)
    have e : stepCell true x g = (⟨g.id, x - g.adv, g.adv⟩, x - g.adv) := by simp [stepCell, ha.2]
    simp only [runCells, e, List.map_cons, List.foldl_cons]
    have e2 : cellBox t h ⟨g.id, x - g.adv, g.adv⟩ = ⟨some (x - g.adv), some t, g.adv, h⟩ := rfl
    rw [e2, unite_new _ _ _ _ hh ha.1, box_left (x - g.adv) t g.adv h ha.1.le hh gs (fun y hy => hg y (by simp [hy])), width_cons]
    congr 1
    congr 1; ring

/-! ### Lemmas: lines and runs -/

/-- The glyphs of a sequence from left to right. -/
def flip (rtl : Bool) (gs : List (Glyph K)) : List (Glyph K) := if rtl then gs.reverse else gs

theorem flip_width (rtl : Bool) (gs : List (Glyph K)) : width (flip rtl gs) = width gs := by
  unfold flip
  split
  · exact width_perm (List.reverse_perm gs)
  · rfl

theorem line_drawn (ltr rtl : Bool) (top height cx : K) (hh : 0 < height) (gs : List (Glyph K)) (h0 : gs ≠ []) (hg : ∀ g ∈ gs, 0 < g.adv ∧ g.off = 0) :
    ∃ x, x = (if ltr then cx else cx - width gs) ∧ (drawLine ltr rtl top height cx gs).1.Perm (row x (flip rtl gs)) ∧
      (drawLine ltr rtl top height cx gs).2.1 = ⟨some x, some top, width gs, height⟩ ∧
      (drawLine ltr rtl top height cx gs).2.2 = (if ltr then cx + width gs else cx - width gs) := by
  have ho : ∀ g ∈ gs, g.off = 0 := fun g h => (hg g h).2
  have hp : ∀ g ∈ gs, 0 < g.adv := fun g h => (hg g h).1
  refine ⟨_, rfl, ?_⟩
  unfold drawLine
  cases ltr <;> cases rtl
  · -- leftwards, a run to the right
    have e : (false == false) = true := rfl
    simp only [e, if_true, run_ltr cx gs ho, box_row cx top height hh gs h0 hp, Option.getD_some, flip, Bool.false_eq_true, if_false]
    refine ⟨?_, ?_, ?_⟩
    · rw [row_shift]
      rw [show cx + -1 * width gs = cx - width gs by ring]
    · rw [show cx + -1 * width gs = cx - width gs by ring]
    · ring
  · have e : (false == true) = false := rfl
    simp only [e, if_true, run_rtl cx gs ho, flip, Bool.false_eq_true, if_false]
    refine ⟨List.reverse_perm _, ?_, trivial⟩
    have := box_rtl cx top height hh gs h0 hg
    rw [run_rtl cx gs ho] at this
    exact this
  · have e : (true == false) = false := rfl
    simp only [e, if_true, run_ltr cx gs ho, box_row cx top height hh gs h0 hp, flip, Bool.false_eq_true, if_false]
    exact ⟨List.Perm.refl _, trivial, trivial⟩
  · have e : (true == true) = true := rfl
    have hb := box_rtl cx top height hh gs h0 hg
    rw [run_rtl cx gs ho] at hb
    simp only [e, if_true, run_rtl cx gs ho, hb, Option.getD_some, flip]
    refine ⟨?_, ?_, ?_⟩
    · rw [List.map_reverse, row_shift]
      rw [show cx - width gs + 1 * width gs = cx by ring]
      exact List.reverse_perm _
    · rw [show cx - width gs + 1 * width gs = cx by ring]
    · ring

/-- Boxes that continue a text: `w` is the width so far and `W` the width of the boxes. -/
def Continues (ltr : Bool) (top height cx W : K) (bs : List (DRect K)) : Prop :=
  ∀ w, 0 ≤ w → bs.foldl DRect.unite ⟨some (if ltr then cx - w else cx), some top, w, height⟩ =
    ⟨some (if ltr then cx - w else cx - W), some top, w + W, height⟩

theorem continues_nil (ltr : Bool) (top height cx : K) : Continues ltr top height cx 0 [] := by
  intro w hw
  cases ltr <;> simp

theorem continues_append (ltr : Bool) (top height cx W W' : K) (bs bs' : List (DRect K)) (hW : 0 ≤ W)
    (h : Continues ltr top height cx W bs) (h' : Continues ltr top height (if ltr then cx + W else cx - W) W' bs') :
    Continues ltr top height cx (W + W') (bs ++ bs') := by
  intro w hw
  rw [List.foldl_append, h w hw]
  have := h' (w + W) (by linarith)
  cases ltr
  · simp only [Bool.false_eq_true, if_false] at this ⊢
    rw [this]
    congr 1
    · congr 1; ring
    · ring
  · simp only [if_true] at this ⊢
    rw [show cx + W - (w + W) = cx - w by ring] at this
    rw [this, add_assoc]

theorem continues_one (ltr : Bool) (top height cx W : K) (hh : 0 < height) (hW : 0 < W) :
    Continues ltr top height cx W [⟨some (if ltr then cx else cx - W), some top, W, height⟩] := by
  intro w hw
  cases ltr
  · simp only [Bool.false_eq_true, if_false, List.foldl_cons, List.foldl_nil]
    exact unite_left cx top w height W hw hh hW
  · simp only [if_true, List.foldl_cons, List.foldl_nil]
    have := unite_right (cx - w) top w height W hw hh hW
    rwa [show cx - w + w = cx by ring] at this

/-- The first box. -/
def FirstBox (ltr : Bool) (top height cx W : K) (bs : List (DRect K)) : Prop :=
  bs.foldl DRect.unite DRect.new = ⟨some (if ltr then cx else cx - W), some top, W, height⟩

theorem first_append (ltr : Bool) (top height cx W W' : K) (bs bs' : List (DRect K)) (hW : 0 ≤ W)
    (h : FirstBox ltr top height cx W bs) (h' : Continues ltr top height (if ltr then cx + W else cx - W) W' bs') :
    FirstBox ltr top height cx (W + W') (bs ++ bs') := by
  unfold FirstBox at h ⊢
  rw [List.foldl_append, h]
  have := h' W hW
  cases ltr
  · simp only [Bool.false_eq_true, if_false] at this ⊢
    rw [this]
    congr 1
    congr 1; ring
  · simp only [if_true] at this ⊢
    rw [show cx + W - W = cx by ring] at this
    exact this

/-- What is known about something drawn: the cells are the row of `gs`, and the boxes and the position go on. -/
structure Drawn (ltr : Bool) (top height cx : K) (gs : List (Glyph K)) (r : List (Cell K) × List (DRect K) × K) : Prop where
  cells : r.1.Perm (row (if ltr then cx else cx - width gs) gs)
  next : r.2.2 = if ltr then cx + width gs else cx - width gs
  boxes : Continues ltr top height cx (width gs) r.2.1
  first : r.2.1 ≠ [] → FirstBox ltr top height cx (width gs) r.2.1
  some_ : r.2.1 = [] → gs = []

/-- The order from left to right of two parts. -/
def beside (ltr : Bool) (a b : List (Glyph K)) : List (Glyph K) := if ltr then a ++ b else b ++ a

theorem drawn_nil (ltr : Bool) (top height cx : K) : Drawn ltr top height cx [] ([], [], cx) where
  cells := by simp [row]
  next := by cases ltr <;> simp [width]
  boxes := continues_nil ltr top height cx
  first := fun h => absurd rfl h
  some_ := fun _ => rfl

theorem drawn_beside (ltr : Bool) (top height cx : K) (a b : List (Glyph K)) (ha : 0 ≤ width a) (r q : List (Cell K) × List (DRect K) × K)
    (hr : Drawn ltr top height cx a r) (hq : Drawn ltr top height r.2.2 b q) :
    Drawn ltr top height cx (beside ltr a b) (r.1 ++ q.1, r.2.1 ++ q.2.1, q.2.2) := by
  have hn := hr.next
  have hw : width (beside ltr a b) = width a + width b := by
    unfold beside
    cases ltr
    · simp only [Bool.false_eq_true, if_false, width_append]; ring
    · simp only [if_true, width_append]
  refine ⟨?_, ?_, ?_, ?_, ?_⟩
  · have h1 := hr.cells
    have h2 := hq.cells
    rw [hn] at h2
    simp only
    rw [hw]
    unfold beside
    cases ltr
    · simp only [Bool.false_eq_true, if_false] at h1 h2 ⊢
      rw [row_append]
      rw [show cx - (width a + width b) = cx - width a - width b by ring]
      rw [show cx - width a - width b + width b = cx - width a by ring]
      exact (h1.append h2).trans List.perm_append_comm
    · simp only [if_true] at h1 h2 ⊢
      rw [row_append]
      exact h1.append h2
  · simp only
    rw [hq.next, hn, hw]
    cases ltr
    · simp only [Bool.false_eq_true, if_false]; ring
    · simp only [if_true]; ring
  · rw [hw]
    apply continues_append ltr top height cx _ _ _ _ ha hr.boxes
    rw [← hn]
    exact hq.boxes
  · intro h
    rw [hw]
    by_cases h0 : r.2.1 = []
    · have ea := hr.some_ h0
      subst ea
      simp only [h0, List.nil_append] at h ⊢
      have := hq.first h
      rw [hn] at this
      have w0 : width ([] : List (Glyph K)) = 0 := rfl
      rw [w0] at this ⊢
      rw [zero_add]
      cases ltr
      · simpa using this
      · simpa using this
    · apply first_append ltr top height cx _ _ _ _ ha (hr.first h0)
      rw [← hn]
      exact hq.boxes
  · intro h
    simp only [List.append_eq_nil_iff] at h
    rw [hr.some_ h.1, hq.some_ h.2]
    cases ltr <;> rfl

theorem width_nonneg (l : List (Glyph K)) (h : ∀ g ∈ l, 0 < g.adv) : 0 ≤ width l := by
  cases l with
  | nil => exact le_refl _
  | cons g l => exact (width_pos (g :: l) (by simp) h).le

theorem lines_drawn (ltr rtl : Bool) (top height cx : K) (hh : 0 < height) (ls : List (List (Glyph K)))
    (hg : ∀ l ∈ ls, l ≠ [] ∧ ∀ g ∈ l, 0 < g.adv ∧ g.off = 0) :
    Drawn ltr top height cx (if ltr then ls.flatMap (flip rtl) else ls.reverse.flatMap (flip rtl)) (drawLines ltr rtl top height cx ls) := by
  induction ls generalizing cx with
  | nil => simpa [drawLines] using drawn_nil ltr top height cx
  | cons l ls ih =>
    have hl := hg l (by simp)
    obtain ⟨x, hx, h1, h2, h3⟩ := line_drawn ltr rtl top height cx hh l hl.1 hl.2
    have hp := width_pos l hl.1 (fun g h => (hl.2 g h).1)
    have hd : Drawn ltr top height cx (flip rtl l)
        ((drawLine ltr rtl top height cx l).1, [(drawLine ltr rtl top height cx l).2.1], (drawLine ltr rtl top height cx l).2.2) := by
      refine ⟨?_, ?_, ?_, ?_, ?_⟩
      · rw [flip_width, ← hx]; exact h1
      · rw [flip_width]; exact h3
      · rw [flip_width, h2, hx]
        exact continues_one ltr top height cx _ hh hp
      · intro _
        unfold FirstBox
        rw [flip_width, h2, hx]
        simp only [List.foldl_cons, List.foldl_nil]
        exact unite_new _ _ _ _ hh hp
      · intro h
        cases h
    have := drawn_beside ltr top height cx _ _ (by rw [flip_width]; exact hp.le) _ _ hd (ih (drawLine ltr rtl top height cx l).2.2 (fun l' h => hg l' (by simp [h])))
    simp only [List.singleton_append] at this
    simp only [drawLines]
    have e : beside ltr (flip rtl l) (if ltr then ls.flatMap (flip rtl) else ls.reverse.flatMap (flip rtl)) =
        if ltr then (l :: ls).flatMap (flip rtl) else (l :: ls).reverse.flatMap (flip rtl) := by
      unfold beside
      cases ltr <;> simp
    rw [e] at this
    exact this

theorem flatMap_reverse (ls : List (List (Glyph K))) : ls.reverse.flatMap List.reverse = ls.flatten.reverse := by
  induction ls with
  | nil => rfl
  | cons l ls ih => simp [ih]

theorem flip_lines (rtl : Bool) (ls : List (List (Glyph K))) :
    (if rtl then ls.reverse.flatMap (flip rtl) else ls.flatMap (flip rtl)) = flip rtl ls.flatten := by
  cases rtl
  · simp only [Bool.false_eq_true, if_false]
    have : flip false = (id : List (Glyph K) → List (Glyph K)) := rfl
    rw [this]
    simp
  · simp only [if_true]
    exact flatMap_reverse ls

/-- The parity of the level. -/
def odd (r : Run K) : Bool := r.level % 2 == 1

theorem run_drawn (ltr : Bool) (top height cx : K) (hh : 0 < height) (r : Run K)
    (hg : ∀ l ∈ r.lines, l ≠ [] ∧ ∀ g ∈ l, 0 < g.adv ∧ g.off = 0) :
    Drawn ltr top height cx (flip (odd r) r.lines.flatten) (drawRun ltr top height cx r) := by
  unfold drawRun
  have key : (if ltr then (if ltr == odd r then r.lines.reverse else r.lines).flatMap (flip (odd r))
      else (if ltr == odd r then r.lines.reverse else r.lines).reverse.flatMap (flip (odd r))) = flip (odd r) r.lines.flatten := by
    rw [← flip_lines]
    cases ltr <;> cases odd r <;> simp
  rw [← key]
  apply lines_drawn ltr (odd r) top height cx hh
  intro l hl
  apply hg
  split at hl
  · simpa using hl
  · exact hl

theorem runs_drawn (ltr : Bool) (top height cx : K) (hh : 0 < height) (rs : List (Run K))
    (hg : ∀ r ∈ rs, ∀ l ∈ r.lines, l ≠ [] ∧ ∀ g ∈ l, 0 < g.adv ∧ g.off = 0) :
    Drawn ltr top height cx (if ltr then rs.flatMap (fun r => flip (odd r) r.lines.flatten)
      else rs.reverse.flatMap (fun r => flip (odd r) r.lines.flatten)) (drawRuns ltr top height cx rs) := by
  induction rs generalizing cx with
  | nil => simpa [drawRuns] using drawn_nil ltr top height cx
  | cons r rs ih =>
    have hr := hg r (by simp)
    have hp : 0 ≤ width (flip (odd r) r.lines.flatten) := by
      rw [flip_width]
      apply width_nonneg
      intro g hgm
      obtain ⟨l, hl, hm⟩ := List.mem_flatten.1 hgm
      exact ((hr l hl).2 g hm).1
    have := drawn_beside ltr top height cx _ _ hp _ _ (run_drawn ltr top height cx hh r hr)
      (ih (drawRun ltr top height cx r).2.2 (fun r' h => hg r' (by simp [h])))
    simp only [drawRuns]
    have e : beside ltr (flip (odd r) r.lines.flatten) (if ltr then rs.flatMap (fun r => flip (odd r) r.lines.flatten)
        else rs.reverse.flatMap (fun r => flip (odd r) r.lines.flatten)) =
        if ltr then (r :: rs).flatMap (fun r => flip (odd r) r.lines.flatten)
        else (r :: rs).reverse.flatMap (fun r => flip (odd r) r.lines.flatten) := by
      unfold beside
      cases ltr <;> simp
    rw [e] at this
    exact this

/-! ### Lemmas: reordering -/

theorem reverseWhere_all {α : Type} (p : α → Bool) (l acc : List α) (rest : List α) (h : ∀ x ∈ l, p x = true) :
    reverseWhere p (l ++ rest) acc = reverseWhere p rest (l.reverse ++ acc) := by
  induction l generalizing acc with
  | nil => rfl
  | cons x l ih =>
    simp only [List.cons_append, reverseWhere, h x (by simp), if_true]
    rw [ih _ (fun y hy => h y (by simp [hy]))]
    simp

theorem reverseWhere_none {α : Type} (p : α → Bool) (l acc rest : List α) (h0 : l ≠ []) (h : ∀ x ∈ l, p x = false) :
    reverseWhere p (l ++ rest) acc = acc ++ l ++ reverseWhere p rest [] := by
  induction l generalizing acc with
  | nil => exact absurd rfl h0
  | cons x l ih =>
    simp only [List.cons_append, reverseWhere, h x (by simp)]
    cases l with
    | nil => simp
    | cons y l =>
      rw [ih [] (by simp) (fun y hy => h y (by simp [hy]))]
      simp

/-- The run with the glyphs reversed if the condition holds. -/
def block {α : Type} (p : Nat → Bool) (b : Nat × List α) : List (Nat × α) :=
  (if p b.1 then b.2.reverse else b.2).map fun g => (b.1, g)

/-- Blocks of which no neighbours satisfy the condition both are reversed one by one. -/
theorem reverse_blocks {α : Type} (p : Nat → Bool) (bs : List (Nat × List α)) (hn : ∀ b ∈ bs, b.2 ≠ [])
    (hc : bs.IsChain (fun a b => ¬ (p a.1 = true ∧ p b.1 = true))) (acc : List (Nat × α))
    (ha : acc = [] ∨ ∀ b, bs.head? = some b → p b.1 = false) :
    reverseWhere (fun x => p x.1) (bs.flatMap fun b => b.2.map fun g => (b.1, g)) acc = acc ++ bs.flatMap (block p) := by
  induction bs generalizing acc with
  | nil => simp [reverseWhere]
  | cons b bs ih =>
    have hb := hn b (by simp)
    have hc' : bs.IsChain (fun a b => ¬ (p a.1 = true ∧ p b.1 = true)) := by
      cases bs with
      | nil => exact List.IsChain.nil
      | cons c bs => exact (List.isChain_cons_cons.1 hc).2
    have ih' := ih (fun x hx => hn x (by simp [hx])) hc'
    rw [List.flatMap_cons, List.flatMap_cons]
    by_cases hp : p b.1 = true
    · have hacc : acc = [] := by
        rcases ha with h | h
        · exact h
        · have := h b (by simp)
          rw [hp] at this
          cases this
      rw [reverseWhere_all _ _ _ _ (by simp [hp]), ih']
      · simp [hacc, block, hp]
      · right
        intro c hc2
        cases bs with
        | nil => simp at hc2
        | cons d bs =>
          simp at hc2
          subst hc2
          have := (List.isChain_cons_cons.1 hc).1
          simp only [hp, true_and, Bool.not_eq_true] at this
          exact this
    · simp only [Bool.not_eq_true] at hp
      rw [reverseWhere_none _ _ _ _ (by simpa using hb) (by simp [hp]), ih' [] (.inl rfl)]
      simp [block, hp]

theorem reverseWhere_whole {α : Type} (p : α → Bool) (l : List α) (h : ∀ x ∈ l, p x = true) : reverseWhere p l [] = l.reverse := by
  have := reverseWhere_all p l [] [] h
  simpa [reverseWhere] using this

theorem reverseWhere_never {α : Type} (p : α → Bool) (l : List α) (h : ∀ x ∈ l, p x = false) : reverseWhere p l [] = l := by
  cases l with
  | nil => rfl
  | cons x l =>
    have := reverseWhere_none p (x :: l) [] [] (by simp) h
    simpa [reverseWhere] using this

/-- The runs as blocks. -/
def blocks (rs : List (Run K)) : List (Nat × List (Glyph K)) := rs.map fun r => (r.level, r.lines.flatten)

theorem logical_blocks (rs : List (Run K)) : logical rs = (blocks rs).flatMap fun b => b.2.map fun g => (b.1, g) := by
  unfold logical blocks
  rw [List.flatMap_map]

theorem blocks_chain (rs : List (Run K)) (p : Nat → Bool) (h : rs.IsChain (fun a b => a.level ≠ b.level))
    (hp : ∀ a ∈ rs, ∀ b ∈ rs, p a.level = true → p b.level = true → a.level = b.level) :
    (blocks rs).IsChain (fun a b => ¬ (p a.1 = true ∧ p b.1 = true)) := by
  unfold blocks
  rw [List.isChain_map]
  induction rs with
  | nil => exact List.IsChain.nil
  | cons a rs ih =>
    cases rs with
    | nil => exact List.isChain_singleton _
    | cons b rs =>
      rw [List.isChain_cons_cons] at h ⊢
      refine ⟨fun ⟨x, y⟩ => h.1 (hp a (by simp) b (by simp) x y), ih h.2 (fun u hu v hv => hp u (by simp [hu]) v (by simp [hv]))⟩

theorem visual_ltr (rs : List (Run K)) (h : TwoLevels true rs) : visual rs = rs.flatMap (fun r => flip (odd r) r.lines.flatten) := by
  have hlev : ∀ r ∈ rs, r.level = 0 ∨ r.level = 1 := fun r hr => by simpa using h.levels r hr
  have hne : ∀ b ∈ blocks rs, b.2 ≠ [] := by
    intro b hb
    obtain ⟨r, hr, rfl⟩ := List.mem_map.1 hb
    obtain ⟨h1, h2⟩ := h.lines r hr
    obtain ⟨l, hl⟩ := List.exists_mem_of_ne_nil _ h1
    obtain ⟨g, hg⟩ := List.exists_mem_of_ne_nil _ (h2 l hl).1
    exact List.ne_nil_of_mem (List.mem_flatten.2 ⟨l, hl, hg⟩)
  unfold visual
  have e2 : reverseWhere (fun x => decide (1 + 1 ≤ x.1)) (logical rs) [] = logical rs := by
    apply reverseWhere_never
    intro x hx
    unfold logical at hx
    obtain ⟨r, hr, hm⟩ := List.mem_flatMap.1 hx
    obtain ⟨g, _, rfl⟩ := List.mem_map.1 hm
    have := hlev r hr
    simp
    omega
  have e1 := reverse_blocks (fun n => decide (0 + 1 ≤ n)) (blocks rs) hne (blocks_chain rs (fun n => decide (0 + 1 ≤ n)) h.differ (by
    intro a ha b hb pa pb
    have := hlev a ha
    have := hlev b hb
    have pa := of_decide_eq_true pa
    have pb := of_decide_eq_true pb
    omega)) [] (.inl rfl)
  simp only [reorder]
  rw [e2, logical_blocks, e1]
  simp only [List.nil_append, List.map_flatMap, blocks, List.flatMap_map]
  apply List.flatMap_congr
  intro r hr
  have := hlev r hr
  unfold block flip odd
  rcases this with e | e <;> simp [e]

theorem visual_rtl (rs : List (Run K)) (h : TwoLevels false rs) : visual rs = rs.reverse.flatMap (fun r => flip (odd r) r.lines.flatten) := by
  have hlev : ∀ r ∈ rs, r.level = 1 ∨ r.level = 2 := fun r hr => by simpa using h.levels r hr
  have hne : ∀ b ∈ blocks rs, b.2 ≠ [] := by
    intro b hb
    obtain ⟨r, hr, rfl⟩ := List.mem_map.1 hb
    obtain ⟨h1, h2⟩ := h.lines r hr
    obtain ⟨l, hl⟩ := List.exists_mem_of_ne_nil _ h1
    obtain ⟨g, hg⟩ := List.exists_mem_of_ne_nil _ (h2 l hl).1
    exact List.ne_nil_of_mem (List.mem_flatten.2 ⟨l, hl, hg⟩)
  unfold visual
  have e1 := reverse_blocks (fun n => decide (1 + 1 ≤ n)) (blocks rs) hne (blocks_chain rs (fun n => decide (1 + 1 ≤ n)) h.differ (by
    intro a ha b hb pa pb
    have := hlev a ha
    have := hlev b hb
    have pa := of_decide_eq_true pa
    have pb := of_decide_eq_true pb
    omega)) [] (.inl rfl)
  simp only [reorder]
  rw [logical_blocks, e1, List.nil_append]
  rw [reverseWhere_whole]
  · rw [List.reverse_flatMap, List.map_flatMap]
    simp only [blocks, ← List.map_reverse, List.flatMap_map]
    apply List.flatMap_congr
    intro r hr
    have := hlev r (by simpa using hr)
    simp only [block, flip, odd, Function.comp]
    rcases this with e | e <;> simp [e]
  · intro x hx
    obtain ⟨b, hb, hm⟩ := List.mem_flatMap.1 hx
    obtain ⟨r, hr, rfl⟩ := List.mem_map.1 hb
    unfold block at hm
    obtain ⟨g, _, rfl⟩ := List.mem_map.1 hm
    have := hlev r hr
    simp
    omega

/-! ### The theorems -/

/-- **C120** The glyphs of a text stand one beside the other without gaps, from left to right in the order of rule L2
of the Unicode bidirectional algorithm: from the start to the right if the text goes to the right, from the start
to the left otherwise.  The next text goes on at the other end, and the box of the text is its width. -/
theorem bidi_order_partial (ltr : Bool) (top height start : K) (hh : 0 < height) (rs : List (Run K)) (h : TwoLevels ltr rs) :
    (drawRuns ltr top height start rs).1.Perm (row (leftEdge ltr start rs) (visual rs)) ∧
      (drawRuns ltr top height start rs).2.2 = (if ltr then start + width (visual rs) else start - width (visual rs)) ∧
      (rs ≠ [] → textBox (drawRuns ltr top height start rs).2.1 = ⟨some (leftEdge ltr start rs), some top, width (visual rs), height⟩) := by
  have hd := runs_drawn ltr top height start hh rs (fun r hr => (h.lines r hr).2)
  have hv : (if ltr then rs.flatMap (fun r => flip (odd r) r.lines.flatten)
      else rs.reverse.flatMap (fun r => flip (odd r) r.lines.flatten)) = visual rs := by
    cases ltr
    · exact (visual_rtl rs h).symm
    · exact (visual_ltr rs h).symm
  rw [hv] at hd
  refine ⟨hd.cells, hd.next, fun h0 => ?_⟩
  apply hd.first
  intro hb
  have he := hd.some_ hb
  cases rs with
  | nil => exact h0 rfl
  | cons r rs =>
    obtain ⟨h1, h2⟩ := h.lines r (by simp)
    obtain ⟨l, hl⟩ := List.exists_mem_of_ne_nil _ h1
    obtain ⟨g, hg⟩ := List.exists_mem_of_ne_nil _ (h2 l hl).1
    have hm : g ∈ flip (odd r) r.lines.flatten := by
      have : g ∈ r.lines.flatten := List.mem_flatten.2 ⟨l, hl, hg⟩
      unfold flip
      split
      · simpa using this
      · exact this
    rw [← hv] at he
    cases ltr
    · simp only [Bool.false_eq_true, if_false, List.reverse_cons, List.flatMap_append, List.append_eq_nil_iff] at he
      have := he.2
      simp only [List.flatMap_cons, List.flatMap_nil, List.append_nil] at this
      rw [this] at hm
      cases hm
    · simp only [if_true, List.flatMap_cons, List.append_eq_nil_iff] at he
      rw [he.1] at hm
      cases hm

/-- Two texts: `ab` with two letters from right to left in two lines after it, and the other way round. -/
def mixed : List (Run ℚ) := [⟨0, [[⟨0, 5, 0⟩, ⟨1, 6, 0⟩]]⟩, ⟨1, [[⟨2, 7, 0⟩], [⟨3, 8, 0⟩]]⟩]
def mixed' : List (Run ℚ) := [⟨1, [[⟨0, 5, 0⟩, ⟨1, 6, 0⟩]]⟩, ⟨2, [[⟨2, 7, 0⟩], [⟨3, 8, 0⟩]]⟩]

/-- Instances. -/
example : TwoLevels true mixed ∧ TwoLevels false mixed' ∧ (visual mixed).map Glyph.id = [0, 1, 3, 2] ∧ (visual mixed').map Glyph.id = [2, 3, 1, 0] := by
  refine ⟨⟨by decide, by decide, by decide⟩, ⟨by decide, by decide, by decide⟩, by decide, by decide⟩

example : (drawRuns true 0 10 100 mixed).1 = [⟨0, 100, 5⟩, ⟨1, 105, 6⟩, ⟨3, 111, 8⟩, ⟨2, 119, 7⟩] ∧
    (drawRuns false 0 10 100 mixed').1 = [⟨0, 95, 5⟩, ⟨1, 89, 6⟩, ⟨3, 81, 8⟩, ⟨2, 74, 7⟩] := by
  decide +kernel

/-- **C120** is violated for numbers in words from right to left (levels 1, 2, 1 in a text that goes to the right): the
second word should stand left of the number and the first word right of it, but the three stand in the order of
the characters. -/
theorem nested_violated : (visual ([⟨1, [[⟨0, 5, 0⟩]]⟩, ⟨2, [[⟨1, 5, 0⟩]]⟩, ⟨1, [[⟨2, 5, 0⟩]]⟩] : List (Run ℚ))).map Glyph.id = [2, 1, 0] ∧
    (drawRuns true (0 : ℚ) 10 0 [⟨1, [[⟨0, 5, 0⟩]]⟩, ⟨2, [[⟨1, 5, 0⟩]]⟩, ⟨1, [[⟨2, 5, 0⟩]]⟩]).1 = [⟨0, 0, 5⟩, ⟨1, 5, 5⟩, ⟨2, 10, 5⟩] := by
  refine ⟨by decide, by decide +kernel⟩

/-- **C120** is violated for glyphs with an offset, such as marks: from right to left, the offset moves not only the
glyph itself, but all the following ones. -/
theorem offset_violated (cx a b o : K) :
    (runCells true cx [⟨0, a, o⟩, ⟨1, b, 0⟩]).1 = [⟨0, cx + o - a, a⟩, ⟨1, cx + o - a - b, b⟩] ∧
      (runCells false cx [⟨0, a, o⟩, ⟨1, b, 0⟩]).1 = [⟨0, cx + o, a⟩, ⟨1, cx + a, b⟩] := by
  simp [runCells, stepCell]

end SvgPy.BidiText
