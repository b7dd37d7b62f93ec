import Verif.Model.GlyphRun
import Mathlib.Algebra.BigOperators.Intervals
import Mathlib.Algebra.BigOperators.Fin
import Mathlib.Tactic.Linarith
import Mathlib.Tactic.Ring
import Mathlib.Tactic.NormNum
import Mathlib.Tactic.FieldSimp
import Mathlib.Tactic.LinearCombination
import Mathlib.Data.List.GetD
import Mathlib.Data.Rat.Floor

/-!
C107: each glyph of a text stands where the attributes `x`, `y`, `dx`, `dy` and the advances put it,
turned by `rotate` around its origin, and lengths of parts of a text are sums of advances.
-/

set_option linter.unusedSimpArgs false
set_option linter.unusedSectionVars false

namespace SvgPy.GlyphRun

variable {K : Type} [Field K] [LinearOrder K]

namespace Spec

/-- How far the position moves from glyph `i` to glyph `j`: the shifts and the advances. -/
def way (deltas : List K) (adv : Nat → K) (i j : Nat) : K :=
  ∑ k ∈ Finset.Ico i j, (deltas.getD k 0 + adv k)

/-- The coordinate of glyph `i`: its own value if there is one; otherwise the last value, or the start
if there is none, and the way from there. Its own shift is added. -/
def coord (start : K) (vals deltas : List K) (adv : Nat → K) (i : Nat) : K :=
  (if h : i < vals.length then vals[i]
   else if h : vals = [] then start + way deltas adv 0 i
   else vals.getLast h + way deltas adv (vals.length - 1) i) + deltas.getD i 0

/-- The last rotation holds for the rest of the text. -/
def rotation (rots : List K) (i : Nat) : K := rots.getD (min i (rots.length - 1)) 0

/-- The advances of glyphs. -/
def advX (gs : List (Glyph K)) (i : Nat) : K := (gs[i]?.map Glyph.ax).getD 0
def advY (gs : List (Glyph K)) (i : Nat) : K := (gs[i]?.map Glyph.ay).getD 0

/-- A point of an outline (y upwards), turned by an angle with cosine `c` and sine `s` clockwise and
set at a place (y downwards). -/
def stand (c s x y : K) (p : K × K) : K × K := (x + (c * p.1 + s * p.2), y + (s * p.1 - c * p.2))

/-- The value of an attribute for character `i`: of the first element in the chain that has a value
for it; `first e` is the number of the first character of the element. -/
def valueAt (st : Lists K) (k : Key) (first : Nat → Nat) (i : Nat) : List Nat → Option K
  | [] => none
  | e :: es => match (st e k).bind (fun l => l[i - first e]?) with
    | some v => some v
    | none => valueAt st k first i es

end Spec

open Spec

/-! ### One run of glyphs -/

/-- The current position before glyph `i`. -/
def cur (start : K) (vals deltas : List K) (adv : Nat → K) : Nat → K
  | 0 => start
  | i + 1 => vals.getD i (cur start vals deltas adv i) + deltas.getD i 0 + adv i

theorem cur_shift (start : K) (vals deltas : List K) (adv : Nat → K) (i : Nat) :
    cur (vals.headD start + deltas.headD 0 + adv 0) vals.tail deltas.tail (fun j => adv (j + 1)) i =
      cur start vals deltas adv (i + 1) := by
  induction i with
  | zero =>
    simp only [cur]
    cases vals <;> cases deltas <;> simp
  | succ i ih =>
    rw [cur, ih]
    conv_rhs => rw [cur]
    cases vals <;> cases deltas <;> simp

theorem getD_eq_coord (start : K) (vals deltas : List K) (adv : Nat → K) (i : Nat) :
    vals.getD i (cur start vals deltas adv i) + deltas.getD i 0 = coord start vals deltas adv i := by
  unfold coord
  congr 1
  by_cases h : i < vals.length
  · rw [dif_pos h, List.getD_eq_getElem _ _ h]
  · rw [dif_neg h, List.getD_eq_default _ _ (by omega)]
    by_cases hv : vals = []
    · subst hv
      rw [dif_pos rfl]
      clear h
      induction i with
      | zero => simp [cur, way]
      | succ i ih =>
        rw [cur, List.getD_eq_default _ _ (by simp), ih]
        simp only [way]
        rw [Finset.sum_Ico_succ_top (by omega)]
        ring
    · rw [dif_neg hv]
      have hpos : 0 < vals.length := List.length_pos_iff.2 hv
      obtain ⟨d, rfl⟩ : ∃ d, i = vals.length + d := ⟨i - vals.length, by omega⟩
      clear h
      induction d with
      | zero =>
        obtain ⟨n, hn⟩ : ∃ n, vals.length = n + 1 := ⟨vals.length - 1, by omega⟩
        have hl : vals.getLast hv = vals.getD n (cur start vals deltas adv n) := by
          rw [List.getLast_eq_getElem, List.getD_eq_getElem _ _ (by omega)]
          simp [hn]
        rw [hl, Nat.add_zero, way, hn]
        simp [cur]
        ring
      | succ d ih =>
        rw [← Nat.add_assoc, cur, List.getD_eq_default _ _ (by omega), ih]
        simp only [way]
        rw [Finset.sum_Ico_succ_top (by omega)]
        ring

theorem rotation_zero (rots : List K) : rotateOf rots = rotation rots 0 := by
  cases rots <;> simp [rotateOf, rotation]

theorem rotation_succ (rots : List K) (i : Nat) :
    rotation (rotateRest rots) i = rotation rots (i + 1) := by
  match rots with
  | [] => simp [rotateRest, rotation]
  | [r] => simp [rotateRest, rotation]
  | r :: r' :: rs =>
    simp only [rotateRest, rotation, List.length_cons, Nat.add_sub_cancel]
    have : min (i + 1) (rs.length + 1) = min i rs.length + 1 := by omega
    rw [this, List.getD_cons_succ]

theorem run_get (p : Pen K) (gs : List (Glyph K)) (i : Nat) (g : Glyph K) (hg : gs[i]? = some g) :
    (runGlyphs p gs).2[i]? = some
      { x := p.xs.getD i (cur p.cx p.xs p.dxs (advX gs) i) + p.dxs.getD i 0 + g.xo,
        y := p.ys.getD i (cur p.cy p.ys p.dys (advY gs) i) + p.dys.getD i 0 - g.yo,
        rotate := rotation p.rots i } := by
  induction gs generalizing p i with
  | nil => simp at hg
  | cons a gs ih =>
    cases i with
    | zero =>
      simp at hg
      subst hg
      simp only [runGlyphs, stepGlyph, List.getElem?_cons_zero, cur, Option.some.injEq, Placed.mk.injEq,
        ← rotation_zero, and_true]
      constructor
      · cases p.xs <;> cases p.dxs <;> simp <;> ring
      · cases p.ys <;> cases p.dys <;> simp <;> ring
    | succ i =>
      simp only [List.getElem?_cons_succ] at hg
      simp only [runGlyphs, List.getElem?_cons_succ]
      rw [ih (stepGlyph p a).1 i hg]
      have hx : (fun j => advX (a :: gs) (j + 1)) = advX gs := by
        funext j; simp [advX]
      have hy : (fun j => advY (a :: gs) (j + 1)) = advY gs := by
        funext j; simp [advY]
      have ex : (stepGlyph p a).1.cx = p.xs.headD p.cx + p.dxs.headD 0 + advX (a :: gs) 0 := by
        simp [stepGlyph, advX]; ring
      have ey : (stepGlyph p a).1.cy = p.ys.headD p.cy + p.dys.headD 0 + advY (a :: gs) 0 := by
        simp [stepGlyph, advY]; ring
      have cx := cur_shift p.cx p.xs p.dxs (advX (a :: gs)) i
      have cy := cur_shift p.cy p.ys p.dys (advY (a :: gs)) i
      rw [hx, ← ex] at cx
      rw [hy, ← ey] at cy
      have h1 : (stepGlyph p a).1.xs = p.xs.tail := rfl
      have h2 : (stepGlyph p a).1.ys = p.ys.tail := rfl
      have h3 : (stepGlyph p a).1.dxs = p.dxs.tail := rfl
      have h4 : (stepGlyph p a).1.dys = p.dys.tail := rfl
      have h5 : (stepGlyph p a).1.rots = rotateRest p.rots := rfl
      rw [h1, h2, h3, h4, h5, cx, cy, rotation_succ]
      have tl : ∀ (l : List K) (d : K), l.tail.getD i d = l.getD (i + 1) d := by
        intro l d; cases l <;> simp
      rw [tl, tl, tl, tl]

/-- C107: in a run of glyphs, glyph `i` is drawn at the coordinates that the lists give it, moved by
its offset, with the rotation that the list gives it. -/
theorem run_places (p : Pen K) (gs : List (Glyph K)) (i : Nat) (g : Glyph K) (hg : gs[i]? = some g) :
    (runGlyphs p gs).2[i]? = some
      { x := coord p.cx p.xs p.dxs (advX gs) i + g.xo,
        y := coord p.cy p.ys p.dys (advY gs) i - g.yo,
        rotate := rotation p.rots i } := by
  rw [run_get p gs i g hg, getD_eq_coord, getD_eq_coord]

theorem run_length (p : Pen K) (gs : List (Glyph K)) : (runGlyphs p gs).2.length = gs.length := by
  induction gs generalizing p with
  | nil => rfl
  | cons a gs ih => simp [runGlyphs, ih]

/-! ### A text element and its children -/

theorem run_append (p : Pen K) (as bs : List (Glyph K)) :
    (runGlyphs p (as ++ bs)).2 = (runGlyphs p as).2 ++ (runGlyphs (runGlyphs p as).1 bs).2 := by
  induction as generalizing p with
  | nil => rfl
  | cons a as ih => simp [runGlyphs, ih]

theorem run_nil_xs (p : Pen K) (gs : List (Glyph K)) (h : p.xs = []) : (runGlyphs p gs).1.xs = [] := by
  induction gs generalizing p with
  | nil => exact h
  | cons a gs ih => exact ih _ (by simp [stepGlyph, h])

theorem run_nil_ys (p : Pen K) (gs : List (Glyph K)) (h : p.ys = []) : (runGlyphs p gs).1.ys = [] := by
  induction gs generalizing p with
  | nil => exact h
  | cons a gs ih => exact ih _ (by simp [stepGlyph, h])

theorem run_nil_dxs (p : Pen K) (gs : List (Glyph K)) (h : p.dxs = []) :
    (runGlyphs p gs).1.dxs = [] := by
  induction gs generalizing p with
  | nil => exact h
  | cons a gs ih => exact ih _ (by simp [stepGlyph, h])

theorem run_nil_dys (p : Pen K) (gs : List (Glyph K)) (h : p.dys = []) :
    (runGlyphs p gs).1.dys = [] := by
  induction gs generalizing p with
  | nil => exact h
  | cons a gs ih => exact ih _ (by simp [stepGlyph, h])

theorem run_nil_rots (p : Pen K) (gs : List (Glyph K)) (h : p.rots = []) :
    (runGlyphs p gs).1.rots = [] := by
  induction gs generalizing p with
  | nil => exact h
  | cons a gs ih => exact ih _ (by simp [stepGlyph, h, rotateRest])

/-- Only the element `r` has lists. -/
def OnlyRoot (st : Lists K) (r : Nat) : Prop := ∀ e k, e ≠ r → st e k = none

theorem inherited_root (st : Lists K) (r : Nat) (h : OnlyRoot st r) (k : Key) (chain : List Nat)
    (hr : r ∈ chain) : inherited st k chain = (st r k).getD [] := by
  induction chain with
  | nil => simp at hr
  | cons e es ih =>
    unfold inherited
    by_cases he : e = r
    · subst he
      cases hk : st e k with
      | some l => simp
      | none =>
        simp only [Option.getD_none]
        clear ih hr
        induction es with
        | nil => rfl
        | cons e' es ih' =>
          unfold inherited
          have : st e' k = none := by
            by_cases he' : e' = e
            · rw [he']; exact hk
            · exact h e' k he'
          rw [this]
          exact ih'
    · rw [h e k he]
      exact ih (by simpa [Ne.symm he] using hr)

theorem writeBack_root (st : Lists K) (r : Nat) (h : OnlyRoot st r) (k : Key) (l : List K)
    (chain : List Nat) (hr : r ∈ chain) (e : Nat) (k' : Key) :
    writeBack st k l chain e k' =
      if e = r ∧ k' = k then (st r k).map (fun _ => l) else st e k' := by
  induction chain with
  | nil => simp at hr
  | cons a as ih =>
    unfold writeBack
    by_cases ha : a = r
    · subst ha
      cases hk : st a k with
      | some l' => simp
      | none =>
        simp only []
        have hw : ∀ as, writeBack st k l as = st := by
          intro as
          induction as with
          | nil => rfl
          | cons b bs ihb =>
            unfold writeBack
            have : st b k = none := by
              by_cases hb : b = a
              · rw [hb]; exact hk
              · exact h b k hb
            rw [this]
            exact ihb
        rw [hw]
        split
        · rename_i hh
          rw [hh.1, hh.2, hk]; rfl
        · rfl
    · rw [h a k ha]
      exact ih (by simpa [Ne.symm ha] using hr)

theorem onlyRoot_writeBack (st : Lists K) (r : Nat) (h : OnlyRoot st r) (k : Key) (l : List K)
    (chain : List Nat) (hr : r ∈ chain) : OnlyRoot (writeBack st k l chain) r := by
  intro e k' he
  rw [writeBack_root st r h k l chain hr, if_neg (by simp [he])]
  exact h e k' he

/-- The state of the loop when a text begins. -/
def penOf (st : Lists K) (r : Nat) (cx cy : K) : Pen K :=
  ⟨cx, cy, (st r .x).getD [], (st r .y).getD [], (st r .dx).getD [], (st r .dy).getD [],
    (st r .rotate).getD []⟩

theorem getD_map_const (o : Option (List K)) (l : List K) (h : o.getD [] = [] → l = []) :
    (o.map (fun _ => l)).getD [] = l := by
  cases o with
  | none => simp [h]
  | some _ => rfl

theorem chunk_root (st : Lists K) (r : Nat) (h : OnlyRoot st r) (cx cy : K) (c : Chunk K)
    (hr : r ∈ c.chain) :
    let q := layoutChunk st cx cy c
    let run := runGlyphs (penOf st r cx cy) c.glyphs
    q.2.2.2 = run.2 ∧ OnlyRoot q.1 r ∧ penOf q.1 r q.2.1 q.2.2.1 = run.1 := by
  intro q run
  have hpen : (⟨cx, cy, inherited st .x c.chain, inherited st .y c.chain, inherited st .dx c.chain,
      inherited st .dy c.chain, inherited st .rotate c.chain⟩ : Pen K) = penOf st r cx cy := by
    simp only [inherited_root st r h _ _ hr, penOf]
  have hq : q = layoutChunk st cx cy c := rfl
  unfold layoutChunk at hq
  rw [hpen] at hq
  have hrun : run = runGlyphs (penOf st r cx cy) c.glyphs := rfl
  rw [← hrun] at hq
  have o1 := onlyRoot_writeBack st r h .x run.1.xs _ hr
  have o2 := onlyRoot_writeBack _ r o1 .y run.1.ys _ hr
  have o3 := onlyRoot_writeBack _ r o2 .dx run.1.dxs _ hr
  have o4 := onlyRoot_writeBack _ r o3 .dy run.1.dys _ hr
  have o5 := onlyRoot_writeBack _ r o4 .rotate run.1.rots _ hr
  refine ⟨by rw [hq], by rw [hq]; exact o5, ?_⟩
  rw [hq]
  simp only [penOf, writeBack_root _ r o4 _ _ _ hr, writeBack_root _ r o3 _ _ _ hr,
    writeBack_root _ r o2 _ _ _ hr, writeBack_root _ r o1 _ _ _ hr, writeBack_root _ r h _ _ _ hr]
  simp only [reduceCtorEq, and_false, and_true, if_false, if_true]
  rw [getD_map_const _ _ (fun h0 => run_nil_xs _ _ h0), getD_map_const _ _ (fun h0 => run_nil_ys _ _ h0),
    getD_map_const _ _ (fun h0 => run_nil_dxs _ _ h0), getD_map_const _ _ (fun h0 => run_nil_dys _ _ h0),
    getD_map_const _ _ (fun h0 => run_nil_rots _ _ h0)]

theorem layout_root (st : Lists K) (r : Nat) (h : OnlyRoot st r) (cx cy : K) (cs : List (Chunk K))
    (hr : ∀ c ∈ cs, r ∈ c.chain) :
    (layout st cx cy cs).flatten =
      (runGlyphs (penOf st r cx cy) (cs.flatMap Chunk.glyphs)).2 := by
  induction cs generalizing st cx cy with
  | nil => rfl
  | cons c cs ih =>
    obtain ⟨h1, h2, h3⟩ := chunk_root st r h cx cy c (hr c List.mem_cons_self)
    simp only [layout, List.flatten_cons, List.flatMap_cons]
    rw [ih _ h2 _ _ (fun c' hc' => hr c' (List.mem_cons_of_mem _ hc')), h3, h1, run_append]

/-- C107: in a text element, of which only the element itself has lists, the glyphs of the element and
of all children are numbered through, and glyph `i` is drawn at the coordinates and with the rotation
that the lists give it. -/
theorem text_places_partial (st : Lists K) (r : Nat) (h : ∀ e k, e ≠ r → st e k = none) (cx cy : K)
    (cs : List (Chunk K)) (hr : ∀ c ∈ cs, r ∈ c.chain) (i : Nat) (g : Glyph K)
    (hg : (cs.flatMap Chunk.glyphs)[i]? = some g) :
    (layout st cx cy cs).flatten[i]? = some
      { x := coord cx ((st r .x).getD []) ((st r .dx).getD []) (advX (cs.flatMap Chunk.glyphs)) i + g.xo,
        y := coord cy ((st r .y).getD []) ((st r .dy).getD []) (advY (cs.flatMap Chunk.glyphs)) i - g.yo,
        rotate := rotation ((st r .rotate).getD []) i } := by
  rw [layout_root st r h cx cy cs hr]
  exact run_places (penOf st r cx cy) _ i g hg

/-! ### A glyph at its place -/

section Drawing

variable [IsStrictOrderedRing K] [FloorRing K]

theorem trunc64_near (t : K) : |trunc64 t - t| < 1 / 64 := by
  unfold trunc64
  have h64 : (0 : K) < 64 := by norm_num
  split
  · have h1 := Int.floor_le (t * 64)
    have h2 := Int.lt_floor_add_one (t * 64)
    rw [abs_lt]
    constructor
    · rw [neg_lt_sub_iff_lt_add, ← sub_lt_iff_lt_add, lt_div_iff₀ h64]
      linarith
    · have : (⌊t * 64⌋ : K) / 64 ≤ t := by rw [div_le_iff₀ h64]; exact h1
      have h3 : (0 : K) < 1 / 64 := by norm_num
      linarith
  · have h1 := Int.le_ceil (t * 64)
    have h2 := Int.ceil_lt_add_one (t * 64)
    rw [abs_lt]
    constructor
    · have : t ≤ (⌈t * 64⌉ : K) / 64 := by rw [le_div_iff₀ h64]; exact h1
      have h3 : (0 : K) < 1 / 64 := by norm_num
      linarith
    · rw [sub_lt_iff_lt_add, div_lt_iff₀ h64]
      linarith

theorem trunc64_exact (n : Int) : trunc64 ((n : K) / 64) = n / 64 := by
  unfold trunc64
  have : (n : K) / 64 * 64 = n := by field_simp
  rw [this]
  simp

/-- The cosine and the sine that are used for a rotation. -/
def used (turn : K → K × K) (r : K) : K × K := if r ≠ 0 then turn r else (1, 0)

/-- C107: the outline of a glyph is drawn point by point, turned around its origin, and stands at its
place up to less than the diagonal of a square of 1/64. -/
theorem drawn_stands (turn : K → K × K) (ht : ∀ r, (turn r).1 ^ 2 + (turn r).2 ^ 2 = 1)
    (g : Glyph K) (q : Placed K) (i : Nat) (p : K × K) (hp : g.outline[i]? = some p) :
    ∃ d : K × K, (drawn turn g q)[i]? = some d ∧
      (d.1 - (stand (used turn q.rotate).1 (used turn q.rotate).2 q.x q.y p).1) ^ 2 +
      (d.2 - (stand (used turn q.rotate).1 (used turn q.rotate).2 q.x q.y p).2) ^ 2 <
        2 * (1 / 64) ^ 2 := by
  have hu : (used turn q.rotate).1 ^ 2 + (used turn q.rotate).2 ^ 2 = 1 := by
    unfold used
    split
    · exact ht _
    · norm_num
  unfold drawn
  have hd : (if q.rotate ≠ 0 then turn q.rotate else (1, 0)) = used turn q.rotate := rfl
  rw [hd]
  generalize used turn q.rotate = cs at hu ⊢
  obtain ⟨c, s⟩ := cs
  simp only at hu
  have he := trunc64_near (c * q.x + -s * -q.y)
  have hf := trunc64_near (s * q.x + c * -q.y)
  unfold fromGlyph glyphMatrix
  refine ⟨_, by rw [List.getElem?_map, hp]; rfl, ?_⟩
  simp only [stand]
  generalize trunc64 (c * q.x + -s * -q.y) = e at he ⊢
  generalize trunc64 (s * q.x + c * -q.y) = f at hf ⊢
  have he2 : (e - (c * q.x + -s * -q.y)) ^ 2 < (1 / 64) ^ 2 := sq_lt_sq' (by linarith [abs_lt.1 he]) (abs_lt.1 he).2
  have hf2 : (f - (s * q.x + c * -q.y)) ^ 2 < (1 / 64) ^ 2 := sq_lt_sq' (by linarith [abs_lt.1 hf]) (abs_lt.1 hf).2
  have key : (c * (p.1 + e) + s * (p.2 + f) - (q.x + (c * p.1 + s * p.2))) ^ 2 +
      (- -s * (p.1 + e) + -c * (p.2 + f) - (q.y + (s * p.1 - c * p.2))) ^ 2 =
      (e - (c * q.x + -s * -q.y)) ^ 2 + (f - (s * q.x + c * -q.y)) ^ 2 := by
    have h1 : c * (p.1 + e) + s * (p.2 + f) - (q.x + (c * p.1 + s * p.2)) =
        c * (e - (c * q.x + -s * -q.y)) + s * (f - (s * q.x + c * -q.y)) := by
      linear_combination q.x * hu
    have h2 : - -s * (p.1 + e) + -c * (p.2 + f) - (q.y + (s * p.1 - c * p.2)) =
        s * (e - (c * q.x + -s * -q.y)) - c * (f - (s * q.x + c * -q.y)) := by
      linear_combination q.y * hu
    rw [h1, h2]
    linear_combination ((e - (c * q.x + -s * -q.y)) ^ 2 + (f - (s * q.x + c * -q.y)) ^ 2) * hu
  rw [key]
  linarith

/-- C107: without rotation, at a place with whole 1/64, the outline stands exactly at its place. -/
theorem drawn_exact (turn : K → K × K) (g : Glyph K) (m n : Int) :
    drawn turn g ⟨(m : K) / 64, (n : K) / 64, 0⟩ = g.outline.map (stand 1 0 ((m : K) / 64) ((n : K) / 64)) := by
  unfold drawn fromGlyph
  apply List.map_congr_left
  intro p _
  have hm : (1 : K) * ((m : K) / 64) + -0 * -((n : K) / 64) = (m : K) / 64 := by ring
  have hn : (0 : K) * ((m : K) / 64) + 1 * -((n : K) / 64) = ((-n : Int) : K) / 64 := by push_cast; ring
  simp only [ne_eq, not_true_eq_false, if_false, glyphMatrix, hm, hn, trunc64_exact, stand]
  ext
  · simp
    ring
  · simp
    ring

end Drawing

/-! ### Lengths -/

/-- C107: the length of a part of a text is the sum of the advances of its characters. -/
theorem sub_length (l : List K) (i n : Nat) (h : i + n ≤ l.length) :
    subLength l i (some n) = ∑ j ∈ Finset.range n, l.getD (i + j) 0 := by
  unfold subLength
  simp only []
  induction n with
  | zero => simp
  | succ n ih =>
    rw [Finset.sum_range_succ, ← ih (by omega), ← Nat.add_assoc, List.take_succ_eq_append_getElem (by omega),
      List.drop_append_of_le_length (by rw [List.length_take]; omega), List.sum_append,
      List.getD_eq_getElem _ _ (by omega)]
    simp

/-- C107: the whole length is the sum of all advances. -/
theorem whole_length (l : List K) (i : Nat) :
    subLength l i none = subLength l i (some (l.length - i)) := by
  unfold subLength
  simp only []
  rcases Nat.le_total i l.length with h | h
  · congr 3; omega
  · rw [List.drop_eq_nil_of_le (by simp; omega), List.drop_eq_nil_of_le (by simp; omega)]

/-- C107: lengths of neighbouring parts add up. -/
theorem length_add (l : List K) (i m n : Nat) (h : i + m + n ≤ l.length) :
    subLength l i (some (m + n)) = subLength l i (some m) + subLength l (i + m) (some n) := by
  rw [sub_length l i (m + n) (by omega), sub_length l i m (by omega), sub_length l (i + m) n h,
    Finset.sum_range_add]
  congr 1
  apply Finset.sum_congr rfl
  intro j _
  rw [Nat.add_assoc]

/-- C107: the text length of a `text` element is the sum of the advances of all glyphs in it. -/
theorem text_length (self : Nat) (infos : List (Nat × List K)) :
    subStringLength true self infos 0 none = (infos.map (fun i => i.2.sum)).sum := by
  unfold subStringLength subLength
  simp
  induction infos with
  | nil => rfl
  | cons a as ih => 
    rw [List.take_of_length_le (by simp [List.length_flatMap])] at ih ⊢
    simp [ih]

/-- C107: for the other elements it is the length of the first text in it. -/
theorem tspan_length_partial (self : Nat) (infos : List (Nat × List K))
    (l : List K) (h : infos.filter (fun i => i.1 = self) = [(self, l)]) :
    subStringLength false self infos 0 none = l.sum := by
  have hf : infos.find? (fun i => i.1 = self) = some (self, l) := by
    rw [← List.head?_filter, h]
    rfl
  unfold subStringLength
  rw [hf]
  simp [subLength]

/-! ### Examples and where it goes wrong -/

/-- A glyph with advance 10. -/
def ten : Glyph ℚ := ⟨[(0, 0), (1, 2)], 0, 0, 10, 0⟩

/-- Element 0 has two `x` values, two `dx` values and two rotations. -/
def lists : Lists ℚ := fun e k =>
  if e = 0 then (match k with
    | .x => some [100, 200]
    | .dx => some [1, 2]
    | .rotate => some [0, 90]
    | _ => none) else none

example : layout lists 0 5 [⟨[0], [ten]⟩, ⟨[1, 0], [ten]⟩, ⟨[0], [ten, ten]⟩] =
    [[⟨101, 5, 0⟩], [⟨202, 5, 90⟩], [⟨212, 5, 90⟩, ⟨222, 5, 90⟩]] := by decide +kernel

example : (layout lists 0 5 [⟨[0], [ten]⟩, ⟨[1, 0], [ten]⟩, ⟨[0], [ten, ten]⟩]).flatten[2]? =
    some ⟨coord 0 [100, 200] [1, 2] (advX [ten, ten, ten, ten]) 2 + 0,
      coord 5 [] [] (advY [ten, ten, ten, ten]) 2 - 0, rotation [0, 90] 2⟩ :=
  text_places_partial lists 0 (by intro e k he; simp [lists, he]) 0 5 _ (by simp) 2 ten rfl

example : coord (K := ℚ) 0 [100, 200] [1, 2] (advX [ten, ten, ten, ten]) 2 = 212 := by decide +kernel

example : drawn (K := ℚ) (fun _ => (0, 1)) ten ⟨100, 50, 90⟩ = [(100, 50), (102, 51)] := by
  decide +kernel

example : ∃ d : ℚ × ℚ, (drawn (fun _ => (3 / 5, 4 / 5)) ten ⟨100, 50, 53⟩)[1]? = some d ∧
    (d.1 - (100 + (3 / 5 * 1 + 4 / 5 * 2))) ^ 2 + (d.2 - (50 + (4 / 5 * 1 - 3 / 5 * 2))) ^ 2 <
      2 * (1 / 64) ^ 2 := by
  have h := drawn_stands (K := ℚ) (fun _ => (3 / 5, 4 / 5)) (by intro r; norm_num) ten ⟨100, 50, 53⟩ 1 (1, 2) rfl
  simpa [stand, used] using h

example : subLength (K := ℚ) [1, 2, 4, 8] 1 (some 2) = 2 + 4 := by decide +kernel

/-- C107: with `x` on a child, the value that belongs to its character is taken by the next one: in
`<text x="1 2 3">a<tspan x="9">b</tspan>c</text>` the third character stands at 2. -/
theorem skipped_value_violated :
    ∃ (st : Lists ℚ) (cs : List (Chunk ℚ)) (q : Placed ℚ),
      (layout st 0 0 cs).flatten[2]? = some q ∧
      valueAt st .x (fun e => e) 2 [0] = some 3 ∧ q.x = 2 :=
  ⟨fun e k => if k = .x then (if e = 0 then some [1, 2, 3] else some [9]) else none,
    [⟨[0], [ten]⟩, ⟨[1, 0], [ten]⟩, ⟨[0], [ten]⟩], ⟨2, 0, 0⟩, by decide +kernel, by decide +kernel, rfl⟩

/-- C107: if the list of a child is too short, the list of its parent is not used for the rest: in
`<text x="1 2 3"><tspan x="9">ab</tspan></text>` the second character stands at 19 and not at 2. -/
theorem short_list_violated :
    ∃ (st : Lists ℚ) (cs : List (Chunk ℚ)) (q : Placed ℚ),
      (layout st 0 0 cs).flatten[1]? = some q ∧
      valueAt st .x (fun _ => 0) 1 [1, 0] = some 2 ∧ q.x = 19 :=
  ⟨fun e k => if k = .x then (if e = 0 then some [1, 2, 3] else some [9]) else none,
    [⟨[1, 0], [ten, ten]⟩], ⟨19, 0, 0⟩, by decide +kernel, by decide +kernel, rfl⟩

/-- C107: the length of a child with several texts counts the first one only. -/
theorem tspan_length_violated :
    ∃ (infos : List (Nat × List ℚ)), subStringLength false 1 infos 0 none = 10 ∧
      ((infos.filter (fun i => i.1 = 1)).map (fun i => i.2.sum)).sum = 20 :=
  ⟨[(1, [10]), (2, [7]), (1, [10])], by decide +kernel, by decide +kernel⟩

end SvgPy.GlyphRun
