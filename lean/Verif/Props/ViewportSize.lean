import Verif.Model.ViewportSize
import Verif.Props.Length

/-! Property C89: the size of the viewport of an element. -/

set_option linter.unusedSimpArgs false

namespace SvgPy.ViewportSize

open SvgPy.Length SvgPy.Shapes

/-! ### Specification -/

/-- `vw`, `vh`, `vmin`, `vmax`. -/
def WindowUnit (u : LUnit) : Prop := u = .vw ∨ u = .vh ∨ u = .vmin ∨ u = .vmax

/-- A length that is no percentage, in pixels: font units by the fonts `e`, window units by the
size of the window. -/
def IsLength (W H : ℝ) (e : Env) (v : Val) (x : ℝ) : Prop :=
  ∃ n u, v = .len n u ∧ Known u ∧ ¬ Resolution u ∧ u ≠ .pct ∧ x = n * size { e with vw := W, vh := H } none u

/-- One side of a viewport inside a viewport whose side is `parent`: all of it, a percentage of
it, or a length. -/
def IsSide (W H : ℝ) (e : Env) (v : Val) (parent x : ℝ) : Prop :=
  ((v = .auto ∨ v = .inherit) ∧ x = parent) ∨ (∃ n, v = .len n .pct ∧ x = n / 100 * parent) ∨ IsLength W H e v x

/-- The size of the viewport an element is in (or establishes): the window outside all `svg` and
`symbol` elements, and for each of these its `width` and `height`. -/
inductive ViewportIs (W H : ℝ) : Chain → ℝ → ℝ → Prop
  | window : ViewportIs W H [] W H
  | inside {e c w h} : e.view = false → ViewportIs W H c w h → ViewportIs W H (e :: c) w h
  | root {e c pw ph w h} : e.view = true → ViewportIs W H c pw ph → IsSide W H e.ctx.env e.width pw w →
      IsSide W H e.ctx.env e.height ph h → ViewportIs W H (e :: c) w h

/-- A coordinate in a viewport whose side is `parent`. -/
def IsCoord (W H : ℝ) (e : Env) (v : Val) (parent x : ℝ) : Prop :=
  (∃ n, v = .len n .pct ∧ x = n / 100 * parent) ∨ IsLength W H e v x

/-- Where the viewport is: `x` and `y` refer to the viewport around it. -/
inductive PlaceIs (W H : ℝ) : Chain → ℝ → ℝ → Prop
  | window : PlaceIs W H [] 0 0
  | inside {e c x y} : e.view = false → PlaceIs W H c x y → PlaceIs W H (e :: c) x y
  | root {e c pw ph x y} : e.view = true → ViewportIs W H c pw ph → IsCoord W H e.ctx.env e.x pw x →
      IsCoord W H e.ctx.env e.y ph y → PlaceIs W H (e :: c) x y

/-- No length in a window unit. -/
def NoWindowUnit (v : Val) : Prop := ∀ n u, v = .len n u → ¬ WindowUnit u

/-- A length that keeps its meaning when its context element is copied out of the document:
all but font units, and those if the fonts are the same. -/
def Copies (e : El) (v : Val) : Prop := ∀ n u, v = .len n u → Absolute u ∨ u = .pct ∨ e.ctx.detached = e.ctx.env

/-! ### Lengths -/

/-- A length that is `x` pixels. -/
def Is (l : Len) (x : ℝ) : Prop :=
  Known l.unit ∧ ¬ Resolution l.unit ∧ ¬ WindowUnit l.unit ∧ l.unit ≠ .pct ∧ Good (Length.env l) ∧ l.num * size (Length.env l) none l.unit = x

/-- A length that is `x` pixels, and so are its copies. -/
def Keeps (l : Len) (x : ℝ) : Prop := Is l x ∧ Is (deepcopy l) x

theorem size_window (e : Env) (W H : ℝ) (d d' : Option Dir) (u : LUnit) (h1 : ¬ WindowUnit u) (h2 : u ≠ .pct) :
    size { e with vw := W, vh := H } d u = size e d' u := by
  cases u <;> first | rfl | exact absurd rfl h2 | (exact absurd (by simp [WindowUnit]) h1)

theorem size_dir (e : Env) (d d' : Option Dir) (u : LUnit) (h2 : u ≠ .pct) : size e d u = size e d' u := by
  cases u <;> first | rfl | exact absurd rfl h2

theorem size_absolute (e e' : Env) (d d' : Option Dir) (u : LUnit) (h : Absolute u) : size e d u = size e' d' u := by
  rcases h with rfl | rfl | rfl | rfl | rfl | rfl | rfl | rfl | rfl <;> rfl

theorem is_value {l : Len} {x : ℝ} (h : Is l x) : value l .noUnit = .ok x := by
  obtain ⟨h1, h2, -, h4, h5, h6⟩ := h
  rw [value_pixels l h1 h5 h2, size_dir _ l.dir none _ h4, h6]

theorem deepcopy_twice (l : Len) : deepcopy (deepcopy l) = deepcopy l := by
  obtain ⟨n, u, c, d⟩ := l
  cases c <;> rfl

theorem scale_keeps {l : Len} {x : ℝ} (h : Keeps l x) (k : ℝ) : Keeps (scale l k) (k * x) := by
  have e : deepcopy (scale l k) = scale l k := by
    obtain ⟨n, u, c, d⟩ := l
    cases c <;> rfl
  have : Is (scale l k) (k * x) := by
    obtain ⟨h1, h2, h3, h4, h5, h6⟩ := h.2
    refine ⟨h1, h2, h3, h4, h5, ?_⟩
    rw [← h6]
    simp only [scale, deepcopy, Length.env]
    ring
  exact ⟨this, by rw [e]; exact this⟩

theorem copies_keeps {e : El} {v : Val} {n : ℝ} {u : LUnit} {d : Dir} {x : ℝ} (hv : v = .len n u) (h : Is ⟨n, u, some e.ctx, some d⟩ x)
    (hu : u ≠ .pct) (hc : Copies e v) (hg : Good e.ctx.detached) : Keeps ⟨n, u, some e.ctx, some d⟩ x := by
  refine ⟨h, ?_⟩
  obtain ⟨h1, h2, h3, h4, h5, h6⟩ := h
  refine ⟨h1, h2, h3, h4, hg, ?_⟩
  rw [← h6]
  rcases hc n u hv with h | h | h
  · simp only [deepcopy, Length.env, Option.map]
    rw [size_absolute _ _ _ _ u h]
  · exact absurd h hu
  · simp only [deepcopy, Length.env, Option.map, h]

/-! ### Sides -/

theorem side_is (ask : Chain → Run (ℝ × ℝ)) (W H : ℝ) (e : El) (c : Chain) (d : Dir) (v : Val) (own w h : Len)
    (parent x : ℝ) (hown : own = match d with | .vertical => h | _ => w) (hp : Keeps own parent) (hs : IsSide W H e.ctx.env v parent x)
    (hn : NoWindowUnit v) (hg : Good e.ctx.env) (hg' : Good e.ctx.detached) :
    ∃ l, side ask e c d v own w h = some (.ok l) ∧ Is l x ∧ (Copies e v → Keeps l x) := by
  have full : ∀ n, (parse e d (.len n .pct)).bind (fun l => resolve ask c d l w h) = some (.ok (scale own (n / 100))) := by
    intro n
    simp only [parse, Run.bind, resolve, percent, if_true]
    rw [hown]
    cases d <;> rfl
  have sc : ∀ k, Keeps (scale own k) (k * parent) := fun k => scale_keeps hp k
  rcases hs with ⟨rfl | rfl, rfl⟩ | ⟨n, rfl, rfl⟩ | ⟨n, u, rfl, k1, k2, k3, rfl⟩
  · have := sc (100 / 100)
    rw [div_self (by norm_num), one_mul] at this
    refine ⟨scale own (100 / 100), by simp only [side, orFull, full], ?_⟩
    rw [div_self (by norm_num)]
    exact ⟨this.1, fun _ => this⟩
  · exact ⟨own, rfl, hp.1, fun _ => hp⟩
  · exact ⟨scale own (n / 100), by simp only [side, orFull, full], (sc _).1, fun _ => sc _⟩
  · have kw := hn n u rfl
    have is : Is ⟨n, u, some e.ctx, some d⟩ (n * size { e.ctx.env with vw := W, vh := H } none u) :=
      ⟨k1, k2, kw, k3, hg, congrArg (n * ·) (size_window e.ctx.env W H none none u kw k3).symm⟩
    refine ⟨⟨n, u, some e.ctx, some d⟩, ?_, is, fun hc => copies_keeps rfl is k3 hc hg'⟩
    simp only [side, orFull, parse, Run.bind, resolve]
    cases u <;> first | rfl | exact absurd rfl k3 | (exact absurd (by simp [WindowUnit]) kw)

theorem coord_is (ask : Chain → Run (ℝ × ℝ)) (W H : ℝ) (e : El) (c : Chain) (d : Dir) (v : Val) (w h : Len) (x : ℝ)
    (hs : IsLength W H e.ctx.env v x) (hn : NoWindowUnit v) (hg : Good e.ctx.env) :
    ∃ l, parse e d v = some (.ok l) ∧ resolve ask c d l w h = some (.ok l) ∧ value l .noUnit = .ok x := by
  obtain ⟨n, u, rfl, k1, k2, k3, rfl⟩ := hs
  have kw := hn n u rfl
  refine ⟨⟨n, u, some e.ctx, some d⟩, rfl, ?_, is_value ⟨k1, k2, kw, k3, hg, congrArg (n * ·) (size_window e.ctx.env W H none none u kw k3).symm⟩⟩
  simp only [resolve]
  cases u <;> first | rfl | exact absurd rfl k3 | (exact absurd (by simp [WindowUnit]) kw)

theorem sizes_append (ask : Chain → Run (ℝ × ℝ)) (l l' : List Chain) (w h : Len) :
    sizes ask (l ++ l') w h = (sizes ask l w h).bind fun s => sizes ask l' s.1 s.2 := by
  induction l generalizing w h with
  | nil => rfl
  | cons r l ih =>
    cases r with
    | nil => exact ih w h
    | cons e c =>
      simp only [List.cons_append, sizes]
      cases side ask e (e :: c) .horizontal e.width w w h with
      | none => rfl
      | some p => cases p with
        | error x => rfl
        | ok a =>
          simp only [Run.bind]
          cases side ask e (e :: c) .vertical e.height h a h with
          | none => rfl
          | some p => cases p with
            | error x => rfl
            | ok b => exact ih a b

/-- One more root. -/
theorem step_is (ask : Chain → Run (ℝ × ℝ)) (W H : ℝ) (e : El) (c : Chain) (lw lh : Len) (pw ph w h : ℝ) (k1 : Keeps lw pw) (k2 : Keeps lh ph)
    (h1 : IsSide W H e.ctx.env e.width pw w) (h2 : IsSide W H e.ctx.env e.height ph h)
    (n1 : NoWindowUnit e.width) (n2 : NoWindowUnit e.height) (hg : Good e.ctx.env) (hg' : Good e.ctx.detached) :
    ∃ a b, sizes ask [e :: c] lw lh = some (.ok (a, b)) ∧ Is a w ∧ Is b h ∧
      (Copies e e.width → Copies e e.height → Keeps a w ∧ Keeps b h) := by
  obtain ⟨a, ea, ia, ka⟩ := side_is ask W H e (e :: c) .horizontal e.width lw lw lh pw w rfl k1 h1 n1 hg hg'
  obtain ⟨b, eb, ib, kb⟩ := side_is ask W H e (e :: c) .vertical e.height lh a lh ph h rfl k2 h2 n2 hg hg'
  refine ⟨a, b, ?_, ia, ib, fun c1 c2 => ⟨ka c1, kb c2⟩⟩
  simp only [sizes, ea, Run.bind, eb]

/-- What is asked of the elements: no window units, and fonts that make sense. -/
def Plain (c : Chain) : Prop := ∀ e ∈ c, e.view = true → NoWindowUnit e.width ∧ NoWindowUnit e.height ∧ Good e.ctx.env ∧ Good e.ctx.detached

theorem window_keeps (W : ℝ) (d : Dir) : Keeps ⟨W, .noUnit, none, some d⟩ W := by
  have : Is ⟨W, .noUnit, none, some d⟩ W := ⟨by simp [Known], by simp [Resolution], by simp [WindowUnit], by simp,
    ⟨by norm_num [Length.env, defaultEnv], by norm_num [Length.env, defaultEnv], by norm_num [Length.env, defaultEnv],
      by norm_num [Length.env, defaultEnv], by simp [Length.env, defaultEnv]⟩, by simp [size]⟩
  exact ⟨this, this⟩

theorem outer_sizes (ask : Chain → Run (ℝ × ℝ)) (W H : ℝ) (c : Chain) (w h : ℝ) (hv : ViewportIs W H c w h) (hp : Plain c)
    (hc : ∀ e ∈ c, e.view = true → Copies e e.width ∧ Copies e e.height) :
    ∃ a b, sizes ask (roots c) ⟨W, .noUnit, none, some .horizontal⟩ ⟨H, .noUnit, none, some .vertical⟩ = some (.ok (a, b)) ∧
      Keeps a w ∧ Keeps b h := by
  induction hv with
  | window => exact ⟨_, _, rfl, window_keeps _ _, window_keeps _ _⟩
  | inside hn _ ih =>
    obtain ⟨a, b, e1, e2⟩ := ih (fun e he => hp e (by simp [he])) (fun e he => hc e (by simp [he]))
    exact ⟨a, b, by simpa [roots, hn] using e1, e2⟩
  | root hn hup s1 s2 ih =>
    rename_i e c pw ph w h
    obtain ⟨a, b, e1, e2, e3⟩ := ih (fun e he => hp e (by simp [he])) (fun e he => hc e (by simp [he]))
    obtain ⟨p1, p2, p3, p4⟩ := hp e (by simp) hn
    obtain ⟨a', b', f1, f2, f3, f4⟩ := step_is ask W H e c a b _ _ _ _ e2 e3 s1 s2 p1 p2 p3 p4
    obtain ⟨q1, q2⟩ := hc e (by simp) hn
    refine ⟨a', b', ?_, f4 q1 q2⟩
    rw [roots, if_pos hn, sizes_append, e1]
    exact f1

theorem nearest_root (c : Chain) : (roots c = [] ∧ ∀ e ∈ c, e.view = false) ∨ ∃ below e up, c = below ++ e :: up ∧ e.view = true ∧
    (∀ x ∈ below, x.view = false) ∧ roots c = roots up ++ [e :: up] := by
  induction c with
  | nil => exact .inl ⟨rfl, by simp⟩
  | cons e c ih =>
    by_cases he : e.view = true
    · exact .inr ⟨[], e, c, rfl, he, by simp, by rw [roots, if_pos he]⟩
    · have he' : e.view = false := by simpa using he
      rcases ih with ⟨h1, h2⟩ | ⟨b, e', up, h1, h2, h3, h4⟩
      · refine .inl ⟨by rw [roots, if_neg he, h1], ?_⟩
        simpa [he'] using h2
      · refine .inr ⟨e :: b, e', up, by rw [h1]; rfl, h2, ?_, by rw [roots, if_neg he, h4]⟩
        simpa [he'] using h3

theorem viewport_skip (W H : ℝ) (below c : Chain) (w h : ℝ) (hb : ∀ x ∈ below, x.view = false) :
    ViewportIs W H (below ++ c) w h → ViewportIs W H c w h := by
  induction below with
  | nil => exact id
  | cons e b ih =>
    intro hv
    cases hv with
    | inside _ hv => exact ih (fun x hx => hb x (by simp [hx])) hv
    | root hn => rw [hb e (by simp)] at hn; cases hn

theorem place_skip (W H : ℝ) (below c : Chain) (x y : ℝ) (hb : ∀ x ∈ below, x.view = false) :
    PlaceIs W H (below ++ c) x y → PlaceIs W H c x y := by
  induction below with
  | nil => exact id
  | cons e b ih =>
    intro hv
    cases hv with
    | inside _ hv => exact ih (fun x hx => hb x (by simp [hx])) hv
    | root hn => rw [hb e (by simp)] at hn; cases hn

/-! ### C89 -/

/-- **C89** The size of the viewport is that of the nearest `svg` or `symbol` element, each
percentage referring to the viewport around, if no size has a window unit, and only the innermost
viewport has sizes in font units (or copies keep their fonts).
Missing: the position, when it is a percentage, and window units — see the violations. -/
theorem viewport_partial (W H : ℝ) (c : Chain) (w h x y : ℝ) (hv : ViewportIs W H c w h) (hxy : PlaceIs W H c x y) (hp : Plain c)
    (hc : ∀ below e up, c = below ++ e :: up → e.view = true → (∀ b ∈ below, b.view = false) →
      (∀ a ∈ up, a.view = true → Copies a a.width ∧ Copies a a.height) ∧ NoWindowUnit e.x ∧ NoWindowUnit e.y ∧
      (∀ n, e.x ≠ .len n .pct) ∧ (∀ n, e.y ≠ .len n .pct)) (n : Nat) :
    ∃ lx ly lw lh, getViewportSize true W H (n + 1) c = some (.ok ((lx, ly), (lw, lh))) ∧
      value lx .noUnit = .ok x ∧ value ly .noUnit = .ok y ∧ value lw .noUnit = .ok w ∧ value lh .noUnit = .ok h := by
  rw [getViewportSize]
  generalize (fun c' => match getViewBox c' with
      | some b => some (.ok b)
      | none => (getViewportSize true W H n c').bind fun r => pixels r.2 : Chain → Run (ℝ × ℝ)) = ask
  simp only [body, if_true]
  rcases nearest_root c with ⟨h1, h2⟩ | ⟨below, e, up, rfl, h2, h3, h4⟩
  · have hv' : ViewportIs W H [] w h := viewport_skip W H c [] w h h2 (by simpa using hv)
    have hx' : PlaceIs W H [] x y := place_skip W H c [] x y h2 (by simpa using hxy)
    cases hv'
    cases hx'
    rw [h1]
    refine ⟨_, _, _, _, rfl, ?_, ?_, is_value (window_keeps W .horizontal).1, is_value (window_keeps H .vertical).1⟩ <;>
      simp [value, convertNumber]
  · have hv' := viewport_skip W H below _ w h h3 hv
    have hx' := place_skip W H below _ x y h3 hxy
    obtain ⟨q0, q1, q2, q3, q4⟩ := hc below e up rfl h2 h3
    cases hv' with
    | inside hn => rw [h2] at hn; cases hn
    | root _ hu s1 s2 =>
      cases hx' with
      | inside hn => rw [h2] at hn; cases hn
      | root _ hu' c1 c2 =>
        obtain ⟨a, b, e1, k1, k2⟩ := outer_sizes ask W H up _ _ hu (fun e he => hp e (by simp [he])) q0
        obtain ⟨p1, p2, p3, p4⟩ := hp e (by simp) h2
        obtain ⟨a', b', f1, f2, f3, -⟩ := step_is ask W H e up a b _ _ _ _ k1 k2 s1 s2 p1 p2 p3 p4
        have c1' := c1.resolve_left (fun ⟨n, hn, _⟩ => q3 n hn)
        have c2' := c2.resolve_left (fun ⟨n, hn, _⟩ => q4 n hn)
        obtain ⟨lx, g1, g2, g3⟩ := coord_is ask W H e (e :: up) .horizontal e.x a' b' x c1' q1 p3
        obtain ⟨ly, g4, g5, g6⟩ := coord_is ask W H e (e :: up) .vertical e.y a' b' y c2' q2 p3
        refine ⟨lx, ly, a', b', ?_, g3, g6, is_value f2, is_value f3⟩
        rw [h4, sizes_append, e1]
        simp only [Run.bind, f1, List.getLast?_append, List.getLast?_singleton, Option.some_or, position, g1, g2, g4, g5]

/-- Fonts of 16 pixels. -/
def fonts : Env := ⟨16, 16, 100, 100, none⟩

theorem fonts_good : Good fonts := ⟨by norm_num [fonts], by norm_num [fonts], by norm_num [fonts], by norm_num [fonts], by simp [fonts]⟩

/-- A rectangle in `<svg width="50%" height="3in" x="2em">` in `<svg width="400" height="auto">` meets the hypotheses in a window
of 1000 by 500 pixels: the viewport is 200 by 288 pixels at (32, 0). -/
example : ∃ c : Chain, c.length = 3 ∧ ViewportIs 1000 500 c 200 288 ∧ PlaceIs 1000 500 c 32 0 ∧ Plain c ∧
    ∀ below e up, c = below ++ e :: up → e.view = true → (∀ b ∈ below, b.view = false) →
      (∀ a ∈ up, a.view = true → Copies a a.width ∧ Copies a a.height) ∧ NoWindowUnit e.x ∧ NoWindowUnit e.y ∧
      (∀ n, e.x ≠ .len n .pct) ∧ (∀ n, e.y ≠ .len n .pct) := by
  let r : El := { view := false, ctx := ⟨fonts, fonts⟩ }
  let i : El := { view := true, width := .len 50 .pct, height := .len 3 .inch, x := .len 2 .em, ctx := ⟨fonts, fonts⟩ }
  let o : El := { view := true, width := .len 400 .noUnit, height := .auto, ctx := ⟨fonts, fonts⟩ }
  have ho : ViewportIs 1000 500 [o] 400 500 := .root rfl .window
    (.inr (.inr ⟨400, .noUnit, rfl, by simp [Known], by simp [Resolution], by simp, by simp [size]⟩)) (.inl ⟨.inl rfl, rfl⟩)
  refine ⟨[r, i, o], rfl, .inside rfl (.root rfl ho (.inr (.inl ⟨50, rfl, by norm_num⟩))
    (.inr (.inr ⟨3, .inch, rfl, by simp [Known], by simp [Resolution], by simp, by norm_num [size]⟩))),
    .inside rfl (.root rfl ho (.inr ⟨2, .em, rfl, by simp [Known], by simp [Resolution], by simp, by norm_num [size, i, fonts]⟩)
      (.inr ⟨0, .noUnit, rfl, by simp [Known], by simp [Resolution], by simp, by simp [size]⟩)), ?_, ?_⟩
  · intro e he hv
    simp only [List.mem_cons, List.not_mem_nil, or_false] at he
    rcases he with rfl | rfl | rfl
    · cases hv
    · refine ⟨?_, ?_, fonts_good, fonts_good⟩ <;> (intro n u h; cases h; simp [WindowUnit])
    · refine ⟨?_, ?_, fonts_good, fonts_good⟩ <;> (intro n u h; cases h; try simp [WindowUnit])
  · intro below e up h hv hb
    have copies : ∀ a : El, a.ctx = ⟨fonts, fonts⟩ → ∀ v, Copies a v := by
      intro a ha v n u _
      exact .inr (.inr (by rw [ha]))
    match below, h with
    | [], h => cases h; cases hv
    | [_], h =>
      cases h
      refine ⟨?_, ?_, ?_, ?_, ?_⟩
      · intro a ha _
        simp only [List.mem_cons, List.not_mem_nil, or_false] at ha
        rw [ha]
        exact ⟨copies o rfl _, copies o rfl _⟩
      · intro n u h; cases h; simp [WindowUnit]
      · intro n u h; cases h; simp [WindowUnit]
      · intro n h; cases h
      · intro n h; cases h
    | [_, _], h => cases h; have := hb i (by simp); cases this
    | _ :: _ :: _ :: _, h => simp at h

/-- The pixels of a result. -/
noncomputable def pixelsOf (l : Len) : Py ℝ := value l .noUnit

/-- **C89** is violated by positions: `x="10%"` of a viewport 200 pixels wide in one 400 pixels wide is 20 pixels,
not 40; percentages refer to the viewport's own size. -/
theorem x_violated : ∃ c : Chain, PlaceIs 1000 500 c 40 0 ∧ ∀ n, ∃ lx ly s, getViewportSize true 1000 500 (n + 1) c = some (.ok ((lx, ly), s)) ∧
    pixelsOf lx = .ok 20 := by
  let i : El := { view := true, width := .len 200 .noUnit, height := .len 100 .noUnit, x := .len 10 .pct, ctx := ⟨fonts, fonts⟩ }
  let o : El := { view := true, width := .len 400 .noUnit, height := .len 400 .noUnit, ctx := ⟨fonts, fonts⟩ }
  have len : ∀ n : ℝ, IsLength 1000 500 fonts (.len n .noUnit) n := fun n =>
    ⟨n, .noUnit, rfl, by simp [Known], by simp [Resolution], by simp, by simp [size]⟩
  refine ⟨[i, o], .root rfl (.root rfl .window (.inr (.inr (len 400))) (.inr (.inr (len 400)))) (.inl ⟨10, rfl, by norm_num⟩) (.inr (len 0)), ?_⟩
  intro n
  refine ⟨_, _, _, rfl, ?_⟩
  simp [pixelsOf, value, convertNumber, scale, deepcopy, i]
  norm_num

/-- **C89** is violated by `vmin` and `vmax`: the number is ignored, `width="50vmax"` in a window of 1000 by 500 pixels
is 1000 pixels, not 500. -/
theorem vmax_violated : ∃ c : Chain, ViewportIs 1000 500 c 500 100 ∧ ∀ n, ∃ p lw lh, getViewportSize true 1000 500 (n + 1) c = some (.ok (p, (lw, lh))) ∧
    pixelsOf lw = .ok 1000 := by
  let o : El := { view := true, width := .len 50 .vmax, height := .len 100 .noUnit, ctx := ⟨fonts, fonts⟩ }
  refine ⟨[o], .root rfl .window (.inr (.inr ⟨50, .vmax, rfl, by simp [Known], by simp [Resolution], by simp, by norm_num [size]⟩))
    (.inr (.inr ⟨100, .noUnit, rfl, by simp [Known], by simp [Resolution], by simp, by simp [size]⟩)), ?_⟩
  intro n
  have hm : pyMax ⟨1000, .noUnit, none, some .horizontal⟩ ⟨500, .noUnit, none, some .vertical⟩ = some (.ok ⟨1000, .noUnit, none, some .horizontal⟩) := by
    have : isclose 500 1000 = false := by
      norm_num [isclose]
    norm_num [pyMax, Length.cmp, value, convertNumber, Run.bind, cmpNum, this]
  simp only [getViewportSize, body, if_true, roots, o, sizes, side, orFull, parse, Run.bind, resolve, List.nil_append, hm, List.getLast?_singleton, position]
  refine ⟨_, _, _, rfl, ?_⟩
  simp [pixelsOf, value, convertNumber]

/-- **C89** is violated by `vw` in a height: it refers to the width of the viewport itself. `height="50vw"` of a viewport 400 pixels
wide is 200 pixels, not half the width of the window. -/
theorem vw_violated : ∃ c : Chain, ViewportIs 1000 500 c 400 500 ∧ ∀ n, ∃ p lw lh, getViewportSize true 1000 500 (n + 1) c = some (.ok (p, (lw, lh))) ∧
    pixelsOf lh = .ok 200 := by
  let o : El := { view := true, width := .len 400 .noUnit, height := .len 50 .vw, viewBox := some (100, 100), ctx := ⟨fonts, fonts⟩ }
  refine ⟨[o], .root rfl .window (.inr (.inr ⟨400, .noUnit, rfl, by simp [Known], by simp [Resolution], by simp, by simp [size]⟩))
    (.inr (.inr ⟨50, .vw, rfl, by simp [Known], by simp [Resolution], by simp, by norm_num [size]⟩)), ?_⟩
  intro n
  have hc : convertNumber { fonts with vw := 100, vh := 100 } (some .vertical) 50 .vw .pct = .ok 50 := by
    rw [convertNumber_partial _ _ _ _ _ (by simp [Known]) (by simp [Known]) ⟨by norm_num [fonts], by norm_num [fonts], by norm_num, by norm_num,
      by simp [fonts]⟩ (by simp [Resolution]) (.inl rfl)]
    norm_num [size]
  simp only [getViewportSize, body, if_true, roots, o, sizes, side, orFull, parse, Run.bind, resolve, List.nil_append, List.getLast?_singleton, position,
    percent, getViewBox, reduceCtorEq, if_false, Length.env, hc]
  refine ⟨_, _, _, rfl, ?_⟩
  simp [pixelsOf, value, convertNumber, scale, deepcopy]
  norm_num

/-- **C89** is violated by `vw` and `vh` without a `viewBox`: to find the width of `<svg width="50vw">` the code asks for the
width of this element, and never returns (Python raises `RecursionError`). -/
theorem endless_violated : ∃ c : Chain, ViewportIs 1000 500 c 500 500 ∧ ∀ n, getViewportSize true 1000 500 n c = none := by
  let o : El := { view := true, width := .len 50 .vw, ctx := ⟨fonts, fonts⟩ }
  refine ⟨[o], .root rfl .window (.inr (.inr ⟨50, .vw, rfl, by simp [Known], by simp [Resolution], by simp, by norm_num [size]⟩))
    (.inl ⟨.inl rfl, rfl⟩), ?_⟩
  intro n
  induction n with
  | zero => rfl
  | succ n ih =>
    simp only [getViewportSize, body, if_true, roots, o, sizes, side, orFull, parse, Run.bind, resolve, List.nil_append, percent, getViewBox,
      reduceCtorEq, if_false] at ih ⊢
    rw [ih]

/-- **C89** is violated by font units around another viewport: the width of `<svg>` in `<svg width="10em">` with a font size of 20
pixels is 160 pixels, not 200, since the length is copied together with its element, which then has no parent. -/
theorem em_violated : ∃ c : Chain, ViewportIs 1000 500 c 200 500 ∧ ∀ n, ∃ p lw lh, getViewportSize true 1000 500 (n + 1) c = some (.ok (p, (lw, lh))) ∧
    pixelsOf lw = .ok 160 := by
  let i : El := { view := true, ctx := ⟨fonts, fonts⟩ }
  let o : El := { view := true, width := .len 10 .em, ctx := ⟨{ fonts with em := 20 }, fonts⟩ }
  refine ⟨[i, o], .root rfl (.root rfl .window (.inr (.inr ⟨10, .em, rfl, by simp [Known], by simp [Resolution], by simp, by norm_num [size, o]⟩))
    (.inl ⟨.inl rfl, rfl⟩)) (.inl ⟨.inl rfl, rfl⟩) (.inl ⟨.inl rfl, rfl⟩), ?_⟩
  intro n
  refine ⟨_, _, _, rfl, ?_⟩
  show value (scale ⟨10, .em, some o.ctx, some .horizontal⟩ (100 / 100)) .noUnit = .ok 160
  have := value_pixels (scale ⟨10, .em, some o.ctx, some .horizontal⟩ (100 / 100)) (by simp [Known, scale, deepcopy]) fonts_good
    (by simp [Resolution, scale, deepcopy])
  rw [this]
  norm_num [scale, deepcopy, size, Length.env, fonts, o]

end SvgPy.ViewportSize
