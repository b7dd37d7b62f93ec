import Verif.Model.UsePath
import Mathlib.Tactic.Ring
import Mathlib.Tactic.NormNum

/-!
C105: the path data of a group or a `use` element are the outlines that it shows, and a document
whose references run in a circle does not hang the program.
-/

set_option linter.unusedSimpArgs false

namespace SvgPy.UsePath

namespace Spec

/-- An outline seen through an optional matrix. -/
def place (m : Option Aff) (p : Data) : Data :=
  match m with
  | none => p
  | some m => p.map (fun q => (m.a * q.1 + m.c * q.2 + m.e, m.b * q.1 + m.d * q.2 + m.f))

/-- An outline moved by a vector. -/
def shift (x y : ℚ) (p : Data) : Data := p.map (fun q => (q.1 + x, q.2 + y))

/-- `Shows d ns p`: the elements `ns`, one after the other, show the outlines `p` in the coordinates
of their parent. A `use` element shows the other element, with the transform of that element, moved
by `x` and `y`, under its own transform. -/
inductive Shows (d : Doc) : List Nat → Data → Prop
  | nil : Shows d [] []
  | shape {n ns t q p} : d.hidden n = false → d.el n = .shape t q → Shows d ns p →
      Shows d (n :: ns) (place t q ++ p)
  | group {n ns b t cs q p} : d.hidden n = false → d.el n = .group b t cs → Shows d cs q →
      Shows d ns p → Shows d (n :: ns) (place t q ++ p)
  | link {n ns t cs q p} : d.hidden n = false → d.el n = .link t cs → Shows d cs q →
      Shows d ns p → Shows d (n :: ns) (place t q ++ p)
  | defs {n ns t cs p} : d.el n = .defs t cs → Shows d ns p → Shows d (n :: ns) p
  | symbol {n ns t cs p} : d.el n = .symbol t cs → Shows d ns p → Shows d (n :: ns) p
  | undef {n ns t p} : d.el n = .undef t → Shows d ns p → Shows d (n :: ns) p
  | other {n ns p} : d.el n = .other → Shows d ns p → Shows d (n :: ns) p
  | hidden {n ns p} : d.hidden n = true → Shows d ns p → Shows d (n :: ns) p
  | useNothing {n ns t x y w h p} : d.hidden n = false → d.el n = .use t x y w h none →
      Shows d ns p → Shows d (n :: ns) p
  | use {n ns t x y w h r q p} : d.hidden n = false → d.el n = .use t x y w h (some r) →
      (∀ t cs, d.el r ≠ .symbol t cs) → Shows d [r] q → Shows d ns p →
      Shows d (n :: ns) (place t (shift x y q) ++ p)
  | useSymbol {n ns t x y w h r s cs q p} : d.hidden n = false →
      d.el n = .use t x y w h (some r) → d.hidden r = false → d.el r = .symbol s cs →
      Shows d cs q → Shows d ns p →
      Shows d (n :: ns) (place t (shift x y (place s q)) ++ p)

/-- What an element shows in its own coordinates, that is without its transform. -/
inductive Inside (d : Doc) (n : Nat) : Data → Prop
  | shape {t q} : d.el n = .shape t q → Inside d n q
  | group {b t cs q} : d.el n = .group b t cs → Shows d cs q → Inside d n q
  | link {t cs q} : d.el n = .link t cs → Shows d cs q → Inside d n q
  | defs {t cs} : d.el n = .defs t cs → Inside d n []
  | symbol {t cs} : d.el n = .symbol t cs → Inside d n []
  | useNothing {t x y w h} : d.el n = .use t x y w h none → Inside d n []
  | use {t x y w h r q} : d.el n = .use t x y w h (some r) → (∀ t cs, d.el r ≠ .symbol t cs) →
      Shows d [r] q → Inside d n (shift x y q)
  | useSymbol {t x y w h r s cs q} : d.el n = .use t x y w h (some r) → d.el r = .symbol s cs →
      Shows d cs q → Inside d n (shift x y (place s q))

/-- `m` is a child of `n`, or the element that `n` uses. -/
inductive Needs (d : Doc) (m n : Nat) : Prop
  | child {b t cs} : d.el n = .group b t cs → m ∈ cs → d.el m ≠ .other → Needs d m n
  | used {t x y w h} : d.el n = .use t x y w h (some m) → d.el m ≠ .other → Needs d m n

/-- `m` is needed, directly or through others, for `n`. -/
inductive Under (d : Doc) (m : Nat) : Nat → Prop
  | direct {n} : Needs d m n → Under d m n
  | through {n k} : Needs d k n → Under d m k → Under d m n

/-- An element that is neither transformed nor hidden nor a link, and that has an outline; the
reference of a `use` element is not to an `svg` or `symbol` element. -/
structure Plain (d : Doc) (m : Nat) : Prop where
  shown : d.hidden m = false
  noLink : ∀ t cs, d.el m ≠ .link t cs
  untransformed : ∀ t, (∃ q, d.el m = .shape t q) ∨ (∃ b cs, d.el m = .group b t cs) ∨
    (∃ x y w h r, d.el m = .use t x y w h r) → t = none
  noSymbol : ∀ t x y w h r s cs, d.el m = .use t x y w h (some r) → d.el r ≠ .symbol s cs
  noSvg : ∀ t x y w h r s cs, d.el m = .use t x y w h (some r) → d.el r ≠ .group true s cs

end Spec

open Spec

/-! ### The recursion ends exactly when nothing needs itself -/

theorem graphics_iff (e : El) : graphics e = true ↔ e ≠ .other := by
  cases e <;> simp [graphics]

theorem childData_mono (d : Doc) (f g : Nat → Option (Py Data))
    (h : ∀ n r, f n = some r → g n = some r) :
    ∀ (cs : List Nat) (r : Py Data), childData d f cs = some r → childData d g cs = some r
  | [], r => by simp [childData]
  | c :: cs, r => by
    intro hr
    have ih := childData_mono d f g h cs
    unfold childData at hr ⊢
    split at hr
    · rename_i hg
      rw [if_pos hg]
      cases hc : f c with
      | none => simp [hc] at hr
      | some v =>
        rw [h c v hc]
        cases v with
        | error e => simpa [hc] using hr
        | ok p =>
          simp only [hc] at hr ⊢
          cases hcs : childData d f cs with
          | none => simp [hcs] at hr
          | some w => rw [ih w hcs]; simpa [hcs] using hr
    · rename_i hg
      rw [if_neg hg]
      exact ih r hr

theorem pathData_succ (d : Doc) : ∀ (k n : Nat) (r : Py Data),
    pathData d k n = some r → pathData d (k + 1) n = some r
  | 0, n, r => by simp [pathData]
  | k + 1, n, r => by
    intro hr
    have ih := pathData_succ d k
    unfold pathData at hr ⊢
    split at hr
    case h_2 cs heq =>
      exact childData_mono d _ _ ih _ r hr
    case h_9 t x y w h m heq =>
      split at hr
      · rename_i hg
        rw [if_pos hg]
        cases hc : pathData d k m with
        | none => simp [hc] at hr
        | some v => rw [ih m v hc]; simpa [hc] using hr
      · rename_i hg
        rw [if_neg hg]; exact hr
    all_goals simpa using hr

theorem pathData_le (d : Doc) {k l : Nat} (h : k ≤ l) (n : Nat) (r : Py Data)
    (hr : pathData d k n = some r) : pathData d l n = some r := by
  induction h with
  | refl => exact hr
  | step _ ih => exact pathData_succ d _ _ _ ih

theorem childData_ends (d : Doc) : ∀ (cs : List Nat),
    (∀ c ∈ cs, d.el c ≠ .other → ∃ k r, pathData d k c = some r) →
    ∃ k r, childData d (pathData d k) cs = some r
  | [], _ => ⟨0, .ok [], rfl⟩
  | c :: cs, h => by
    obtain ⟨k, r, hk⟩ := childData_ends d cs (fun c' hc' => h c' (List.mem_cons_of_mem _ hc'))
    by_cases hg : graphics (d.el c)
    · obtain ⟨l, s, hl⟩ := h c List.mem_cons_self ((graphics_iff _).1 hg)
      have h1 := pathData_le d (Nat.le_max_right k l) c s hl
      have h2 := childData_mono d _ _ (fun n r => pathData_le d (Nat.le_max_left k l) n r) cs r hk
      refine ⟨max k l, ?_⟩
      unfold childData
      rw [if_pos hg, h1]
      cases s with
      | error e => exact ⟨_, rfl⟩
      | ok p =>
        rw [h2]
        cases r with
        | error e => exact ⟨_, rfl⟩
        | ok q => exact ⟨_, rfl⟩
    · exact ⟨k, r, by unfold childData; rw [if_neg hg]; exact hk⟩

/-- C105: if no element needs itself, `get_path_data` comes to an end. -/
theorem path_ends (d : Doc) (n : Nat) (h : Acc (Needs d) n) : ∃ k r, pathData d k n = some r := by
  induction h with
  | intro n _ ih =>
    cases he : d.el n with
    | group b t cs =>
      obtain ⟨k, r, hk⟩ := childData_ends d cs (fun c hc ho => ih c (.child he hc ho))
      exact ⟨k + 1, r, by unfold pathData; rw [he]; exact hk⟩
    | use t x y w h ref =>
      cases ref with
      | none => exact ⟨1, .ok [], by unfold pathData; rw [he]⟩
      | some m =>
        by_cases hg : graphics (d.el m)
        · obtain ⟨k, r, hk⟩ := ih m (.used he ((graphics_iff _).1 hg))
          cases r with
          | error e => exact ⟨k + 1, .error e, by unfold pathData; rw [he]; simp [hg, hk]⟩
          | ok p =>
            exact ⟨k + 1, useData d (d.el m) t x y w h p, by
              unfold pathData; rw [he]; simp [hg, hk]⟩
        · exact ⟨1, .ok [], by unfold pathData; rw [he]; simp [hg]⟩
    | shape t p => exact ⟨1, .ok p, by unfold pathData; rw [he]⟩
    | link t cs => exact ⟨1, .ok [], by unfold pathData; rw [he]⟩
    | symbol t cs => exact ⟨1, .ok [], by unfold pathData; rw [he]⟩
    | defs t cs => exact ⟨1, .ok [], by unfold pathData; rw [he]⟩
    | undef t => exact ⟨1, .error .notImplemented, by unfold pathData; rw [he]⟩
    | other => exact ⟨1, .error .attributeError, by unfold pathData; rw [he]⟩

theorem childData_ok_mem (d : Doc) (f : Nat → Option (Py Data)) :
    ∀ (cs : List Nat) (p : Data), childData d f cs = some (.ok p) →
    ∀ c ∈ cs, d.el c ≠ .other → ∃ q, f c = some (.ok q)
  | [], _, _, c, hc, _ => by simp at hc
  | c :: cs, p, h, c', hc', ho => by
    unfold childData at h
    split at h
    · rename_i hg
      cases hf : f c with
      | none => simp [hf] at h
      | some v =>
        cases v with
        | error e => simp [hf] at h
        | ok q =>
          simp only [hf] at h
          cases hr : childData d f cs with
          | none => simp [hr] at h
          | some v =>
            cases v with
            | error e => simp [hr] at h
            | ok q' =>
              rcases List.mem_cons.1 hc' with rfl | hm
              · exact ⟨q, hf⟩
              · exact childData_ok_mem d f cs q' hr c' hm ho
    · rename_i hg
      rcases List.mem_cons.1 hc' with rfl | hm
      · exact absurd ((graphics_iff _).2 ho) hg
      · exact childData_ok_mem d f cs p h c' hm ho

/-- C105: where `get_path_data` returns path data, no element needed itself. -/
theorem path_acyclic (d : Doc) : ∀ (k n : Nat) (p : Data),
    pathData d k n = some (.ok p) → Acc (Needs d) n
  | 0, n, p => by simp [pathData]
  | k + 1, n, p => by
    intro h
    refine ⟨_, fun m hm => ?_⟩
    cases hm with
    | child he hc ho =>
      unfold pathData at h
      rw [he] at h
      obtain ⟨q, hq⟩ := childData_ok_mem d _ _ _ h m hc ho
      exact path_acyclic d k m q hq
    | used he ho =>
      unfold pathData at h
      rw [he] at h
      simp only [(graphics_iff _).2 ho, if_true] at h
      cases hq : pathData d k m with
      | none => simp [hq] at h
      | some v =>
        cases v with
        | error e => simp [hq] at h
        | ok q => exact path_acyclic d k m q hq

/-! ### What is shown -/

theorem shift_zero (p : Data) : shift 0 0 p = p := by
  unfold shift
  simp

theorem transform_translate (x y : ℚ) (p : Data) : transform (Aff.translate x y) p = shift x y p := by
  unfold transform shift Aff.app Aff.translate
  apply List.map_congr_left
  intro q _
  ext <;> simp

theorem moved_eq (m : Option Aff) (p : Data) : moved m p = place m p := by
  cases m <;> rfl

theorem transform_mul (m n : Aff) (p : Data) :
    transform (m.mul n) p = transform m (transform n p) := by
  unfold transform
  rw [List.map_map]
  apply List.map_congr_left
  intro q _
  unfold Aff.app Aff.mul
  ext <;> simp <;> ring

/-- Without a size, `use` moves by `x` and `y` and then applies its own transform. -/
theorem useData_plain (d : Doc) (e : El) (t : Option Aff) (x y w h : ℚ) (p : Data)
    (he : isSvgOrSymbol e = false) :
    useData d e t x y w h p = .ok (place t (shift x y p)) := by
  have hs : sizing d e w h p = .ok [] := by unfold sizing; simp [he]
  unfold useData
  rw [hs]
  simp only [List.append_nil]
  by_cases hxy : x ≠ 0 ∨ y ≠ 0
  · rw [if_pos hxy]
    cases t with
    | none =>
      simp only [Option.toList, List.nil_append, listMatrix, moved, place, transform_translate]
    | some m =>
      simp only [Option.toList, List.cons_append, List.nil_append, listMatrix, Option.map, moved,
        transform_mul, transform_translate]
      rfl
  · rw [if_neg hxy]
    push Not at hxy
    obtain ⟨rfl, rfl⟩ := hxy
    rw [shift_zero]
    cases t with
    | none => rfl
    | some m => rfl

theorem shows_single (d : Doc) (n : Nat) (p : Data) (hp : Plain d n)
    (hi : Inside d n p) : ∀ ns q, Shows d ns q → Shows d (n :: ns) (p ++ q) := by
  intro ns q hq
  cases hi with
  | shape he =>
    obtain rfl := hp.untransformed _ (Or.inl ⟨_, he⟩)
    exact Shows.shape (t := none) hp.shown he hq
  | group he hc =>
    obtain rfl := hp.untransformed _ (Or.inr (Or.inl ⟨_, _, he⟩))
    exact Shows.group (t := none) hp.shown he hc hq
  | link he hc => exact absurd he (hp.noLink _ _)
  | defs he => exact Shows.defs he hq
  | symbol he => exact Shows.symbol he hq
  | useNothing he => exact Shows.useNothing hp.shown he hq
  | use he hs hr =>
    obtain rfl := hp.untransformed _ (Or.inr (Or.inr ⟨_, _, _, _, _, he⟩))
    exact Shows.use (t := none) hp.shown he hs hr hq
  | useSymbol he hs hr => exact absurd hs (hp.noSymbol _ _ _ _ _ _ _ _ he)

theorem unsized (e : El) (hsym : ∀ s cs, e ≠ .symbol s cs) (hsvg : ∀ s cs, e ≠ .group true s cs) :
    isSvgOrSymbol e = false := by
  cases e with
  | group b s cs =>
    cases b with
    | true => exact absurd rfl (hsvg s cs)
    | false => rfl
  | symbol s cs => exact absurd rfl (hsym s cs)
  | _ => rfl

theorem children_shown (d : Doc) (f : Nat → Option (Py Data)) (P : Nat → Prop)
    (hf : ∀ c p, f c = some (.ok p) → P c →
      ∀ ns q, Shows d ns q → Shows d (c :: ns) (p ++ q)) :
    ∀ (cs : List Nat) (p : Data), (∀ c ∈ cs, d.el c ≠ .other → P c) →
      childData d f cs = some (.ok p) → Shows d cs p
  | [], p, _, h => by
    simp [childData] at h
    subst h
    exact Shows.nil
  | c :: cs, p, hP, h => by
    have ih := children_shown d f P hf cs
    unfold childData at h
    split at h
    · rename_i hg
      cases hc : f c with
      | none => simp [hc] at h
      | some v =>
        cases v with
        | error e => simp [hc] at h
        | ok q =>
          simp only [hc] at h
          cases hr : childData d f cs with
          | none => simp [hr] at h
          | some v =>
            cases v with
            | error e => simp [hr] at h
            | ok q' =>
              simp [hr] at h
              subst h
              have ho := (graphics_iff _).1 hg
              exact hf c q hc (hP c List.mem_cons_self ho) cs q'
                (ih q' (fun c' h' => hP c' (List.mem_cons_of_mem _ h')) hr)
    · rename_i hg
      have ho : d.el c = .other := by
        by_contra hc
        exact hg ((graphics_iff _).2 hc)
      exact Shows.other ho (ih p (fun c' h' => hP c' (List.mem_cons_of_mem _ h')) h)

theorem inside_of_path (d : Doc) : ∀ (k n : Nat) (p : Data),
    (∀ m, Under d m n → Plain d m) →
    (∀ t cs, d.el n ≠ .link t cs) →
    (∀ t x y w h r, d.el n = .use t x y w h (some r) →
      t = none ∧ (∀ s cs, d.el r ≠ .symbol s cs) ∧ ∀ s cs, d.el r ≠ .group true s cs) →
    pathData d k n = some (.ok p) → Inside d n p
  | 0, n, p => by simp [pathData]
  | k + 1, n, p => by
    intro hu hl ht h
    have step : ∀ m q, (Needs d m n) → pathData d k m = some (.ok q) → Inside d m q := by
      intro m q hm hq
      have hp := hu m (.direct hm)
      refine inside_of_path d k m q (fun m' h' => hu m' (.through hm h')) hp.noLink ?_ hq
      intro t x y w h r he
      exact ⟨hp.untransformed t (Or.inr (Or.inr ⟨_, _, _, _, _, he⟩)),
        fun s cs => hp.noSymbol _ _ _ _ _ _ s cs he, fun s cs => hp.noSvg _ _ _ _ _ _ s cs he⟩
    unfold pathData at h
    cases he : d.el n with
    | shape t q =>
      simp [he] at h
      subst h
      exact .shape he
    | group b t cs =>
      simp only [he] at h
      refine .group he (children_shown d (pathData d k) (fun c => Needs d c n) ?_ cs p
        (fun c hc ho => .child he hc ho) h)
      intro c q hq hn
      exact shows_single d c q (hu c (.direct hn)) (step c q hn hq)
    | link t cs => exact absurd he (hl _ _)
    | symbol t cs =>
      simp [he] at h
      subst h
      exact .symbol he
    | defs t cs =>
      simp [he] at h
      subst h
      exact .defs he
    | undef t => simp [he] at h
    | other => simp [he] at h
    | use t x y w h' ref =>
      cases ref with
      | none =>
        simp [he] at h
        subst h
        exact .useNothing he
      | some r =>
        obtain ⟨rfl, hsym, hsvg⟩ := ht _ _ _ _ _ _ he
        simp only [he] at h
        by_cases hg : graphics (d.el r)
        · rw [if_pos hg] at h
          cases hr : pathData d k r with
          | none => simp [hr] at h
          | some v =>
            cases v with
            | error e => simp [hr] at h
            | ok q =>
              simp only [hr] at h
              have hs := unsized _ hsym hsvg
              rw [useData_plain d _ _ _ _ _ _ _ hs] at h
              simp [place] at h
              subst h
              have hn : Needs d r n := .used he ((graphics_iff _).1 hg)
              have := shows_single d r q (hu r (.direct hn)) (step r q hn hr) [] [] .nil
              rw [List.append_nil] at this
              exact .use he hsym this
        · rw [if_neg hg] at h
          simp at h
          subst h
          have ho : d.el r = .other := by
            by_contra hc
            exact hg ((graphics_iff _).2 hc)
          exact Inside.use (q := []) he hsym (.other ho .nil)

/-- C105: the path data of an element are what it shows in its own coordinates, if the elements that
are needed for it are plain. A `use` element must be plain itself. -/
theorem path_shows_partial (d : Doc) (k n : Nat) (p : Data)
    (hu : ∀ m, Under d m n → Plain d m)
    (hn : Plain d n ∨ (∃ t q, d.el n = .shape t q) ∨ ∃ b t cs, d.el n = .group b t cs)
    (h : pathData d k n = some (.ok p)) : Inside d n p := by
  refine inside_of_path d k n p hu ?_ ?_ h
  · intro t cs he
    rcases hn with hp | ⟨t', q, hs⟩ | ⟨b, t', cs', hg⟩
    · exact hp.noLink _ _ he
    · rw [hs] at he; cases he
    · rw [hg] at he; cases he
  · intro t x y w h r he
    rcases hn with hp | ⟨t', q, hs⟩ | ⟨b, t', cs', hg⟩
    · exact ⟨hp.untransformed t (Or.inr (Or.inr ⟨_, _, _, _, _, he⟩)),
        fun s cs => hp.noSymbol _ _ _ _ _ _ s cs he, fun s cs => hp.noSvg _ _ _ _ _ _ s cs he⟩
    · rw [hs] at he; cases he
    · rw [hg] at he; cases he

/-- C105: the path data of a `use` element, which contain its transform, are what it shows in the
coordinates of its parent, if the elements that are needed for it are plain. -/
theorem use_shows_partial (d : Doc) (k n r : Nat) (t : Option Aff) (x y w h : ℚ) (p : Data)
    (hu : ∀ m, Under d m n → Plain d m) (hv : d.hidden n = false)
    (he : d.el n = .use t x y w h (some r)) (hsym : ∀ s cs, d.el r ≠ .symbol s cs)
    (hsvg : ∀ s cs, d.el r ≠ .group true s cs)
    (hp : pathData d k n = some (.ok p)) : Shows d [n] p := by
  cases k with
  | zero => simp [pathData] at hp
  | succ k =>
    suffices hh : ∃ q, Shows d [r] q ∧ p = place t (shift x y q) by
      obtain ⟨q, hq, rfl⟩ := hh
      have := Shows.use hv he hsym hq Shows.nil
      rwa [List.append_nil] at this
    unfold pathData at hp
    simp only [he] at hp
    by_cases hg : graphics (d.el r)
    · rw [if_pos hg] at hp
      have hn : Needs d r n := .used he ((graphics_iff _).1 hg)
      have hpl := hu r (.direct hn)
      cases hr : pathData d k r with
      | none => simp [hr] at hp
      | some v =>
        cases v with
        | error e => simp [hr] at hp
        | ok q =>
          simp only [hr] at hp
          rw [useData_plain d _ _ _ _ _ _ _ (unsized _ hsym hsvg)] at hp
          simp at hp
          refine ⟨q, ?_, hp.symm⟩
          have hi := inside_of_path d k r q (fun m h' => hu m (.through hn h')) hpl.noLink
            (fun t x y w h r he => ⟨hpl.untransformed t (Or.inr (Or.inr ⟨_, _, _, _, _, he⟩)),
              fun s cs => hpl.noSymbol _ _ _ _ _ _ s cs he,
              fun s cs => hpl.noSvg _ _ _ _ _ _ s cs he⟩) hr
          have := shows_single d r q hpl hi [] [] .nil
          rwa [List.append_nil] at this
    · rw [if_neg hg] at hp
      simp at hp
      have ho : d.el r = .other := by
        by_contra hc
        exact hg ((graphics_iff _).2 hc)
      refine ⟨[], .other ho .nil, ?_⟩
      rw [hp]
      cases t <;> rfl

theorem childData_ok (d : Doc) : ∀ (cs : List Nat),
    (∀ c ∈ cs, d.el c ≠ .other → ∃ k p, pathData d k c = some (.ok p)) →
    ∃ k p, childData d (pathData d k) cs = some (.ok p)
  | [], _ => ⟨0, [], rfl⟩
  | c :: cs, h => by
    obtain ⟨k, p, hk⟩ := childData_ok d cs (fun c' hc' => h c' (List.mem_cons_of_mem _ hc'))
    by_cases hg : graphics (d.el c)
    · obtain ⟨l, q, hl⟩ := h c List.mem_cons_self ((graphics_iff _).1 hg)
      have h1 := pathData_le d (Nat.le_max_right k l) c _ hl
      have h2 := childData_mono d _ _ (fun n r => pathData_le d (Nat.le_max_left k l) n r) cs _ hk
      exact ⟨max k l, q ++ p, by unfold childData; rw [if_pos hg, h1, h2]⟩
    · exact ⟨k, p, by unfold childData; rw [if_neg hg]; exact hk⟩

/-- C105: there are path data for an element that does not need itself, if no `image`, `switch` or
the like is needed for it and no `use` element refers to an `svg` or `symbol` element. -/
theorem path_exists_partial (d : Doc) (n : Nat) (h : Acc (Needs d) n)
    (ho : d.el n ≠ .other)
    (hok : ∀ m, m = n ∨ Under d m n → (∀ t, d.el m ≠ .undef t) ∧
      ∀ t x y w h r, d.el m = .use t x y w h (some r) →
        (∀ s cs, d.el r ≠ .symbol s cs) ∧ ∀ s cs, d.el r ≠ .group true s cs) :
    ∃ k p, pathData d k n = some (.ok p) := by
  induction h with
  | intro n _ ih =>
    have ih' : ∀ m, Needs d m n → ∃ k p, pathData d k m = some (.ok p) := by
      intro m hm
      refine ih m hm ?_ ?_
      · cases hm with
        | child _ _ ho => exact ho
        | used _ ho => exact ho
      · rintro m' (rfl | hu)
        · exact hok _ (Or.inr (.direct hm))
        · exact hok _ (Or.inr (.through hm hu))
    cases he : d.el n with
    | group b t cs =>
      obtain ⟨k, r, hk⟩ := childData_ok d cs (fun c hc ho => ih' c (.child he hc ho))
      exact ⟨k + 1, r, by unfold pathData; rw [he]; exact hk⟩
    | use t x y w h ref =>
      cases ref with
      | none => exact ⟨1, [], by unfold pathData; rw [he]⟩
      | some m =>
        by_cases hg : graphics (d.el m)
        · obtain ⟨k, p, hk⟩ := ih' m (.used he ((graphics_iff _).1 hg))
          obtain ⟨h1, h2⟩ := (hok n (Or.inl rfl)).2 _ _ _ _ _ _ he
          exact ⟨k + 1, place t (shift x y p), by
            unfold pathData; rw [he]; simp only [hg, hk, if_true]
            rw [useData_plain d _ _ _ _ _ _ _ (unsized _ h1 h2)]⟩
        · exact ⟨1, [], by unfold pathData; rw [he]; simp [hg]⟩
    | shape t p => exact ⟨1, p, by unfold pathData; rw [he]⟩
    | link t cs => exact ⟨1, [], by unfold pathData; rw [he]⟩
    | symbol t cs => exact ⟨1, [], by unfold pathData; rw [he]⟩
    | defs t cs => exact ⟨1, [], by unfold pathData; rw [he]⟩
    | undef t => exact absurd he ((hok n (Or.inl rfl)).1 t)
    | other => exact absurd he ho

theorem shows_nil (d : Doc) (p : Data) (h : Shows d [] p) : p = [] := by
  cases h
  rfl

theorem place_nil (t : Option Aff) : place t [] = [] := by cases t <;> rfl

/-- C105: the transformed path data of an element are what it shows in the coordinates of its
parent, if the elements that are needed for it are plain. The element itself may have a transform
unless it is a `use` element. -/
theorem transformed_shows_partial (d : Doc) (k n : Nat) (p : Data)
    (hu : ∀ m, Under d m n → Plain d m) (hv : d.hidden n = false)
    (hn : Plain d n ∨ (∃ t q, d.el n = .shape t q) ∨ ∃ b t cs, d.el n = .group b t cs)
    (h : transformedData d k n = some (.ok p)) : Shows d [n] p := by
  unfold transformedData at h
  cases hp : pathData d k n with
  | none => simp [hp] at h
  | some v =>
    cases v with
    | error e => simp [hp] at h
    | ok q =>
      simp only [hp] at h
      have hi := path_shows_partial d k n q hu hn hp
      have key : (∀ t x y w h r, d.el n ≠ .use t x y w h (some r)) → p = place (transformOf (d.el n)) q := by
        intro hne
        by_cases hq : q = []
        · simp [hq] at h
          rw [hq, place_nil, h]
        · rw [if_neg hq] at h
          split at h
          · rename_i he
            exact absurd he (hne _ _ _ _ _ _)
          · simp [moved_eq] at h
            exact h.symm
      have fin : ∀ q', Shows d [n] (q' ++ []) → Shows d [n] q' := fun q' hq' => by
        rwa [List.append_nil] at hq'
      cases hi with
      | shape he =>
        rw [key (by intro t x y w h r hx; rw [he] at hx; cases hx), he]
        exact fin _ (.shape hv he .nil)
      | group he hc =>
        rw [key (by intro t x y w h r hx; rw [he] at hx; cases hx), he]
        exact fin _ (.group hv he hc .nil)
      | link he hc =>
        rw [key (by intro t x y w h r hx; rw [he] at hx; cases hx), he]
        exact fin _ (.link hv he hc .nil)
      | defs he =>
        rw [key (by intro t x y w h r hx; rw [he] at hx; cases hx), place_nil]
        exact .defs he .nil
      | symbol he =>
        rw [key (by intro t x y w h r hx; rw [he] at hx; cases hx), place_nil]
        exact .symbol he .nil
      | useNothing he =>
        rw [key (by intro t x y w h r hx; rw [he] at hx; cases hx), place_nil]
        exact .useNothing hv he .nil
      | useSymbol he hs hr =>
        rcases hn with hpl | ⟨t', q, hs'⟩ | ⟨b, t', cs', hg⟩
        · exact absurd hs (hpl.noSymbol _ _ _ _ _ _ _ _ he)
        · rw [he] at hs'; cases hs'
        · rw [he] at hg; cases hg
      | @use t x y w h' r q' he hsym hr =>
        have hpl : Plain d n := by
          rcases hn with hpl | ⟨t', q, hs'⟩ | ⟨b, t', cs', hg⟩
          · exact hpl
          · rw [he] at hs'; cases hs'
          · rw [he] at hg; cases hg
        obtain rfl := hpl.untransformed _ (Or.inr (Or.inr ⟨_, _, _, _, _, he⟩))
        suffices hh : p = shift x y q' by
          rw [hh]
          exact fin _ (Shows.use (t := none) hv he hsym hr .nil)
        by_cases hq : shift x y q' = []
        · simp [hq] at h
          rw [hq, h]
        · rw [if_neg hq] at h
          simp only [he] at h
          have ht : transformOf (d.el r) = none := by
            cases hx : d.el r with
            | other => rfl
            | symbol s cs => exact absurd hx (hsym _ _)
            | defs s cs =>
              refine absurd ?_ hq
              have : q' = [] := by
                cases hr <;> simp_all
                all_goals exact shows_nil d _ (by assumption)
              rw [this]; rfl
            | undef s =>
              refine absurd ?_ hq
              have : q' = [] := by
                cases hr <;> simp_all
                all_goals exact shows_nil d _ (by assumption)
              rw [this]; rfl
            | shape s o =>
              exact (hu r (.direct (.used he (by simp [hx])))).untransformed s (Or.inl ⟨_, hx⟩)
            | group b s cs =>
              exact (hu r (.direct (.used he (by simp [hx])))).untransformed s
                (Or.inr (Or.inl ⟨_, _, hx⟩))
            | link s cs =>
              exact absurd hx ((hu r (.direct (.used he (by simp [hx])))).noLink _ _)
            | use s a b c e o =>
              exact (hu r (.direct (.used he (by simp [hx])))).untransformed s
                (Or.inr (Or.inr ⟨_, _, _, _, _, hx⟩))
          simp [ht, moved] at h
          exact h.symm

/-! ### Where it goes wrong -/

/-- A document with a few elements. -/
def docOf (els : List El) (hid : Nat → Bool := fun _ => false) : Doc :=
  ⟨fun n => els.getD n .other, hid, fun p => if p = [] then (0, 0) else (1, 1)⟩

/-- A group of a shape, a `use` element and something that is no graphics element; the hypotheses of
the theorems are met. -/
def good : Doc :=
  docOf [.group false (some (Aff.scale 2 2)) [1, 2, 3], .shape none [(0, 0), (1, 0)],
    .use none 5 6 0 0 (some 1)]

example : pathData good 3 0 = some (.ok [(0, 0), (1, 0), (5, 6), (6, 6)]) := by decide +kernel
example : transformedData good 3 0 = some (.ok [(0, 0), (2, 0), (10, 12), (12, 12)]) := by
  decide +kernel

theorem good_needs (m n : Nat) (h : Needs good m n) :
    (n = 0 ∧ (m = 1 ∨ m = 2)) ∨ (n = 2 ∧ m = 1) := by
  cases h with
  | child he hm ho =>
    match n, he with
    | 0, he =>
      simp only [good, docOf, List.getD_cons_zero, El.group.injEq] at he
      rw [← he.2.2] at hm
      simp at hm
      rcases hm with rfl | rfl | rfl
      · simp
      · simp
      · exact absurd rfl ho
    | 1, he => simp [good, docOf] at he
    | 2, he => simp [good, docOf] at he
    | n + 3, he => simp [good, docOf] at he
  | used he ho =>
    match n, he with
    | 0, he => simp [good, docOf] at he
    | 1, he => simp [good, docOf] at he
    | 2, he =>
      simp [good, docOf] at he
      simp [he]
    | n + 3, he => simp [good, docOf] at he

theorem good_plain (m : Nat) (h : m = 1 ∨ m = 2) : Plain good m := by
  rcases h with rfl | rfl
  · constructor <;> simp [good, docOf]
  · constructor <;> simp [good, docOf]
    · intro _ _ _ _ _ r _ _ _ _ _ _ _ hr
      subst hr
      simp
    · intro _ _ _ _ _ r _ _ _ _ _ _ _ hr
      subst hr
      simp

theorem good_under (m n : Nat) (h : Under good m n) : m = 1 ∨ m = 2 := by
  induction h with
  | direct h => rcases good_needs _ _ h with ⟨_, h⟩ | ⟨_, h⟩ <;> simp [h]
  | through _ _ ih => exact ih

example : Inside good 0 [(0, 0), (1, 0), (5, 6), (6, 6)] :=
  path_shows_partial good 3 0 _ (fun m h => good_plain m (good_under m 0 h))
    (Or.inr (Or.inr ⟨_, _, _, rfl⟩)) (by decide +kernel)

example : Shows good [0] [(0, 0), (2, 0), (10, 12), (12, 12)] :=
  transformed_shows_partial good 3 0 _ (fun m h => good_plain m (good_under m 0 h)) rfl
    (Or.inr (Or.inr ⟨_, _, _, rfl⟩)) (by decide +kernel)

example : Acc (Needs good) 0 := path_acyclic good 3 0 [(0, 0), (1, 0), (5, 6), (6, 6)] (by decide +kernel)

/-- A `use` element with a transform. -/
def moving : Doc := docOf [.use (some (Aff.scale 2 2)) 5 6 0 0 (some 1), .shape none [(1, 0)]]

theorem moving_needs (m n : Nat) (h : Needs moving m n) : n = 0 ∧ m = 1 := by
  cases h with
  | child he hm ho =>
    match n, he with
    | 0, he => simp [moving, docOf] at he
    | 1, he => simp [moving, docOf] at he
    | n + 2, he => simp [moving, docOf] at he
  | used he ho =>
    match n, he with
    | 0, he =>
      simp [moving, docOf] at he
      simp [he]
    | 1, he => simp [moving, docOf] at he
    | n + 2, he => simp [moving, docOf] at he

theorem moving_under (m n : Nat) (h : Under moving m n) : m = 1 := by
  induction h with
  | direct h => exact (moving_needs _ _ h).2
  | through _ _ ih => exact ih

example : Shows moving [0] [(12, 12)] :=
  use_shows_partial moving 2 0 1 (some (Aff.scale 2 2)) 5 6 0 0 _
    (fun m h => by
      rw [moving_under m 0 h]
      constructor <;> simp [moving, docOf])
    rfl rfl (by simp [moving, docOf]) (by simp [moving, docOf]) (by decide +kernel)

example : ∃ k p, pathData moving k 0 = some (.ok p) :=
  path_exists_partial moving 0 (path_acyclic moving 2 0 [(12, 12)] (by decide +kernel))
    (by simp [moving, docOf]) (by
      rintro m (rfl | h)
      · simp [moving, docOf]
        rintro _ _ _ _ _ _ _ _ _ _ _ rfl
        simp
      · rw [moving_under m 0 h]
        simp [moving, docOf])

/-- C105: the transform of a child is lost: the group draws the shape where it is not. -/
theorem child_transform_violated :
    ∃ d k p, pathData d k 0 = some (.ok p) ∧ Inside d 0 [(10, 0)] ∧ p = [(0, 0)] := by
  refine ⟨docOf [.group false none [1], .shape (some (Aff.translate 10 0)) [(0, 0)]], 2, [(0, 0)],
    by decide +kernel, ?_, rfl⟩
  have h := Shows.shape (d := docOf [.group false none [1],
    .shape (some (Aff.translate 10 0)) [(0, 0)]]) (n := 1) rfl rfl Shows.nil
  exact Inside.group rfl (by simpa [place, Aff.translate] using h)

/-- C105: a child with `display: none` is drawn. -/
theorem hidden_violated :
    ∃ d k p, pathData d k 0 = some (.ok p) ∧ Inside d 0 [] ∧ p = [(0, 0)] :=
  ⟨docOf [.group false none [1], .shape none [(0, 0)]] (fun n => n = 1), 2, [(0, 0)],
    by decide +kernel, .group rfl (.hidden rfl .nil), rfl⟩

/-- C105: the content of a link is not drawn. -/
theorem link_violated :
    ∃ d k p, pathData d k 0 = some (.ok p) ∧ Inside d 0 [(3, 4)] ∧ p = [] :=
  ⟨docOf [.link none [1], .shape none [(3, 4)]], 2, [], by decide +kernel,
    .link rfl (Shows.shape (t := none) (q := [(3, 4)]) (p := []) rfl rfl .nil), rfl⟩

/-- C105: the transformed path data of a `use` element have its transform twice. -/
theorem use_transform_violated :
    ∃ d k p, transformedData d k 0 = some (.ok p) ∧ Shows d [0] [(2, 0)] ∧ p = [(4, 0)] := by
  refine ⟨docOf [.use (some (Aff.scale 2 2)) 0 0 0 0 (some 1), .shape none [(1, 0)]], 2, [(4, 0)],
    by decide +kernel, ?_, rfl⟩
  have h := Shows.use (d := docOf [.use (some (Aff.scale 2 2)) 0 0 0 0 (some 1),
    .shape none [(1, 0)]]) (n := 0) (ns := []) rfl rfl (by simp [docOf])
    (.shape (t := none) rfl rfl .nil) .nil
  simpa [place, Aff.scale, shift] using h

/-- C105: the transform of the used element is applied after `x` and `y` and not before. -/
theorem used_transform_violated :
    ∃ d k p, transformedData d k 0 = some (.ok p) ∧ Shows d [0] [(12, 0)] ∧ p = [(22, 0)] := by
  refine ⟨docOf [.use none 10 0 0 0 (some 1), .shape (some (Aff.scale 2 2)) [(1, 0)]], 2, [(22, 0)],
    by decide +kernel, ?_, rfl⟩
  have h := Shows.use (d := docOf [.use none 10 0 0 0 (some 1),
    .shape (some (Aff.scale 2 2)) [(1, 0)]]) (n := 0) (ns := []) rfl rfl (by simp [docOf])
    (.shape rfl rfl .nil) .nil
  norm_num [place, Aff.scale, shift] at h
  exact h

/-- C105: a `symbol` that is used is not drawn. -/
theorem symbol_violated :
    ∃ d k p, pathData d k 0 = some (.ok p) ∧ Inside d 0 [(1, 0)] ∧ p = [] := by
  refine ⟨docOf [.use none 0 0 0 0 (some 1), .symbol none [2], .shape none [(1, 0)]], 2, [],
    by decide +kernel, ?_, rfl⟩
  have h := Inside.useSymbol (d := docOf [.use none 0 0 0 0 (some 1), .symbol none [2],
    .shape none [(1, 0)]]) (n := 0) rfl rfl (.shape (t := none) rfl rfl .nil)
  simpa [place, shift] using h

/-- C105: with a width it is an error, whatever the symbol contains. -/
theorem symbol_size_violated (d : Doc) (k n r : Nat) (t s : Option Aff) (x y w h : ℚ)
    (cs : List Nat) (he : d.el n = .use t x y w h (some r)) (hr : d.el r = .symbol s cs)
    (hw : 0 < w) (hb : d.box [] = (0, 0)) :
    pathData d (k + 2) n = some (.error .zeroDivision) := by
  simp [pathData, he, hr, graphics, useData, sizing, isSvgOrSymbol, hw, hb]

/-- C105: a group with an `image`, a `switch` or a `marker` has no path data at all if what comes
before has them. -/
theorem undef_violated (d : Doc) (k n c : Nat) (b : Bool) (t s : Option Aff) (cs : List Nat)
    (he : d.el n = .group b t (c :: cs)) (hc : d.el c = .undef s) :
    pathData d (k + 2) n = some (.error .notImplemented) := by
  simp [pathData, he, childData, hc, graphics]

/-- C105: an element that needs itself makes the program recurse without end. -/
theorem cycle_violated : ∃ (d : Doc) (n : Nat), ∀ k, pathData d k n = none := by
  refine ⟨docOf [.use none 0 0 0 0 (some 1), .group false none [0]], ?_⟩
  refine ⟨0, ?_⟩
  have h : ∀ k, pathData (docOf [.use none 0 0 0 0 (some 1), .group false none [0]]) k 0 = none ∧
      pathData (docOf [.use none 0 0 0 0 (some 1), .group false none [0]]) k 1 = none := by
    intro k
    induction k with
    | zero => exact ⟨rfl, rfl⟩
    | succ k ih =>
      constructor
      · simp [pathData, docOf, graphics]
        simp [docOf] at ih
        simp [ih]
      · simp [pathData, docOf, childData, graphics]
        simp [docOf] at ih
        simp [ih]
  exact fun k => (h k).1

end SvgPy.UsePath
