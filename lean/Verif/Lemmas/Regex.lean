import Verif.Model.Regex
import Mathlib.Data.List.Basic

/-! Lemmas about the matcher of regular expressions. -/

namespace SvgPy.Regex

/-- A run of `p` ends here. -/
def Stops (p : Char → Bool) (v : Str) : Prop := ∀ x, v.head? = some x → p x = false

theorem stops_nil (p : Char → Bool) : Stops p [] := by simp [Stops]

theorem stops_cons (p : Char → Bool) (x : Char) (v : Str) (h : p x = false) : Stops p (x :: v) := by
  intro y hy
  simp only [List.head?_cons, Option.some.injEq] at hy
  exact hy ▸ h

theorem starM_zero {p : Char → Bool} {c : Caps} {k : Cont} {v : Str} (h : Stops p v) :
    starM p c k v = k v c := by
  cases v with
  | nil => rfl
  | cons x v =>
    have := h x rfl
    simp [starM, this]

theorem starM_max {p : Char → Bool} {c : Caps} {k : Cont} {u v : Str} {r : Res} (hu : ∀ x ∈ u, p x = true)
    (hv : Stops p v) (h : k v c = some r) : starM p c k (u ++ v) = some r := by
  induction u with
  | nil => rw [List.nil_append, starM_zero hv, h]
  | cons x u ih =>
    have hx := hu x (by simp)
    simp only [List.cons_append, starM, hx, if_true, ih (fun y hy => hu y (by simp [hy])), Option.some_or]

theorem starM_none {p : Char → Bool} {c : Caps} {k : Cont} {u v : Str} (hu : ∀ x ∈ u, p x = true)
    (hv : Stops p v) (h : ∀ a b, u = a ++ b → k (b ++ v) c = none) : starM p c k (u ++ v) = none := by
  induction u with
  | nil =>
    rw [List.nil_append, starM_zero hv]
    exact h [] [] rfl
  | cons x u ih =>
    have hx := hu x (by simp)
    simp only [List.cons_append, starM, hx, if_true]
    rw [ih (fun y hy => hu y (by simp [hy])) (fun a b e => h (x :: a) b (by simp [e]))]
    exact h [] (x :: u) rfl

theorem starM_back {p : Char → Bool} {c : Caps} {k : Cont} {u w v : Str} {r : Res} (hu : ∀ x ∈ u, p x = true)
    (hw : ∀ x ∈ w, p x = true) (hv : Stops p v) (hn : ∀ a b, w = a ++ b → a ≠ [] → k (b ++ v) c = none)
    (h : k (w ++ v) c = some r) : starM p c k (u ++ (w ++ v)) = some r := by
  induction u with
  | nil =>
    rw [List.nil_append]
    cases w with
    | nil => rw [List.nil_append, starM_zero hv]; exact h
    | cons x w =>
      have hx := hw x (by simp)
      simp only [List.cons_append, starM, hx, if_true]
      rw [starM_none (fun y hy => hw y (by simp [hy])) hv (fun a b e => hn (x :: a) b (by simp [e]) (by simp))]
      exact h
  | cons x u ih =>
    have hx := hu x (by simp)
    simp only [List.cons_append, starM, hx, if_true, ih (fun y hy => hu y (by simp [hy])), Option.some_or]

theorem starM_isSome {p : Char → Bool} {c : Caps} {k : Cont} (h : ∀ s, (k s c).isSome = true) (s : Str) :
    (starM p c k s).isSome = true := by
  induction s with
  | nil => exact h []
  | cons x s ih =>
    unfold starM
    split
    · simp [ih]
    · exact h _

theorem take_sub (u v : Str) : (u ++ v).take ((u ++ v).length - v.length) = u := by simp

theorem take_sub_cons (x : Char) (u v : Str) :
    (x :: (u ++ v)).take ((x :: (u ++ v)).length - v.length) = x :: u := by
  have := take_sub (x :: u) v
  simpa using this

/-- The next character that is not white space is not `ch`. -/
def NextNot (ch : Char) (v : Str) : Prop :=
  ∃ s w, v = s ++ w ∧ (∀ x ∈ s, sp x = true) ∧ Stops sp w ∧ w.head? ≠ some ch

theorem nextNot_nil (ch : Char) : NextNot ch [] := ⟨[], [], rfl, by simp, stops_nil _, by simp⟩

theorem nextNot_cons (ch x : Char) (v : Str) (h : sp x = false) (hx : x ≠ ch) : NextNot ch (x :: v) :=
  ⟨[], x :: v, rfl, by simp, stops_cons _ _ _ h, by simpa using hx⟩

theorem nextNot_spaces (ch : Char) (s v : Str) (hs : ∀ x ∈ s, sp x = true) (h : NextNot ch v) :
    NextNot ch (s ++ v) := by
  obtain ⟨a, w, rfl, h1, h2, h3⟩ := h
  refine ⟨s ++ a, w, by simp, ?_, h2, h3⟩
  intro x hx
  rcases List.mem_append.1 hx with h | h
  · exact hs x h
  · exact h1 x h

/-- `\s*c` does not match. -/
theorem spChr_none {ch : Char} {c : Caps} {k : Cont} {v : Str} (hc : sp ch = false) (h : NextNot ch v) :
    starM sp c (fun s' c' => chrM (· == ch) c' k s') v = none := by
  obtain ⟨s, w, rfl, h1, h2, h3⟩ := h
  refine starM_none h1 h2 ?_
  intro a b e
  cases b with
  | nil =>
    cases w with
    | nil => rfl
    | cons x w =>
      have : x ≠ ch := by simpa using h3
      simp [chrM, this]
  | cons x b =>
    have hx : sp x = true := h1 x (by simp [e])
    have : x ≠ ch := by
      rintro rfl
      simp [hc] at hx
    simp [chrM, this]

/-- A literal text. -/
theorem lit_ok (l : Str) (s : Str) (c : Caps) (k : Cont) : (Re.lit l).m (l ++ s) c k = k s c := by
  induction l with
  | nil => rfl
  | cons x l ih =>
    cases l with
    | nil => simp [Re.lit, Re.cat, Re.m, chrM]
    | cons y l => simpa [Re.lit, Re.cat, Re.m, chrM] using ih

theorem lit_some (l : Str) (s : Str) (c : Caps) (k : Cont) (r : Res) (h : (Re.lit l).m s c k = some r) :
    ∃ t, s = l ++ t ∧ k t c = some r := by
  induction l generalizing s with
  | nil => exact ⟨s, rfl, h⟩
  | cons x l ih =>
    cases s with
    | nil => cases l <;> simp [Re.lit, Re.cat, Re.m, chrM] at h
    | cons y s =>
      cases l with
      | nil =>
        simp only [Re.lit, Re.cat, List.map_cons, List.map_nil, Re.m, chrM, beq_iff_eq] at h
        split at h
        · rename_i hxy
          exact ⟨s, by simp [hxy], h⟩
        · cases h
      | cons z l =>
        simp only [Re.lit, Re.cat, List.map_cons, Re.m, chrM, beq_iff_eq] at h
        split at h
        · rename_i hxy
          obtain ⟨t, h1, h2⟩ := ih s h
          exact ⟨t, by simp [hxy, h1], h2⟩
        · cases h

end SvgPy.Regex
