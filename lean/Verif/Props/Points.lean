import Verif.Model.Points
import Verif.Lemmas.NumText
import Verif.Lemmas.PyStr
import Batteries.Tactic.Init

/-! Property C93: the `points` attribute. -/

set_option linter.unusedSimpArgs false

namespace SvgPy.Points

open SvgPy.NumText SvgPy.Formatter

/-! ### Specification -/

/-- The coordinates of points, one after the other. -/
def coordinates : List (ℚ × ℚ) → List ℚ
  | [] => []
  | (x, y) :: l => x :: y :: coordinates l

/-- White space. -/
def White (s : Str) : Prop := ∀ c ∈ s, PyStr.isSpace c = true

/-- `q` is `p` with both coordinates rounded to `k` decimals. -/
def RoundedPoint (k : Nat) (p q : ℚ × ℚ) : Prop := Rounded k p.1 q.1 ∧ Rounded k p.2 q.2

/-! ### Proofs -/

theorem toPairs_coordinates (l : List (ℚ × ℚ)) : toPairs (coordinates l) = l := by
  induction l with
  | nil => rfl
  | cons p l ih => obtain ⟨x, y⟩ := p; simp only [coordinates, toPairs, ih]

theorem coordinates_length (l : List (ℚ × ℚ)) : (coordinates l).length % 2 = 0 := by
  induction l with
  | nil => rfl
  | cons p l ih => obtain ⟨x, y⟩ := p; simp only [coordinates, List.length_cons]; omega

theorem strip_white (a s b : Str) (ha : White a) (hb : White b) (hs : PyStr.Trimmed s) (hne : s ≠ []) : PyStr.strip (a ++ s ++ b) = s := by
  obtain ⟨h1, h2⟩ := hs
  have d : ∀ (w s : Str), White w → (∀ c, s.head? = some c → PyStr.isSpace c = false) → s ≠ [] → (w ++ s).dropWhile PyStr.isSpace = s := by
    intro w s hw hs hne
    induction w with
    | nil =>
      cases s with
      | nil => exact absurd rfl hne
      | cons c s => simp [List.dropWhile, hs c rfl]
    | cons c w ih =>
      simp only [List.cons_append, List.dropWhile, hw c (by simp)]
      exact ih (fun c hc => hw c (by simp [hc]))
  have e1 : PyStr.lstrip (a ++ s ++ b) = s ++ b := by
    rw [PyStr.lstrip, List.append_assoc, d a (s ++ b) ha]
    · intro c hc
      cases s with
      | nil => exact absurd rfl hne
      | cons x s => exact h1 c (by simpa using hc)
    · simp [hne]
  rw [PyStr.strip, e1, PyStr.rstrip, List.reverse_append, d b.reverse s.reverse (fun c hc => hb c (by simpa using hc))]
  · simp
  · intro c hc
    exact h2 c (by rw [List.head?_reverse] at hc; exact hc)
  · simpa using hne

/-- **C93** Numbers that stand for the coordinates of points, in any spelling and with any separators between them, are read as these points. -/
theorem read_points (t : Tok) (l : List (Str × Tok)) (h : SeqOk t l) (a b : Str) (ha : White a) (hb : White b) (pts : List (ℚ × ℚ))
    (hv : t.value :: l.map (·.2.value) = coordinates pts) : getPoints (some (a ++ seqText t l ++ b)) = pts := by
  have hne : seqText t l ≠ [] := by
    obtain ⟨⟨c, r, h1, -⟩, -⟩ := seq_ends t l h
    rw [h1]; simp
  simp only [getPoints]
  rw [strip_white a _ b ha hb (seq_trimmed t l h) hne, nums_seq t l h, hv, if_neg (by simp [coordinates_length]), toPairs_coordinates]

/-- **C93** An odd number of coordinates gives no points. -/
theorem read_odd (t : Tok) (l : List (Str × Tok)) (h : SeqOk t l) (a b : Str) (ha : White a) (hb : White b) (ho : l.length % 2 = 0) :
    getPoints (some (a ++ seqText t l ++ b)) = [] := by
  have hne : seqText t l ≠ [] := by
    obtain ⟨⟨c, r, h1, -⟩, -⟩ := seq_ends t l h
    rw [h1]; simp
  simp only [getPoints]
  rw [strip_white a _ b ha hb (seq_trimmed t l h) hne, nums_seq t l h, if_pos]
  simp only [List.length_cons, List.length_map]
  omega

theorem neutral_sep : (∀ c ∈ [','], Neutral c) ∧ (∀ c ∈ [' '], Neutral c) := by
  constructor <;> · intro c hc; rw [List.mem_singleton] at hc; subst hc; refine ⟨?_, ?_, ?_, ?_, ?_, ?_⟩ <;> decide

/-- The tokens of the text of points. -/
theorem pairs_seq (p : Nat) (hp : p ≠ 0) (x y : ℚ) (pts : List (ℚ × ℚ)) : ∃ (t : Tok) (l : List (Str × Tok)),
    formatPairs p ((x, y) :: pts) = seqText t l ∧ SeqOk t l ∧
    t.value :: l.map (·.2.value) = coordinates (((x, y) :: pts).map fun q => (rounded p q.1, rounded p q.2)) := by
  induction pts generalizing x y with
  | nil =>
    obtain ⟨t, t1, t2, t3, -⟩ := format_tok p hp x
    obtain ⟨u, u1, u2, u3, -⟩ := format_tok p hp y
    refine ⟨t, [([','], u)], ?_, ?_, ?_⟩
    · simp [formatPairs, PyStr.join, seqText, t2, u2]
    · exact ⟨t1, neutral_sep.1, stops_neutral t [','] _ (by simp) neutral_sep.1, u1⟩
    · simp [coordinates, t3, u3]
  | cons q pts ih =>
    obtain ⟨x', y'⟩ := q
    obtain ⟨t', l, h1, h2, h3⟩ := ih x' y'
    obtain ⟨t, t1, t2, t3, -⟩ := format_tok p hp x
    obtain ⟨u, u1, u2, u3, -⟩ := format_tok p hp y
    refine ⟨t, ([','], u) :: ([' '], t') :: l, ?_, ?_, ?_⟩
    · have : formatPairs p ((x, y) :: (x', y') :: pts) = formatNum p x ++ [','] ++ formatNum p y ++ [' '] ++ formatPairs p ((x', y') :: pts) := by
        simp only [formatPairs, List.map_cons, PyStr.join]
      rw [this, h1, seqText, seqText, t2, u2]
      simp
    · exact ⟨t1, neutral_sep.1, stops_neutral t [','] _ (by simp) neutral_sep.1, u1, neutral_sep.2, stops_neutral u [' '] _ (by simp) neutral_sep.2, h2⟩
    · simp only [List.map_cons, coordinates, t3, u3] at h3 ⊢
      rw [h3]

/-- **C93** Points that are assigned are read again, rounded to the decimals that are written. -/
theorem write_read (p : Nat) (hp : p ≠ 0) (pts : List (ℚ × ℚ)) : List.Forall₂ (RoundedPoint p) pts (getPoints (setPoints p pts)) := by
  have e : getPoints (setPoints p pts) = pts.map fun q => (rounded p q.1, rounded p q.2) := by
    cases pts with
    | nil => rfl
    | cons q pts =>
      obtain ⟨x, y⟩ := q
      obtain ⟨t, l, h1, h2, h3⟩ := pairs_seq p hp x y pts
      have := read_points t l h2 [] [] (by simp [White]) (by simp [White]) _ h3
      rw [setPoints, h1]
      simpa using this
  rw [e]
  clear e
  induction pts with
  | nil => exact .nil
  | cons q pts ih => exact .cons ⟨rounded_spec p _, rounded_spec p _⟩ ih

/-- **C93** Points with no more decimals than are written are read again exactly. -/
theorem write_read_exact (p : Nat) (hp : p ≠ 0) (pts : List (ℤ × ℤ)) :
    getPoints (setPoints p (pts.map fun q => ((q.1 : ℚ) / 10 ^ p, (q.2 : ℚ) / 10 ^ p))) = pts.map fun q => ((q.1 : ℚ) / 10 ^ p, (q.2 : ℚ) / 10 ^ p) := by
  have := write_read p hp (pts.map fun q => ((q.1 : ℚ) / 10 ^ p, (q.2 : ℚ) / 10 ^ p))
  revert this
  generalize getPoints _ = l
  intro h
  induction pts generalizing l with
  | nil => cases h; rfl
  | cons q pts ih =>
    cases h with
    | cons h1 h2 =>
      rename_i b l
      rw [ih l h2, List.map_cons, ← Rounded.unique h1.1 (rounded_self p q.1), ← Rounded.unique h1.2 (rounded_self p q.2)]

/-- The text of some points, and another spelling of them. -/
example : setPoints 6 [(100, 1 / 2), (-3, 0)] = some "100,0.5 -3,0".toList := by decide +kernel

example : getPoints (some " 1e2.5-3 0 ".toList) = [(100, 1 / 2), (-3, 0)] := by decide +kernel

/-- The hypotheses of `read_points` are met by this spelling. -/
example : SeqOk ⟨none, "1".toList, none, some ('e', none, "2".toList)⟩ [([], ⟨none, [], some "5".toList, none⟩), ([], ⟨some true, "3".toList, none, none⟩),
    ([' '], ⟨none, "0".toList, none, none⟩)] := by
  simp [SeqOk, Tok.Ok, Tok.Stops, Digits, ExpOk, isDigit, seqText, Tok.text, signText, fracText, expText, Neutral]

end SvgPy.Points
