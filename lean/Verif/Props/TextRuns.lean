import Verif.Model.TextRuns
import Mathlib.Tactic.Linarith
import Mathlib.Data.List.TakeWhile

/-! Property C121: a text is divided into runs and lines without loss. -/

set_option linter.unusedSimpArgs false
set_option linter.unusedVariables false

namespace SvgPy.TextRuns

/-! ### Specification -/

namespace Spec

/-- A character of an XML document. -/
def IsChar (c : Nat) : Prop := 0 < c ∧ c < 0x110000 ∧ ¬ (0xD800 ≤ c ∧ c < 0xE000)

/-- The number of UTF-16 units of a character. -/
def size (c : Nat) : Nat := if c < 0x10000 then 1 else 2

/-- The number of units of the first characters of a text. -/
def offset (s : List Nat) (k : Nat) : Nat := ((s.take k).map size).sum

/-- Line breaks as ICU promises them: they stand between characters, in order, and the last one is at the end. -/
def GoodBreaks (brk : List Nat → List Nat) : Prop :=
  ∀ s : List Nat, (∀ c ∈ s, IsChar c) → ∃ ks : List Nat, brk (encode s) = ks.map (offset s) ∧
    (0 :: ks).Pairwise (· < ·) ∧ (0 :: ks).getLast (by simp) = s.length

/-- Levels as ICU gives them: one for each unit. -/
def GoodLevels (bidi : Bool → List Nat → List Nat) : Prop := ∀ ltr us, (bidi ltr us).length = us.length

/-- The lines of a run in the order of the text. -/
def inOrder (ltr : Bool) (r : Run) : List (List Nat) :=
  if (r.level == 1) == ltr then r.lines.reverse else r.lines

/-- The characters with the directions of their runs, in the order of the text. -/
def directed (ltr : Bool) (rs : List Run) : List (Nat × Nat) :=
  rs.flatMap fun r => (inOrder ltr r).flatten.map fun c => (c, r.level)

/-- The characters with the directions that ICU gives to them. -/
def expected (levels : List Nat) (s : List Nat) : List (Nat × Nat) :=
  s.mapIdx fun k c => (c, levels.getD (offset s k) 0 % 2)

end Spec

open Spec

/-! ### UTF-16 -/

theorem units_length (c : Nat) : (units c).length = size c := by
  unfold units size
  split <;> rfl

theorem encode_length (s : List Nat) : (encode s).length = (s.map size).sum := by
  unfold encode
  rw [List.length_flatMap]
  congr 1
  exact List.map_congr_left fun c _ => units_length c

theorem encode_append (a b : List Nat) : encode (a ++ b) = encode a ++ encode b := by simp [encode]

theorem decode_plain (u : Nat) (rest : List Nat) (h : ¬ (0xD800 ≤ u ∧ u < 0xDC00)) : decode (u :: rest) = u :: decode rest := by
  cases rest with
  | nil => rfl
  | cons v rest =>
    rw [decode, if_neg (fun ⟨a, b, _⟩ => h ⟨a, b⟩)]

theorem decode_units (c : Nat) (h : IsChar c) (rest : List Nat) : decode (units c ++ rest) = c :: decode rest := by
  unfold units
  obtain ⟨h0, h1, h2⟩ := h
  split
  · rename_i hc
    rw [List.singleton_append, decode_plain c rest (by omega)]
  · rename_i hc
    have e : decode ([0xD800 + (c - 0x10000) / 0x400, 0xDC00 + (c - 0x10000) % 0x400] ++ rest) =
        (0x10000 + (0xD800 + (c - 0x10000) / 0x400 - 0xD800) * 0x400 + (0xDC00 + (c - 0x10000) % 0x400 - 0xDC00)) :: decode rest := by
      simp only [List.cons_append, List.nil_append]
      rw [decode, if_pos (by omega)]
    have e2 : 0x10000 + (0xD800 + (c - 0x10000) / 0x400 - 0xD800) * 0x400 + (0xDC00 + (c - 0x10000) % 0x400 - 0xDC00) = c := by omega
    rw [e, e2]

theorem decode_encode (s : List Nat) (h : ∀ c ∈ s, IsChar c) : decode (encode s) = s := by
  induction s with
  | nil => rfl
  | cons c s ih =>
    have e : encode (c :: s) = units c ++ encode s := by simp [encode]
    rw [e, decode_units c (h c (by simp)), ih (fun x hx => h x (by simp [hx]))]

theorem encode_ne_zero (s : List Nat) (h : ∀ c ∈ s, IsChar c) : ∀ u ∈ encode s, u ≠ 0 := by
  intro u hu
  unfold encode at hu
  obtain ⟨c, hc, hm⟩ := List.mem_flatMap.1 hu
  have := (h c hc).1
  unfold units at hm
  split at hm
  · simp at hm; omega
  · simp at hm; omega

theorem ffi_encode (s : List Nat) (h : ∀ c ∈ s, IsChar c) : ffiString (encode s) = s := by
  unfold ffiString
  rw [List.takeWhile_eq_self_iff.2, decode_encode s h]
  intro u hu
  simpa using encode_ne_zero s h u hu

/-! ### Lines -/

theorem offset_eq (s : List Nat) (k : Nat) : offset s k = (encode (s.take k)).length := (encode_length _).symm

theorem slice_encode (s : List Nat) (i j : Nat) (hij : i ≤ j) : slice (encode s) (offset s i) (offset s j) = encode (slice s i j) := by
  unfold slice
  have h1 : encode s = encode (s.take j) ++ encode (s.drop j) := by rw [← encode_append, List.take_append_drop]
  have e : (encode s).take (offset s j) = encode (s.take j) := by
    rw [h1, offset_eq, List.take_left]
  rw [e]
  have h2 : encode (s.take j) = encode (s.take i) ++ encode ((s.take j).drop i) := by
    rw [← encode_append]
    congr 1
    have := (List.take_append_drop i (s.take j)).symm
    rwa [List.take_take, Nat.min_eq_left hij] at this
  rw [h2, offset_eq, List.drop_left]

theorem mem_slice {α : Type} (l : List α) (i j : Nat) (x : α) (h : x ∈ slice l i j) : x ∈ l :=
  List.mem_of_mem_take (List.mem_of_mem_drop h)

theorem slice_split {α : Type} (l : List α) (i j k : Nat) (h1 : i ≤ j) (h2 : j ≤ k) : slice l i j ++ slice l j k = slice l i k := by
  unfold slice
  have e := (List.take_append_drop j (l.take k)).symm
  rw [List.take_take, Nat.min_eq_left h2] at e
  conv_rhs => rw [e]
  by_cases hl : i ≤ (l.take j).length
  · rw [List.drop_append_of_le_length hl]
  · have hl' : (l.take j).length ≤ i := by omega
    have hlen : l.length ≤ j := by
      simp only [List.length_take] at hl
      omega
    have : (l.take k).drop j = [] := by
      apply List.drop_eq_nil_of_le
      simp only [List.length_take]
      omega
    rw [this]
    simp

theorem segments_spec (s : List Nat) (hs : ∀ c ∈ s, IsChar c) (i : Nat) (ks : List Nat) (hk : (i :: ks).Pairwise (· < ·)) :
    (segments (encode s) (offset s i) (ks.map (offset s))).flatten = slice s i ((i :: ks).getLast (by simp)) ∧
      (((i :: ks).getLast (by simp) ≤ s.length) → ∀ l ∈ segments (encode s) (offset s i) (ks.map (offset s)), l ≠ []) := by
  induction ks generalizing i with
  | nil => simp [segments, slice]
  | cons k ks ih =>
    have hik : i < k := by
      rw [List.pairwise_cons] at hk
      exact hk.1 k (by simp)
    have hk' : (k :: ks).Pairwise (· < ·) := by
      rw [List.pairwise_cons] at hk
      exact hk.2
    obtain ⟨h1, h2⟩ := ih k hk'
    have hle : k ≤ (k :: ks).getLast (by simp) := by
      have hm := List.getLast_mem (l := k :: ks) (by simp)
      rcases List.mem_cons.1 hm with e | e
      · rw [e]
      · rw [List.pairwise_cons] at hk'
        exact (hk'.1 _ e).le
    have e : ffiString (slice (encode s) (offset s i) (offset s k)) = slice s i k := by
      rw [slice_encode s i k hik.le, ffi_encode _ (fun c hc => hs c (mem_slice _ _ _ _ hc))]
    have eg : (i :: k :: ks).getLast (by simp) = (k :: ks).getLast (by simp) := List.getLast_cons (by simp)
    refine ⟨?_, ?_⟩
    · simp only [List.map_cons, segments, List.flatten_cons]
      rw [e, h1, eg, slice_split _ _ _ _ hik.le hle]
    · intro hl l hm
      rw [eg] at hl
      simp only [List.map_cons, segments, List.mem_cons] at hm
      rcases hm with rfl | hm
      · rw [e]
        intro hn
        have := congrArg List.length hn
        unfold slice at this
        simp only [List.length_drop, List.length_take, List.length_nil] at this
        omega
      · exact h2 hl l hm

theorem opposite_eq (ltr : Bool) (level : Nat) : opposite ltr (level % 2) = ((level % 2 == 1) == ltr) := by
  unfold opposite
  rcases Nat.mod_two_eq_zero_or_one level with h | h <;> cases ltr <;> simp [h]

theorem oneRun_spec (brk : List Nat → List Nat) (hb : GoodBreaks brk) (ltr : Bool) (text : List Nat) (ht : ∀ c ∈ text, IsChar c)
    (start limit level : Nat) :
    (inOrder ltr (oneRun brk ltr text start limit level)).flatten = slice text start limit ∧
      (∀ l ∈ (oneRun brk ltr text start limit level).lines, l ≠ []) ∧ (oneRun brk ltr text start limit level).level = level % 2 := by
  have hs : ∀ c ∈ slice text start limit, IsChar c := fun c hc => ht c (mem_slice _ _ _ _ hc)
  obtain ⟨ks, h1, h2, h3⟩ := hb _ hs
  have h4 := segments_spec (slice text start limit) hs 0 ks h2
  have e0 : offset (slice text start limit) 0 = 0 := by simp [offset]
  rw [e0, ← h1, h3] at h4
  have e1 : slice (slice text start limit) 0 (slice text start limit).length = slice text start limit := by
    generalize slice text start limit = q
    unfold slice
    rw [List.take_length]
    rfl
  rw [e1] at h4
  refine ⟨?_, ?_, rfl⟩
  · unfold inOrder
    have ho : ((oneRun brk ltr text start limit level).level == 1) = (level % 2 == 1) := rfl
    rw [ho, ← opposite_eq]
    simp only [oneRun]
    by_cases h : opposite ltr (level % 2) = true
    · rw [if_pos h, if_pos h, List.reverse_reverse]
      exact h4.1
    · rw [if_neg h, if_neg h]
      exact h4.1
  · intro l hl
    apply h4.2 le_rfl
    simp only [oneRun] at hl
    split at hl
    · simpa using hl
    · exact hl

/-! ### Runs -/

theorem run_forward (levels : List Nat) (start : Nat) (h : start < levels.length) :
    start < (logicalRun levels start).1 ∧ (logicalRun levels start).1 ≤ levels.length := by
  unfold logicalRun
  simp only
  have e : levels.drop start = levels[start] :: levels.drop (start + 1) := List.drop_eq_getElem_cons h
  have hg : levels.getD start 0 = levels[start] := by simp [h]
  constructor
  · rw [e, hg, List.takeWhile_cons]
    simp
  · have := (List.takeWhile_sublist (fun x => x == levels.getD start 0) (l := levels.drop start)).length_le
    simp only [List.length_drop] at this
    omega

theorem run_level (levels : List Nat) (start k : Nat) (h1 : start ≤ k) (h2 : k < (logicalRun levels start).1) :
    levels.getD k 0 = (logicalRun levels start).2 := by
  unfold logicalRun at h2 ⊢
  simp only at h2 ⊢
  set l := levels.getD start 0 with hl
  set tw := (levels.drop start).takeWhile (· == l) with htw
  have hk : k - start < tw.length := by omega
  have hall : ∀ x ∈ tw, x = l := by
    intro x hx
    have := List.mem_takeWhile_imp hx
    simpa using this
  have hp : tw <+: levels.drop start := List.takeWhile_prefix _
  have e : (levels.drop start)[k - start]? = some tw[k - start] := by
    obtain ⟨t, ht⟩ := hp
    rw [← ht, List.getElem?_append_left hk, List.getElem?_eq_getElem hk]
  have e2 := hall tw[k - start] (List.getElem_mem hk)
  rw [e2, List.getElem?_drop, show start + (k - start) = k by omega] at e
  rw [List.getD_eq_getElem?_getD, e]
  rfl

theorem loop_spec (brk : List Nat → List Nat) (hb : GoodBreaks brk) (ltr : Bool) (text : List Nat) (ht : ∀ c ∈ text, IsChar c)
    (levels : List Nat) (hle : text.length ≤ levels.length) (n start : Nat) (hn : levels.length ≤ start + n) :
    ((runLoop brk ltr text levels levels.length n start).flatMap (inOrder ltr)).flatten = text.drop start ∧
      ∀ r ∈ runLoop brk ltr text levels levels.length n start, ∀ l ∈ r.lines, l ≠ [] := by
  induction n generalizing start with
  | zero =>
    have : text.drop start = [] := List.drop_eq_nil_of_le (by omega)
    simp [runLoop, this]
  | succ n ih =>
    unfold runLoop
    split
    · rename_i hs
      obtain ⟨f1, f2⟩ := run_forward levels start hs
      obtain ⟨i1, i2⟩ := ih (logicalRun levels start).1 (by omega)
      obtain ⟨o1, o2, o3⟩ := oneRun_spec brk hb ltr text ht start (logicalRun levels start).1 (logicalRun levels start).2
      refine ⟨?_, ?_⟩
      · simp only [List.flatMap_cons, List.flatten_append]
        rw [o1, i1]
        unfold slice
        rw [List.drop_take]
        conv_rhs => rw [← List.take_append_drop ((logicalRun levels start).1 - start) (text.drop start)]
        rw [List.drop_drop, show start + ((logicalRun levels start).1 - start) = (logicalRun levels start).1 by omega]
      · intro r hr
        rcases List.mem_cons.1 hr with rfl | hr
        · exact o2
        · exact i2 r hr
    · rename_i hs
      have : text.drop start = [] := List.drop_eq_nil_of_le (by omega)
      simp [this]

theorem size_pos (c : Nat) : 1 ≤ size c := by unfold size; split <;> omega

theorem text_le (s : List Nat) : s.length ≤ (encode s).length := by
  rw [encode_length]
  induction s with
  | nil => simp
  | cons c s ih =>
    have := size_pos c
    simp only [List.length_cons, List.map_cons, List.sum_cons]
    omega

/-! ### The theorems -/

/-- **C121** Whatever the levels and the line breaks are, the lines of the runs together are the text: no character is
lost, repeated or changed, and no line is empty. -/
theorem text_kept (bidi : Bool → List Nat → List Nat) (brk : List Nat → List Nat) (hl : GoodLevels bidi) (hb : GoodBreaks brk) (ltr : Bool)
    (text : List Nat) (ht : ∀ c ∈ text, IsChar c) :
    ((textRuns bidi brk ltr text).flatMap (inOrder ltr)).flatten = text ∧ ∀ r ∈ textRuns bidi brk ltr text, ∀ l ∈ r.lines, l ≠ [] := by
  have hlen := hl ltr (encode text)
  have := loop_spec brk hb ltr text ht (bidi ltr (encode text)) (by rw [hlen]; exact text_le text) (encode text).length 0 (by omega)
  rw [hlen] at this
  simpa [textRuns] using this

theorem offset_small (s : List Nat) (h : ∀ c ∈ s, c < 0x10000) (k : Nat) (hk : k ≤ s.length) : offset s k = k := by
  unfold offset
  have : (s.take k).map size = (s.take k).map fun _ => 1 := by
    apply List.map_congr_left
    intro c hc
    simp [size, h c (List.mem_of_mem_take hc)]
  rw [this]
  simp [hk]

/-- The expected directions from a character on. -/
def expectedFrom (levels : List Nat) (s : List Nat) (start : Nat) : List (Nat × Nat) :=
  (s.drop start).mapIdx fun k c => (c, levels.getD (start + k) 0 % 2)

theorem expected_split (levels s : List Nat) (start limit lv : Nat) (h1 : start ≤ limit) 
    (hlv : ∀ k, start ≤ k → k < limit → levels.getD k 0 = lv) :
    expectedFrom levels s start = ((slice s start limit).map fun c => (c, lv % 2)) ++ expectedFrom levels s limit := by
  unfold expectedFrom slice
  have e : s.drop start = (s.take limit).drop start ++ s.drop limit := by
    conv_lhs => rw [← List.take_append_drop (limit - start) (s.drop start)]
    rw [List.drop_drop, show start + (limit - start) = limit by omega, List.drop_take]
  by_cases hlen : limit ≤ s.length
  · have hl : ((s.take limit).drop start).length = limit - start := by simp; omega
    rw [e, List.mapIdx_append, hl]
    congr 1
    · apply List.ext_getElem
      · simp
      · intro k hk1 hk2
        simp only [List.getElem_mapIdx, List.getElem_map]
        rw [List.length_mapIdx, hl] at hk1
        rw [hlv (start + k) (by omega) (by omega)]
    · congr 1
      funext k c
      rw [show start + (k + (limit - start)) = limit + k by omega]
  · have e2 : s.drop limit = [] := List.drop_eq_nil_of_le (by omega)
    have e3 : s.take limit = s := List.take_of_length_le (by omega)
    rw [e2, e3]
    simp only [List.mapIdx_nil, List.append_nil]
    apply List.ext_getElem
    · simp
    · intro k hk1 hk2
      simp only [List.getElem_mapIdx, List.getElem_map]
      simp only [List.length_mapIdx, List.length_drop] at hk1
      rw [hlv (start + k) (by omega) (by omega)]

theorem loop_levels (brk : List Nat → List Nat) (hb : GoodBreaks brk) (ltr : Bool) (text : List Nat) (ht : ∀ c ∈ text, IsChar c)
    (levels : List Nat) (hle : text.length ≤ levels.length) (n start : Nat) (hn : levels.length ≤ start + n) :
    directed ltr (runLoop brk ltr text levels levels.length n start) = expectedFrom levels text start := by
  have nil : levels.length ≤ start → expectedFrom levels text start = [] := by
    intro h
    unfold expectedFrom
    rw [List.drop_eq_nil_of_le (by omega)]
    rfl
  induction n generalizing start with
  | zero =>
    rw [nil (by omega)]
    rfl
  | succ n ih =>
    unfold runLoop
    split
    · rename_i hs
      obtain ⟨f1, f2⟩ := run_forward levels start hs
      obtain ⟨o1, o2, o3⟩ := oneRun_spec brk hb ltr text ht start (logicalRun levels start).1 (logicalRun levels start).2
      have i := ih (logicalRun levels start).1 (by omega) (by
        intro h
        unfold expectedFrom
        rw [List.drop_eq_nil_of_le (by omega)]
        rfl)
      unfold directed at i ⊢
      rw [List.flatMap_cons, i, o1, o3]
      exact (expected_split levels text start _ _ f1.le (fun k h1 h2 => run_level levels start k h1 h2)).symm
    · rename_i hs
      rw [nil (by omega)]
      rfl

/-- **C121** Every character of the basic plane stands in a run of its own direction, if the text has only such
characters. -/
theorem directions_partial (bidi : Bool → List Nat → List Nat) (brk : List Nat → List Nat) (hl : GoodLevels bidi) (hb : GoodBreaks brk)
    (ltr : Bool) (text : List Nat) (ht : ∀ c ∈ text, IsChar c) (hs : ∀ c ∈ text, c < 0x10000) :
    directed ltr (textRuns bidi brk ltr text) = expected (bidi ltr (encode text)) text := by
  have hlen := hl ltr (encode text)
  have := loop_levels brk hb ltr text ht (bidi ltr (encode text)) (by rw [hlen]; exact text_le text) (encode text).length 0 (by omega)
  rw [hlen] at this
  unfold textRuns
  simp only
  rw [this]
  unfold expectedFrom expected
  apply List.ext_getElem
  · simp
  · intro k h1 h2
    simp only [List.length_mapIdx] at h2
    simp only [List.getElem_mapIdx, List.drop_zero, Nat.zero_add]
    rw [offset_small text hs k h2.le]

theorem offset_lt (s : List Nat) (k : Nat) (hk : k < s.length) : offset s k < (encode s).length := by
  rw [encode_length]
  unfold offset
  conv_rhs => rw [← List.take_append_drop k s, List.map_append, List.sum_append]
  have e : s.drop k = s[k] :: s.drop (k + 1) := List.drop_eq_getElem_cons hk
  rw [e, List.map_cons, List.sum_cons]
  have := size_pos s[k]
  omega

/-- **C121** The same for every text whose characters have all one direction. -/
theorem one_direction_partial (bidi : Bool → List Nat → List Nat) (brk : List Nat → List Nat) (hl : GoodLevels bidi) (hb : GoodBreaks brk)
    (ltr : Bool) (text : List Nat) (ht : ∀ c ∈ text, IsChar c) (lv : Nat) (hlv : ∀ l ∈ bidi ltr (encode text), l = lv) :
    directed ltr (textRuns bidi brk ltr text) = expected (bidi ltr (encode text)) text := by
  have hlen := hl ltr (encode text)
  have := loop_levels brk hb ltr text ht (bidi ltr (encode text)) (by rw [hlen]; exact text_le text) (encode text).length 0 (by omega)
  rw [hlen] at this
  unfold textRuns
  simp only
  rw [this]
  have hg : ∀ k, k < (encode text).length → (bidi ltr (encode text)).getD k 0 = lv := by
    intro k hk
    rw [← hlen] at hk
    rw [List.getD_eq_getElem?_getD, List.getElem?_eq_getElem hk]
    exact hlv _ (List.getElem_mem hk)
  unfold expectedFrom expected
  apply List.ext_getElem
  · simp
  · intro k h1 h2
    simp only [List.length_mapIdx] at h2
    simp only [List.getElem_mapIdx, List.drop_zero, Nat.zero_add]
    rw [hg _ (offset_lt text k h2), hg _ (lt_of_lt_of_le h2 (text_le text))]

/-- Breaks at the end only. -/
def endBreak (us : List Nat) : List Nat := if us = [] then [] else [us.length]

/-- Levels by blocks: Hebrew letters are of level 1. -/
def hebrew (_ : Bool) (us : List Nat) : List Nat := us.map fun u => if 0x590 ≤ u ∧ u < 0x600 then 1 else 0

/-- Instances: ICU may be such, and a text of two directions is divided. -/
theorem instances : GoodBreaks endBreak ∧ GoodLevels hebrew := by
  refine ⟨fun s hs => ?_, fun ltr us => by simp [hebrew]⟩
  cases s with
  | nil => exact ⟨[], rfl, by simp, rfl⟩
  | cons c s =>
    refine ⟨[(c :: s).length], ?_, by simp, by simp⟩
    have h : encode (c :: s) ≠ [] := by
      intro h
      have := congrArg List.length h
      rw [encode_length] at this
      have hp := size_pos c
      simp only [List.map_cons, List.sum_cons, List.length_nil] at this
      omega
    unfold endBreak
    rw [if_neg h, encode_length]
    simp [offset]

example : textRuns hebrew endBreak true [0x61, 0x5D0, 0x5D1, 0x62] = [⟨0, [[0x61]]⟩, ⟨1, [[0x5D0, 0x5D1]]⟩, ⟨0, [[0x62]]⟩] := by decide +kernel

/-- **C121** is violated after a character outside of the basic plane: the run ends are counted in UTF-16 units, but
the text is cut by characters, so that the first Hebrew letter is drawn with the text from left to right. -/
theorem astral_violated : textRuns hebrew endBreak true [0x1F600, 0x5D0, 0x5D1] = [⟨0, [[0x1F600, 0x5D0]]⟩, ⟨1, [[0x5D1]]⟩] ∧
    expected (hebrew true (encode [0x1F600, 0x5D0, 0x5D1])) [0x1F600, 0x5D0, 0x5D1] = [(0x1F600, 0), (0x5D0, 1), (0x5D1, 1)] := by
  decide +kernel

end SvgPy.TextRuns
