import Verif.Model.LengthText
import Verif.Lemmas.NumText
import Verif.Lemmas.PyStr
import Batteries.Tactic.Init

/-! Properties C97 and C98: the text of lengths. -/

set_option linter.unusedSimpArgs false

namespace SvgPy.LengthText

open SvgPy.NumText SvgPy.Formatter

/-! ### Specification -/

/-- The units, in small letters: SVG and CSS lengths, and CSS resolutions. -/
def Unit (u : String) : Prop :=
  u = "%" ∨ u ∈ ["em", "ex", "cap", "ch", "ic", "rem"] ∨ u ∈ ["vw", "vh", "vmin", "vmax"] ∨
    u ∈ ["cm", "mm", "q", "in", "pt", "pc", "px"] ∨ u ∈ ["dpi", "dpcm", "dppx"]

/-- `w` is a spelling of the unit `u`: the same letters, capital or small ones. -/
def Spells (w : Str) (u : String) : Prop := w.map Char.toLower = u.toList

/-- White space. -/
def White (s : Str) : Prop := ∀ c ∈ s, PyStr.isSpace c = true

/-! ### Proofs -/

theorem mem_takeWhile (q : Char → Bool) (l : Str) (c : Char) (h : c ∈ l.takeWhile q) : q c = true := by
  induction l with
  | nil => simp at h
  | cons d l ih =>
    rw [List.takeWhile_cons] at h
    split at h
    · rcases List.mem_cons.mp h with rfl | h
      · assumption
      · exact ih h
    · simp at h

theorem takeWhile_all (w r : Str) (h : ∀ c ∈ w, c.isAlpha = true) : (w ++ r).takeWhile Char.isAlpha = w ++ r.takeWhile Char.isAlpha :=
  List.takeWhile_append_of_pos h

theorem alpha_digit (d : Char) (hd : d.isAlpha = true) : isDigit d = false := by
  cases hx : isDigit d with
  | false => rfl
  | true =>
    simp [isDigit] at hx
    simp [Char.isAlpha, Char.isUpper, Char.isLower] at hd
    have e : d.val.toNat = d.toNat := rfl
    rcases hd with hd | hd
    · have := hd.1; simp [UInt32.le_iff_toNat_le] at this; omega
    · have := hd.1; simp [UInt32.le_iff_toNat_le] at this; omega

/-- What ends a number and is not an exponent. -/
theorem expAt_alpha (r : Str) (h : ∀ c ∈ r, c.isAlpha = true ∨ c = '%') : expAt r = (0, r) := by
  cases r with
  | nil => rfl
  | cons c r =>
    rw [expAt]
    have hs : signAt r = (false, r) := by
      cases r with
      | nil => rfl
      | cons d r =>
        have hd := h d (by simp)
        have h1 : d ≠ '-' := by rintro rfl; revert hd; decide
        have h2 : d ≠ '+' := by rintro rfl; revert hd; decide
        simp [signAt, h1, h2]
    have ht : r.takeWhile isDigit = [] := by
      cases r with
      | nil => rfl
      | cons d r =>
        have : isDigit d = false := by
          rcases h d (by simp) with hd | rfl
          · exact alpha_digit d hd
          · decide
        simp [List.takeWhile, this]
    simp only [hs, ht, if_true]
    split <;> rfl

theorem lower_alpha (c : Char) (h : c.toLower.isLower = true) : c.isAlpha = true := by
  by_cases hu : c.isUpper = true
  · simp [Char.isAlpha, hu]
  · have : c.toLower = c := by
      unfold Char.toLower
      split
      · rename_i hx
        simp [Char.isUpper] at hu
        simp [Char.le_def] at hx
        exact absurd (hu hx.1) (by simpa using hx.2)
      · rfl
    rw [this] at h
    simp [Char.isAlpha, h]

theorem unit_mem (u : String) : Unit u ↔ u.toList ∈ supportedUnits := by
  have : supportedUnits = (["%", "em", "ex", "cap", "ch", "ic", "rem", "vw", "vh", "vmin", "vmax", "cm", "mm", "q", "in", "pt", "pc", "px",
    "dpi", "dpcm", "dppx"]).map String.toList := rfl
  rw [this, List.mem_map]
  constructor
  · intro h
    refine ⟨u, ?_, rfl⟩
    simp only [Unit, List.mem_cons, List.not_mem_nil, or_false] at h ⊢
    tauto
  · rintro ⟨v, hv, e⟩
    have : v = u := String.toList_injective e
    subst this
    simp only [Unit, List.mem_cons, List.not_mem_nil, or_false] at hv ⊢
    tauto

theorem lower_pct (c : Char) (h : c.toLower = '%') : c = '%' := by
  unfold Char.toLower at h
  split at h
  · rename_i hx
    exfalso
    have := congrArg (fun c : Char => c.val.toNat) h
    simp only at this
    have h1 := hx.1
    have h2 := hx.2
    simp only [UInt32.le_iff_toNat_le] at h1 h2
    have e : (c.val + ('a'.val - 'A'.val)).toNat = (c.val.toNat + 32) % 2 ^ 32 := by
      rw [UInt32.toNat_add]; rfl
    rw [e] at this
    have h1' : 65 ≤ c.val.toNat := h1
    have h2' : c.val.toNat ≤ 90 := h2
    have h3 : ('%' : Char).val.toNat = 37 := rfl
    rw [h3] at this
    omega
  · exact h

theorem unit_chars (u : String) (hu : Unit u) (w : Str) (hw : Spells w u) : w = ['%'] ∨ (w ≠ [] ∧ ∀ c ∈ w, c.isAlpha = true) := by
  by_cases hp : u = "%"
  · subst hp
    left
    unfold Spells at hw
    have e : ("%" : String).toList = ['%'] := rfl
    rw [e] at hw
    cases w with
    | nil => simp at hw
    | cons c w =>
      cases w with
      | nil => simp only [List.map_cons, List.map_nil, List.cons.injEq, and_true] at hw; rw [lower_pct c hw]
      | cons d w => simp at hw
  · right
    have hl : u.toList ≠ [] ∧ ∀ c ∈ u.toList, c.isLower = true := by
      rcases hu with hu | hu
      · exact absurd hu hp
      · have : u ∈ ["em", "ex", "cap", "ch", "ic", "rem", "vw", "vh", "vmin", "vmax", "cm", "mm", "q", "in", "pt", "pc", "px",
            "dpi", "dpcm", "dppx"] := by
          simp only [List.mem_cons, List.not_mem_nil, or_false] at hu ⊢
          tauto
        have h : ∀ v ∈ ["em", "ex", "cap", "ch", "ic", "rem", "vw", "vh", "vmin", "vmax", "cm", "mm", "q", "in", "pt", "pc", "px",
            "dpi", "dpcm", "dppx"], v.toList ≠ [] ∧ ∀ c ∈ v.toList, c.isLower = true := by decide +kernel
        exact h u this
    unfold Spells at hw
    rw [← hw] at hl
    refine ⟨fun h => hl.1 (by rw [h]; rfl), fun c hc => lower_alpha c (hl.2 _ (List.mem_map_of_mem hc))⟩

theorem unitAt_unit (w : Str) (h : w = ['%'] ∨ (w ≠ [] ∧ ∀ c ∈ w, c.isAlpha = true)) : unitAt w = some w := by
  rcases h with rfl | ⟨hne, h⟩
  · rfl
  · have h1 : w.head? ≠ some '%' := by
      intro hx
      have := h '%' (List.mem_of_mem_head? hx)
      revert this; decide
    have h2 : w.takeWhile Char.isAlpha = w := by
      have := (takeWhile_all w [] h); simpa using this
    rw [unitAt, if_neg h1, h2, if_neg hne]

/-- The number of a text that continues with a unit. -/
theorem numAt_unit (t : Tok) (ht : t.Ok) (w : Str) (h : ∀ c ∈ w, c.isAlpha = true ∨ c = '%') : numAt (t.text ++ w) = some (t.value, w) := by
  have hh : ∀ c, w.head? = some c → isDigit c = false ∧ c ≠ '.' := by
    intro c hc
    have := h c (List.mem_of_mem_head? hc)
    refine ⟨?_, ?_⟩
    · rcases this with hd | rfl
      · exact alpha_digit c hd
      · decide
    · rintro rfl; revert this; decide
  apply numAt_tok_general t ht w (fun c hc => ⟨(hh c hc).1, fun _ _ => (hh c hc).2⟩)
  cases he : t.exp with
  | none => exact expAt_alpha w h
  | some x =>
    rw [← he]
    exact expAt_text t.exp w ht.2.2.2 (fun c hc => ⟨(hh c hc).1, fun hn => by rw [he] at hn; cases hn⟩)

theorem alpha_space (c : Char) (h : c.isAlpha = true ∨ c = '%') : PyStr.isSpace c = false := by
  rcases h with hd | rfl
  · cases hs : PyStr.isSpace c with
    | false => rfl
    | true =>
      exfalso
      simp [PyStr.isSpace] at hs
      simp [Char.isAlpha, Char.isUpper, Char.isLower, UInt32.le_iff_toNat_le] at hd
      have e : c.val.toNat = c.toNat := rfl
      omega
  · decide

theorem trimmed_chars (s : Str) (h : ∀ c ∈ s, PyStr.isSpace c = false) : PyStr.Trimmed s :=
  ⟨fun c hc => h c (List.mem_of_mem_head? hc), fun c hc => h c (List.mem_of_getLast? hc)⟩

theorem strip_length (t : Tok) (ht : t.Ok) (w a b : Str) (ha : White a) (hb : White b) (h : ∀ c ∈ w, c.isAlpha = true ∨ c = '%') :
    PyStr.strip (a ++ (t.text ++ w ++ b)) = t.text ++ w := by
  apply PyStr.strip_around a _ b ha hb
  apply trimmed_chars
  intro c hc
  rcases List.mem_append.mp hc with hc | hc
  · exact numChar_space c (tok_chars t ht c hc)
  · exact alpha_space c (h c hc)

theorem unit_alpha (w : Str) (h : w = ['%'] ∨ (w ≠ [] ∧ ∀ c ∈ w, c.isAlpha = true)) : ∀ c ∈ w, c.isAlpha = true ∨ c = '%' := by
  rcases h with rfl | ⟨-, h⟩
  · intro c hc; right; simpa using hc
  · exact fun c hc => .inl (h c hc)

/-- **C97** A number, in any spelling, and a unit in capital or small letters, with any white space around them,
are read as this number and this unit. -/
theorem read_length (t : Tok) (ht : t.Ok) (u : String) (hu : Unit u) (w : Str) (hw : Spells w u) (a b : Str) (ha : White a) (hb : White b) :
    parse (some (a ++ (t.text ++ w ++ b))) = .ok (t.value, some u.toList) := by
  have hc := unit_chars u hu w hw
  simp only [parse, matchLength, strip_length t ht w a b ha hb (unit_alpha w hc), numAt_unit t ht w (unit_alpha w hc), unitAt_unit w hc]
  unfold Spells at hw
  rw [normalize, hw, if_pos ((unit_mem u).mp hu)]

/-- **C97** A number alone has no unit. -/
theorem read_number (t : Tok) (ht : t.Ok) (a b : Str) (ha : White a) (hb : White b) :
    parse (some (a ++ (t.text ++ b))) = .ok (t.value, none) := by
  have h1 := strip_length t ht [] a b ha hb (by simp)
  have h2 := numAt_unit t ht [] (by simp)
  rw [List.append_nil] at h1 h2
  simp only [parse, matchLength, h1, h2]
  rfl

/-- **C97** The text of a length with a unit is read as the same unit and the number rounded to the decimals written. -/
theorem write_read (p : Nat) (hp : p ≠ 0) (x : ℚ) (u : String) (hu : Unit u) :
    ∃ r, Rounded p x r ∧ parse (some (tostring p x (some u.toList))) = .ok (r, some u.toList) := by
  obtain ⟨t, t1, t2, t3, -⟩ := format_tok p hp x
  refine ⟨rounded p x, rounded_spec p x, ?_⟩
  have hs : Spells u.toList u := by
    have : ∀ v ∈ supportedUnits, v.map Char.toLower = v := by decide +kernel
    exact this _ ((unit_mem u).mp hu)
  have := read_length t t1 u hu u.toList hs [] [] (by simp [White]) (by simp [White])
  rw [List.append_nil, List.nil_append, t2, t3] at this
  exact this

/-- **C97** The same without a unit. -/
theorem write_read_number (p : Nat) (hp : p ≠ 0) (x : ℚ) (u : Option Str) (hu : u = none ∨ u = some []) :
    ∃ r, Rounded p x r ∧ parse (some (tostring p x u)) = .ok (r, none) := by
  obtain ⟨t, t1, t2, t3, -⟩ := format_tok p hp x
  refine ⟨rounded p x, rounded_spec p x, ?_⟩
  have := read_number t t1 [] [] (by simp [White]) (by simp [White])
  rw [List.append_nil, List.nil_append, t2, t3] at this
  rcases hu with rfl | rfl <;> simpa [tostring] using this

/-- **C97** Numbers with no more decimals than are written are read again exactly. -/
theorem write_read_exact (p : Nat) (hp : p ≠ 0) (k : ℤ) (u : String) (hu : Unit u) :
    parse (some (tostring p ((k : ℚ) / 10 ^ p) (some u.toList))) = .ok ((k : ℚ) / 10 ^ p, some u.toList) := by
  obtain ⟨r, h1, h2⟩ := write_read p hp ((k : ℚ) / 10 ^ p) u hu
  rw [h2, h1.unique (rounded_self p k)]

/-- **C97** No text is the length zero. -/
theorem read_none : parse none = .ok (0, none) := rfl

/-! ### What is refused -/

theorem signAt_complete (s : Str) : ∃ sg : Option Bool, s = signText sg ++ (signAt s).2 ∧ (signAt s).1 = decide (sg = some true) := by
  cases s with
  | nil => exact ⟨none, rfl, rfl⟩
  | cons c s =>
    rw [signAt]
    split
    · rename_i h; subst h; exact ⟨some true, rfl, rfl⟩
    · split
      · rename_i h; subst h; exact ⟨some false, rfl, rfl⟩
      · exact ⟨none, rfl, rfl⟩

theorem expAt_complete (s : Str) : ∃ e, ExpOk e ∧ s = expText e ++ (expAt s).2 ∧ (expAt s).1 = expVal e := by
  cases s with
  | nil => exact ⟨none, trivial, rfl, rfl⟩
  | cons c s =>
    by_cases hc : c = 'e' ∨ c = 'E'
    · by_cases hd : (signAt s).2.takeWhile isDigit = []
      · refine ⟨none, trivial, ?_, ?_⟩ <;> simp [expAt, hc, hd, expText, expVal]
      · obtain ⟨sg, h1, h2⟩ := signAt_complete s
        refine ⟨some (c, sg, (signAt s).2.takeWhile isDigit), ⟨hc, hd, fun x hx => mem_takeWhile _ _ _ hx⟩, ?_, ?_⟩
        · simp only [expAt, hc, if_true, hd, if_false, expText, List.cons_append, List.append_assoc, List.takeWhile_append_dropWhile]
          rw [← h1]
        · simp only [expAt, hc, if_true, hd, if_false, expVal, h2]
          rcases sg with _ | _ | _ <;> simp [sgn]
    · refine ⟨none, trivial, ?_, ?_⟩ <;> simp [expAt, hc, expText, expVal]

theorem fracAt_complete (s : Str) : ∃ f : Option Str, Digits (f.getD []) ∧ s = fracText f ++ (fracAt s).2 ∧ (fracAt s).1 = f.getD [] := by
  cases s with
  | nil => exact ⟨none, by simp [Digits], rfl, rfl⟩
  | cons c s =>
    by_cases hc : c = '.'
    · subst hc
      refine ⟨some (s.takeWhile isDigit), fun x hx => mem_takeWhile _ _ _ hx, ?_, ?_⟩
      · simp [fracAt, fracText]
      · simp [fracAt]
    · refine ⟨none, by simp [Digits], ?_, ?_⟩ <;> simp [fracAt, hc, fracText]

/-- A number that is found is there. -/
theorem numAt_complete (s r : Str) (v : ℚ) (h : numAt s = some (v, r)) : ∃ t : Tok, t.Ok ∧ s = t.text ++ r ∧ v = t.value := by
  obtain ⟨sg, s1, s2⟩ := signAt_complete s
  obtain ⟨f, f1, f2, f3⟩ := fracAt_complete ((signAt s).2.dropWhile isDigit)
  obtain ⟨e, e1, e2, e3⟩ := expAt_complete (fracAt ((signAt s).2.dropWhile isDigit)).2
  have hi : (signAt s).2 = (signAt s).2.takeWhile isDigit ++ (signAt s).2.dropWhile isDigit := (List.takeWhile_append_dropWhile).symm
  simp only [numAt, unsignedAt] at h
  split at h
  · cases h
  · rename_i v' r' hx
    split at hx
    · cases hx
    · rename_i hne
      simp only [Option.some.injEq, Prod.mk.injEq] at hx h
      obtain ⟨hx1, hx2⟩ := hx
      obtain ⟨h1, h2⟩ := h
      subst h2 hx2
      refine ⟨⟨sg, (signAt s).2.takeWhile isDigit, f, e⟩, ⟨fun x hx => mem_takeWhile _ _ _ hx, f1, ?_, e1⟩, ?_, ?_⟩
      · rw [f3] at hne
        simp only
        tauto
      · simp only [Tok.text, List.append_assoc]
        rw [← e2, ← f2, ← hi]
        exact s1
      · rw [← h1, ← hx1]
        simp only [Tok.value, valueOf, ← f3, ← e3, s2]
        rcases sg with _ | _ | _ <;> simp [sgn]

/-- **C98** What is accepted starts with a number, which is the one that is read; what is read as unit is a unit that
follows.  That nothing else follows (`rest` is empty) is missing: the code does not look at it. -/
theorem accepted_partial (s : Str) (v : ℚ) (u : Option Str) (h : parse (some s) = .ok (v, u)) :
    ∃ (a b w rest : Str) (t : Tok), White a ∧ White b ∧ s = a ++ t.text ++ w ++ rest ++ b ∧ t.Ok ∧ v = t.value ∧
      ((w = [] ∧ u = none) ∨ ∃ n, Unit n ∧ Spells w n ∧ u = some n.toList) := by
  obtain ⟨a, b, h1, ha, hb, -⟩ := PyStr.strip_split s
  simp only [parse, matchLength] at h
  cases hn : numAt (PyStr.strip s) with
  | none => rw [hn] at h; cases h
  | some x =>
    obtain ⟨x, r⟩ := x
    obtain ⟨t, t1, t2, t3⟩ := numAt_complete _ _ _ hn
    rw [hn] at h
    simp only at h
    cases hu : unitAt r with
    | none =>
      rw [hu] at h
      simp only [normalize, Except.ok.injEq, Prod.mk.injEq] at h
      refine ⟨a, b, [], r, t, ha, hb, ?_, t1, h.1 ▸ t3, .inl ⟨rfl, h.2.symm⟩⟩
      rw [List.append_nil, List.append_assoc a, ← t2]; exact h1
    | some w =>
      rw [hu] at h
      simp only [normalize] at h
      split at h
      · rename_i hm
        simp only [Except.ok.injEq, Prod.mk.injEq] at h
        have hr : ∃ rest, r = w ++ rest := by
          unfold unitAt at hu
          split at hu
          · rename_i hh
            cases r with
            | nil => cases hh
            | cons c r =>
              simp only [List.head?_cons, Option.some.injEq] at hh hu
              subst hh hu
              exact ⟨r, rfl⟩
          · split at hu
            · cases hu
            · simp only [Option.some.injEq] at hu
              exact ⟨r.dropWhile Char.isAlpha, by rw [← hu, List.takeWhile_append_dropWhile]⟩
        obtain ⟨rest, hr⟩ := hr
        refine ⟨a, b, w, rest, t, ha, hb, ?_, t1, h.1 ▸ t3, .inr ⟨String.ofList (w.map Char.toLower), ?_, ?_, ?_⟩⟩
        · rw [List.append_assoc (a ++ t.text), ← hr, List.append_assoc a, ← t2]; exact h1
        · rw [unit_mem]; simpa using hm
        · simp [Spells]
        · rw [← h.2]; simp
      · cases h

/-- **C98** Only `ValueError` is raised. -/
theorem refused (s : Str) (e : PyErr) (h : parse (some s) = .error e) : e = .valueError := by
  simp only [parse] at h
  split at h
  · cases h; rfl
  · unfold normalize at h
    split at h
    · cases h
    · split at h
      · cases h
      · cases h; rfl

/-- **C98** A text without a number at its start is refused. -/
theorem no_number (s : Str) (h : ∀ (a rest : Str) (t : Tok), White a → t.Ok → s ≠ a ++ t.text ++ rest) : parse (some s) = .error .valueError := by
  cases hp : parse (some s) with
  | error e => rw [refused s e hp]
  | ok x =>
    obtain ⟨v, u⟩ := x
    obtain ⟨a, b, w, rest, t, ha, -, h1, h2, -⟩ := accepted_partial s v u hp
    exact absurd (by rw [h1]; simp) (h a (w ++ rest ++ b) t ha h2)

/-- **C98** A number with letters behind it that are no unit is refused. -/
theorem no_unit (t : Tok) (ht : t.Ok) (w a b : Str) (ha : White a) (hb : White b) (hne : w ≠ []) (hw : ∀ c ∈ w, c.isAlpha = true)
    (hu : ∀ u, Unit u → ¬ Spells w u) : parse (some (a ++ (t.text ++ w ++ b))) = .error .valueError := by
  have hc : w = ['%'] ∨ (w ≠ [] ∧ ∀ c ∈ w, c.isAlpha = true) := .inr ⟨hne, hw⟩
  simp only [parse, matchLength, strip_length t ht w a b ha hb (unit_alpha w hc), numAt_unit t ht w (unit_alpha w hc), unitAt_unit w hc]
  rw [normalize, if_neg]
  intro hm
  refine hu (String.ofList (w.map Char.toLower)) ?_ ?_
  · rw [unit_mem]; simpa using hm
  · simp [Spells]

/-- **C98** The code violates the rest: whatever stands behind a number and a space is dropped, be it a unit or not. -/
theorem space_violated (t : Tok) (ht : t.Ok) (g : Str) (hg : PyStr.Trimmed g) (hne : g ≠ []) :
    parse (some (t.text ++ ' ' :: g)) = .ok (t.value, none) := by
  have hs : PyStr.strip (t.text ++ ' ' :: g) = t.text ++ ' ' :: g := by
    apply PyStr.strip_of_trimmed
    refine ⟨fun c hc => ?_, fun c hc => ?_⟩
    · cases hx : t.text with
      | nil => exact absurd hx (tok_ne t ht)
      | cons d r =>
        rw [hx] at hc
        simp only [List.cons_append, List.head?_cons, Option.some.injEq] at hc
        subst hc
        exact numChar_space d (tok_chars t ht d (by rw [hx]; simp))
    · refine hg.2 c ?_
      rw [List.getLast?_append_of_ne_nil _ (by simp), List.getLast?_cons_of_ne_nil hne] at hc
      exact hc
  have hn : numAt (t.text ++ ' ' :: g) = some (t.value, ' ' :: g) := by
    apply numAt_tok t ht
    intro c hc
    simp only [List.head?_cons, Option.some.injEq] at hc
    subst hc
    exact ⟨by decide, fun _ _ => by decide, fun _ => by decide⟩
  simp only [parse, matchLength, hs, hn]
  rfl

/-- **C98** Instances: `10 px` is ten without a unit, `10px;` and `5%%` are accepted, and `1e` has an unknown unit. -/
theorem rest_violated : parse (some "10 px".toList) = .ok (10, none) ∧ parse (some "10px; left".toList) = .ok (10, some "px".toList) ∧
    parse (some "5%%".toList) = .ok (5, some "%".toList) ∧ parse (some "1e".toList) = .error .valueError := by decide +kernel

/-- The hypotheses of `read_length` are met. -/
example : (⟨some true, [], some "5".toList, some ('E', none, "2".toList)⟩ : Tok).Ok ∧ Unit "em" ∧ Spells "Em".toList "em" := by
  refine ⟨by simp [Tok.Ok, Digits, ExpOk, isDigit], ?_, rfl⟩
  simp [Unit]

example : parse (some " -.5E2Em\n".toList) = .ok (-50, some "em".toList) := by decide +kernel

/-- The hypotheses of `no_unit` and `no_number` are met. -/
example : ∀ u, Unit u → ¬ Spells "foo".toList u := by
  intro u hu hs
  have := (unit_mem u).mp hu
  rw [Spells] at hs
  rw [← hs] at this
  revert this
  decide +kernel

end SvgPy.LengthText
