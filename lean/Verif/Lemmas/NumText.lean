import Mathlib.Tactic.Ring
import Verif.Model.NumText
import Verif.Props.Formatter
import Verif.Lemmas.PyStr

/-! Facts about `NumText`. -/

set_option linter.unusedSimpArgs false

namespace SvgPy.NumText

/-- A number as the SVG grammar writes it. -/
structure Tok where
  sign : Option Bool
  int : Str
  frac : Option Str
  exp : Option (Char × Option Bool × Str)

/-- A sign: `true` is a minus. -/
def signText : Option Bool → Str
  | none => []
  | some true => ['-']
  | some false => ['+']

/-- The text of the decimals. -/
def fracText : Option Str → Str
  | none => []
  | some f => '.' :: f

/-- The text of the exponent. -/
def expText : Option (Char × Option Bool × Str) → Str
  | none => []
  | some (c, s, ds) => c :: (signText s ++ ds)

def Tok.text (t : Tok) : Str := signText t.sign ++ (t.int ++ (fracText t.frac ++ expText t.exp))

/-- Sign as a factor. -/
def sgn : Option Bool → ℤ
  | some true => -1
  | _ => 1

def expVal : Option (Char × Option Bool × Str) → ℤ
  | none => 0
  | some (_, s, ds) => sgn s * natOf ds

def Tok.value (t : Tok) : ℚ := sgn t.sign * ((natOf t.int + natOf (t.frac.getD []) / 10 ^ (t.frac.getD []).length) * 10 ^ expVal t.exp)

def Digits (s : Str) : Prop := ∀ c ∈ s, isDigit c = true

def ExpOk : Option (Char × Option Bool × Str) → Prop
  | none => True
  | some (c, _, ds) => (c = 'e' ∨ c = 'E') ∧ ds ≠ [] ∧ Digits ds

/-- The token follows the grammar: at least one digit before or behind the point. -/
def Tok.Ok (t : Tok) : Prop :=
  Digits t.int ∧ Digits (t.frac.getD []) ∧ (t.int ≠ [] ∨ t.frac.getD [] ≠ []) ∧ ExpOk t.exp

/-- The rest of the text does not continue the number. -/
def Tok.Stops (t : Tok) (r : Str) : Prop :=
  ∀ c, r.head? = some c → isDigit c = false ∧ (t.frac = none → t.exp = none → c ≠ '.') ∧
    (t.exp = none → c ≠ 'e' ∧ c ≠ 'E')

theorem takeWhile_digits (i r : Str) (h : Digits i) (hr : ∀ c, r.head? = some c → isDigit c = false) :
    (i ++ r).takeWhile isDigit = i ∧ (i ++ r).dropWhile isDigit = r := by
  rw [List.takeWhile_append_of_pos h, List.dropWhile_append_of_pos h]
  cases r with
  | nil => simp
  | cons c r => simp [hr c rfl]

theorem signAt_text (s : Option Bool) (r : Str) (h : ∀ c, r.head? = some c → c ≠ '-' ∧ c ≠ '+') :
    signAt (signText s ++ r) = (decide (s = some true), r) := by
  rcases s with _ | _ | _
  · cases r with
    | nil => rfl
    | cons c r => have := h c rfl; simp [signText, signAt, this]
  · simp [signText, signAt]
  · simp [signText, signAt]

theorem digit_not_sign (c : Char) (h : isDigit c = true) : c ≠ '-' ∧ c ≠ '+' ∧ c ≠ '.' ∧ c ≠ 'e' ∧ c ≠ 'E' := by
  refine ⟨?_, ?_, ?_, ?_, ?_⟩ <;> · rintro rfl; revert h; decide

theorem expAt_text (e : Option (Char × Option Bool × Str)) (r : Str) (he : ExpOk e)
    (hr : ∀ c, r.head? = some c → isDigit c = false ∧ (e = none → c ≠ 'e' ∧ c ≠ 'E')) :
    expAt (expText e ++ r) = (expVal e, r) := by
  cases e with
  | none =>
    cases r with
    | nil => rfl
    | cons c r =>
      have := (hr c rfl).2 rfl
      simp [expText, expAt, this, expVal]
  | some x =>
    obtain ⟨c, s, ds⟩ := x
    obtain ⟨hc, hne, hd⟩ := he
    have h1 : signAt ((signText s ++ ds) ++ r) = (decide (s = some true), ds ++ r) := by
      rw [List.append_assoc]
      apply signAt_text
      intro x hx
      cases ds with
      | nil => exact absurd rfl hne
      | cons d ds =>
        simp only [List.cons_append, List.head?_cons, Option.some.injEq] at hx
        subst hx
        have := digit_not_sign d (hd d (by simp))
        exact ⟨this.1, this.2.1⟩
    have h2 := takeWhile_digits ds r hd (fun c hc => (hr c hc).1)
    simp only [expText, List.cons_append, expAt, hc, if_true, h1, h2.1, h2.2, hne, if_false, expVal]
    rcases s with _ | _ | _ <;> simp [sgn]

theorem numAt_tok_general (t : Tok) (ht : t.Ok) (r : Str)
    (hr : ∀ c, r.head? = some c → isDigit c = false ∧ (t.frac = none → t.exp = none → c ≠ '.'))
    (hr3 : expAt (expText t.exp ++ r) = (expVal t.exp, r)) : numAt (t.text ++ r) = some (t.value, r) := by
  obtain ⟨sign, int, frac, exp⟩ := t
  obtain ⟨hi, hf, hne, he⟩ := ht
  simp only at hi hf hne he
  simp only at hr hr3
  have hexphead : ∀ c, (expText exp ++ r).head? = some c → isDigit c = false ∧ (frac = none → c ≠ '.') := by
    intro c hc
    cases exp with
    | none => exact ⟨(hr c hc).1, fun h => (hr c hc).2 h rfl⟩
    | some x =>
      obtain ⟨d, s, ds⟩ := x
      simp only [expText, List.cons_append, List.head?_cons, Option.some.injEq] at hc
      subst hc
      obtain ⟨hc, -⟩ := he
      rcases hc with rfl | rfl <;> exact ⟨by decide, fun _ => by decide⟩
  have h1 : fracAt (fracText frac ++ (expText exp ++ r)) = (frac.getD [], expText exp ++ r) := by
    cases frac with
    | none =>
      cases hx : expText exp ++ r with
      | nil => rfl
      | cons c s =>
        have := (hexphead c (by rw [hx]; rfl)).2 rfl
        simp [fracText, fracAt, this]
    | some f =>
      have := takeWhile_digits f (expText exp ++ r) hf (fun c hc => (hexphead c hc).1)
      simp only [fracText, List.cons_append, fracAt, if_true, this.1, this.2, Option.getD_some]
  have h2 := takeWhile_digits int (fracText frac ++ (expText exp ++ r)) hi (by
    intro c hc
    cases frac with
    | none => exact (hexphead c hc).1
    | some f => simp only [fracText, List.cons_append, List.head?_cons, Option.some.injEq] at hc; subst hc; decide)
  have h3 := hr3
  have h4 : signAt (signText sign ++ (int ++ (fracText frac ++ (expText exp ++ r)))) =
      (decide (sign = some true), int ++ (fracText frac ++ (expText exp ++ r))) := by
    apply signAt_text
    intro c hc
    cases int with
    | nil =>
      cases frac with
      | none => simp at hne
      | some f =>
        simp only [fracText, List.cons_append, List.nil_append, List.head?_cons, Option.some.injEq] at hc
        subst hc; decide
    | cons d ds =>
      simp only [List.cons_append, List.head?_cons, Option.some.injEq] at hc
      subst hc
      have := digit_not_sign d (hi d (by simp))
      exact ⟨this.1, this.2.1⟩
  have h5 : unsignedAt (int ++ (fracText frac ++ (expText exp ++ r))) =
      some (valueOf int (frac.getD []) (expVal exp), r) := by
    unfold unsignedAt
    simp only [h2.1, h2.2, h1, h3]
    rw [if_neg]
    rintro ⟨a, b⟩
    rcases hne with h | h
    · exact h a
    · exact h b
  unfold numAt Tok.text Tok.value
  simp only [List.append_assoc, h4, h5]
  congr 2
  unfold valueOf
  rcases sign with _ | _ | _ <;> simp [sgn]

theorem numAt_tok (t : Tok) (ht : t.Ok) (r : Str) (hr : t.Stops r) : numAt (t.text ++ r) = some (t.value, r) :=
  numAt_tok_general t ht r (fun c hc => ⟨(hr c hc).1, (hr c hc).2.1⟩)
    (expAt_text t.exp r ht.2.2.2 (fun c hc => ⟨(hr c hc).1, (hr c hc).2.2⟩))

/-! ### Finding all numbers -/

theorem numAt_shorter (s r : Str) (v : ℚ) (h : numAt s = some (v, r)) : r.length < s.length := by
  have hs : ∀ s, (signAt s).2.length ≤ s.length := by
    intro s; cases s with
    | nil => simp [signAt]
    | cons c s => simp only [signAt]; split <;> [simp; (split <;> simp)]
  have hd : ∀ s : Str, (s.dropWhile isDigit).length ≤ s.length := fun s => (List.dropWhile_sublist _).length_le
  have he : ∀ s, (expAt s).2.length ≤ s.length := by
    intro s; cases s with
    | nil => simp [expAt]
    | cons c s =>
      simp only [expAt]
      split
      · split
        · simp
        · have h1 := hd (signAt s).2
          have h2 := hs s
          simp only [List.length_cons]; omega
      · simp
  have hf : ∀ s, (fracAt s).2.length + (fracAt s).1.length ≤ s.length := by
    intro s; cases s with
    | nil => simp [fracAt]
    | cons c s =>
      simp only [fracAt]
      split
      · have := congrArg List.length (List.takeWhile_append_dropWhile (p := isDigit) (l := s))
        rw [List.length_append] at this
        simp only [List.length_cons]; omega
      · simp
  unfold numAt at h
  simp only at h
  have key : ∀ s v r, unsignedAt s = some (v, r) → r.length < s.length := by
    intro s v r h
    unfold unsignedAt at h
    simp only at h
    split at h
    · cases h
    · rename_i hne
      simp only [Option.some.injEq, Prod.mk.injEq] at h
      have h1 := congrArg List.length h.2
      have h2 := he (fracAt (s.dropWhile isDigit)).2
      have h3 := hf (s.dropWhile isDigit)
      have h4 := congrArg List.length (List.takeWhile_append_dropWhile (p := isDigit) (l := s))
      rw [List.length_append] at h4
      have h5 : 0 < (s.takeWhile isDigit).length ∨ 0 < (fracAt (s.dropWhile isDigit)).1.length := by
        by_contra hx
        simp only [not_or, Nat.not_lt, Nat.le_zero, List.length_eq_zero_iff] at hx
        exact hne hx
      omega
  cases hu : unsignedAt (signAt s).2 with
  | none => simp [hu] at h
  | some x =>
    obtain ⟨v', r'⟩ := x
    simp only [hu, Option.some.injEq, Prod.mk.injEq] at h
    have h1 := key _ _ _ hu
    have h2 := hs s
    rw [← h.2]
    omega

theorem numsN_enough (k l : Nat) (s : Str) (hk : s.length < k) (hl : s.length < l) : numsN k s = numsN l s := by
  induction k generalizing l s with
  | zero => omega
  | succ k ih =>
    cases l with
    | zero => omega
    | succ l =>
      cases s with
      | nil => rfl
      | cons c s =>
        simp only [numsN]
        cases hn : numAt (c :: s) with
        | none =>
          simp only [List.length_cons] at hk hl
          exact ih _ _ (by omega) (by omega)
        | some x =>
          obtain ⟨v, r⟩ := x
          have := numAt_shorter _ _ _ hn
          simp only
          rw [ih l r (by omega) (by omega)]

theorem nums_nil : nums [] = [] := rfl

theorem nums_some (s r : Str) (v : ℚ) (h : numAt s = some (v, r)) : nums s = v :: nums r := by
  cases s with
  | nil => have := numAt_shorter _ _ _ h; simp at this
  | cons c s =>
    have h1 := numAt_shorter _ _ _ h
    unfold nums
    rw [show numsN ((c :: s).length + 1) (c :: s) = v :: numsN (c :: s).length r by simp only [numsN, h]]
    rw [numsN_enough _ (r.length + 1) r h1 (by omega)]

theorem nums_none (c : Char) (s : Str) (h : numAt (c :: s) = none) : nums (c :: s) = nums s := by
  unfold nums
  rw [show numsN ((c :: s).length + 1) (c :: s) = numsN (c :: s).length s by simp only [numsN, h]]
  rfl

/-- A character no number starts with. -/
def Neutral (c : Char) : Prop := isDigit c = false ∧ c ≠ '-' ∧ c ≠ '+' ∧ c ≠ '.' ∧ c ≠ 'e' ∧ c ≠ 'E'

theorem numAt_neutral (c : Char) (s : Str) (h : Neutral c) : numAt (c :: s) = none := by
  obtain ⟨h1, h2, h3, h4, h5, h6⟩ := h
  simp [numAt, signAt, h2, h3, unsignedAt, h1, fracAt, h4]

theorem nums_neutral (d s : Str) (h : ∀ c ∈ d, Neutral c) : nums (d ++ s) = nums s := by
  induction d with
  | nil => rfl
  | cons c d ih =>
    rw [List.cons_append, nums_none _ _ (numAt_neutral c _ (h c (by simp)))]
    exact ih fun c hc => h c (by simp [hc])

theorem stops_neutral (t : Tok) (d s : Str) (hne : d ≠ []) (h : ∀ c ∈ d, Neutral c) : t.Stops (d ++ s) := by
  cases d with
  | nil => exact absurd rfl hne
  | cons c d =>
    intro x hx
    simp only [List.cons_append, List.head?_cons, Option.some.injEq] at hx
    subst hx
    obtain ⟨h1, h2, h3, h4, h5, h6⟩ := h c (by simp)
    exact ⟨h1, fun _ _ => h4, fun _ => ⟨h5, h6⟩⟩

theorem stops_nil (t : Tok) : t.Stops [] := by intro c hc; simp at hc

/-- Numbers with text between them. -/
def seqText : Tok → List (Str × Tok) → Str
  | t, [] => t.text
  | t, (s, u) :: r => t.text ++ (s ++ seqText u r)

/-- What is between the numbers starts none, and each number stops before it. -/
def SeqOk : Tok → List (Str × Tok) → Prop
  | t, [] => t.Ok
  | t, (s, u) :: r => t.Ok ∧ (∀ c ∈ s, Neutral c) ∧ t.Stops (s ++ seqText u r) ∧ SeqOk u r

theorem nums_seq (t : Tok) (l : List (Str × Tok)) (h : SeqOk t l) :
    nums (seqText t l) = t.value :: l.map (·.2.value) := by
  induction l generalizing t with
  | nil =>
    have := nums_some (t.text ++ []) [] t.value (numAt_tok t h [] (stops_nil t))
    simpa [nums_nil, seqText] using this
  | cons x l ih =>
    obtain ⟨s, u⟩ := x
    obtain ⟨h1, h2, h3, h4⟩ := h
    simp only [seqText, List.map_cons]
    rw [nums_some _ _ _ (numAt_tok t h1 _ h3), nums_neutral s _ h2, ih u h4]

/-- The characters of a number. -/
def NumChar (c : Char) : Prop := isDigit c = true ∨ c = '-' ∨ c = '+' ∨ c = '.' ∨ c = 'e' ∨ c = 'E'

theorem tok_chars (t : Tok) (h : t.Ok) : ∀ c ∈ t.text, NumChar c := by
  obtain ⟨sign, int, frac, exp⟩ := t
  obtain ⟨hi, hf, -, he⟩ := h
  have hs : ∀ s, ∀ c ∈ signText s, NumChar c := by
    rintro (_ | _ | _) c hc <;> simp [signText] at hc <;> subst hc <;> simp [NumChar]
  intro c hc
  simp only [Tok.text, List.mem_append] at hc
  rcases hc with hc | hc | hc | hc
  · exact hs _ c hc
  · exact .inl (hi c hc)
  · cases frac with
    | none => simp [fracText] at hc
    | some f =>
      simp only [fracText, List.mem_cons] at hc
      rcases hc with rfl | hc
      · simp [NumChar]
      · exact .inl (hf c hc)
  · cases exp with
    | none => simp [expText] at hc
    | some x =>
      obtain ⟨d, s, ds⟩ := x
      simp only [expText, List.mem_cons, List.mem_append] at hc
      rcases hc with rfl | hc | hc
      · rcases he.1 with rfl | rfl <;> simp [NumChar]
      · exact hs _ c hc
      · exact .inl (he.2.2 c hc)

theorem tok_ne (t : Tok) (h : t.Ok) : t.text ≠ [] := by
  obtain ⟨sign, int, frac, exp⟩ := t
  obtain ⟨-, -, hne, -⟩ := h
  intro h
  simp only [Tok.text, List.append_eq_nil_iff] at h
  obtain ⟨-, h1, h2, -⟩ := h
  rcases hne with h' | h'
  · exact h' h1
  · cases frac with
    | none => simp at h'
    | some f => simp [fracText] at h2

theorem numChar_space (c : Char) (h : NumChar c) : PyStr.isSpace c = false := by
  rcases h with h | rfl | rfl | rfl | rfl | rfl
  · simp only [isDigit, Bool.and_eq_true, decide_eq_true_eq] at h
    simp only [PyStr.isSpace, Bool.or_eq_false_iff, Bool.and_eq_false_iff, decide_eq_false_iff_not,
      beq_eq_false_iff_ne]
    omega
  all_goals decide

theorem seq_ends (t : Tok) (l : List (Str × Tok)) (h : SeqOk t l) :
    (∃ c r, seqText t l = c :: r ∧ NumChar c) ∧ ∃ c r, seqText t l = r ++ [c] ∧ NumChar c := by
  induction l generalizing t with
  | nil =>
    have h1 := tok_ne t h
    have h2 := tok_chars t h
    constructor
    · cases hx : t.text with
      | nil => exact absurd hx h1
      | cons c r => rw [hx] at h2; exact ⟨c, r, hx, h2 c (by simp)⟩
    · rcases List.eq_nil_or_concat t.text with hx | ⟨r, c, hx⟩
      · exact absurd hx h1
      · rw [List.concat_eq_append] at hx
        rw [hx] at h2; exact ⟨c, r, hx, h2 c (by simp)⟩
  | cons x l ih =>
    obtain ⟨s, u⟩ := x
    obtain ⟨ho, -, -, h4⟩ := h
    obtain ⟨-, c, r, h5, h6⟩ := ih u h4
    constructor
    · have h1 := tok_ne t ho
      have h2 := tok_chars t ho
      cases hx : t.text with
      | nil => exact absurd hx h1
      | cons c r => rw [hx] at h2; exact ⟨c, r ++ (s ++ seqText u l), by simp only [seqText, hx, List.cons_append], h2 c (by simp)⟩
    · exact ⟨c, t.text ++ (s ++ r), by simp [seqText, h5], h6⟩

theorem seq_trimmed (t : Tok) (l : List (Str × Tok)) (h : SeqOk t l) : PyStr.Trimmed (seqText t l) := by
  obtain ⟨⟨c, r, h1, h2⟩, d, q, h3, h4⟩ := seq_ends t l h
  constructor
  · intro x hx; rw [h1] at hx; simp at hx; rw [← hx]; exact numChar_space c h2
  · intro x hx; rw [h3] at hx; simp at hx; rw [← hx]; exact numChar_space d h4

theorem join_seq (d : Str) (t : Tok) (ts : List Tok) :
    PyStr.join d ((t :: ts).map Tok.text) = seqText t (ts.map fun u => (d, u)) := by
  induction ts generalizing t with
  | nil => rfl
  | cons u us ih =>
    have := ih u
    simp only [List.map_cons, PyStr.join, seqText] at this ⊢
    rw [this, List.append_assoc]

theorem join_seqOk (d : Str) (hne : d ≠ []) (hd : ∀ c ∈ d, Neutral c) (t : Tok) (ts : List Tok)
    (h : ∀ u ∈ t :: ts, u.Ok) : SeqOk t (ts.map fun u => (d, u)) := by
  induction ts generalizing t with
  | nil => exact h t (by simp)
  | cons u us ih =>
    exact ⟨h t (by simp), hd, stops_neutral t d _ hne hd, ih u fun v hv => h v (by simp [hv])⟩

theorem neutral_space (c : Char) (h : PyStr.isSpace c = true) : Neutral c := by
  have hd : isDigit c = false := by
    simp only [PyStr.isSpace, Bool.or_eq_true, Bool.and_eq_true, decide_eq_true_eq, beq_iff_eq] at h
    simp only [isDigit, Bool.and_eq_false_iff, decide_eq_false_iff_not]
    omega
  refine ⟨hd, ?_, ?_, ?_, ?_, ?_⟩ <;> · rintro rfl; revert h; decide

/-! ### Formatted numbers are such tokens -/

open Formatter

theorem isDigit_iff (c : Char) : isDigit c = true ↔ (digitVal c).isSome = true := by
  simp only [isDigit, digitVal, Bool.and_eq_true, decide_eq_true_eq]
  split <;> simp_all

theorem foldl_read (ds : Str) (h : Digits ds) (acc : Nat) :
    readDigits acc ds = some (ds.foldl (fun a c => 10 * a + (c.toNat - 48)) acc) := by
  induction ds generalizing acc with
  | nil => rfl
  | cons c cs ih =>
    have hc : digitVal c = some (c.toNat - 48) := by
      have := h c (by simp)
      simp only [isDigit, Bool.and_eq_true, decide_eq_true_eq] at this
      simp [digitVal, this]
    simp only [readDigits, hc, List.foldl_cons]
    exact ih (fun c hc => h c (by simp [hc])) _

theorem natOf_read (ds : Str) (h : Digits ds) : readDigits 0 ds = some (natOf ds) := foldl_read ds h 0

/-- The text of a formatted number is a number token with the rounded value. -/
theorem format_tok (p : Nat) (hp : p ≠ 0) (x : ℚ) :
    ∃ t : Tok, t.Ok ∧ t.text = formatNum p x ∧ t.value = rounded p x ∧ t.exp = none ∧
      (∀ c ∈ t.text, isDigit c = true ∨ c = '-' ∨ c = '.') := by
  unfold formatNum rounded
  rw [formatSigned_eq p hp]
  generalize roundEven (|x| * 10 ^ p) = m
  have hd : Digits (decimal (m / 10 ^ p)) := fun c hc => (isDigit_iff c).mpr (decimalN_digits _ _ c hc)
  have hn : decimal (m / 10 ^ p) ≠ [] := decimalN_ne _ _ (by omega)
  have ht : Digits (trimDec p m) := fun c hc => (isDigit_iff c).mpr (trimDec_digits _ _ c hc)
  have hr : natOf (decimal (m / 10 ^ p)) = m / 10 ^ p := by
    have := (natOf_read _ hd).symm.trans (decimal_read _)
    exact Option.some.inj this
  obtain ⟨k, hk, hv⟩ := trimDec_read p m
  have hk' : natOf (trimDec p m) = k := by
    have := (natOf_read _ ht).symm.trans hk
    exact Option.some.inj this
  have hm : ((m : ℚ)) / 10 ^ p = ((m / 10 ^ p : Nat) : ℚ) + ((m % 10 ^ p : Nat) : ℚ) / 10 ^ p := by
    have h10 : (10 : ℚ) ^ p ≠ 0 := by positivity
    have : ((m : ℚ)) = 10 ^ p * ((m / 10 ^ p : Nat) : ℚ) + ((m % 10 ^ p : Nat) : ℚ) := by
      exact_mod_cast (Nat.div_add_mod m (10 ^ p)).symm
    rw [div_eq_iff h10, add_mul, div_mul_cancel₀ _ h10, this]
    push_cast
    ring
  refine ⟨⟨if decide (x < 0) = true ∧ m ≠ 0 then some true else none, decimal (m / 10 ^ p),
    if m % 10 ^ p = 0 then none else some (trimDec p m), none⟩, ?_, ?_, ?_, rfl, ?_⟩
  · refine ⟨hd, ?_, .inl hn, trivial⟩
    simp only
    split
    · intro c hc; simp at hc
    · exact ht
  · simp only [Tok.text, expText, decPart, List.append_nil]
    rw [← List.append_assoc]
    congr 1
    · congr 1
      split <;> rfl
    · split <;> rfl
  · simp only [Tok.value, expVal, zpow_zero, mul_one]
    have e : ((natOf (decimal (m / 10 ^ p)) : ℚ) + natOf ((if m % 10 ^ p = 0 then none else some (trimDec p m)).getD []) /
        10 ^ ((if m % 10 ^ p = 0 then none else some (trimDec p m)).getD []).length) = (m : ℚ) / 10 ^ p := by
      rw [hm, hr]
      congr 1
      split
      · rename_i h0; rw [h0]; simp [natOf]
      · rw [Option.getD_some, hk', hv]
    rw [e]
    simp only [decide_eq_true_eq]
    by_cases hx : x < 0 <;> by_cases h0 : m = 0 <;> simp [hx, h0, sgn]
  · intro c hc
    simp only [Tok.text, expText, List.append_nil, List.mem_append] at hc
    rcases hc with hc | hc | hc
    · split at hc
      · simp [signText] at hc; exact .inr (.inl hc)
      · simp [signText] at hc
    · exact .inl (hd c hc)
    · split at hc
      · simp [fracText] at hc
      · simp only [fracText, List.mem_cons] at hc
        rcases hc with rfl | hc
        · exact .inr (.inr rfl)
        · exact .inl (ht c hc)

end SvgPy.NumText
