import Mathlib.Tactic.Ring
import Mathlib.Tactic.Linarith
import Mathlib.Tactic.FieldSimp
import Mathlib.Algebra.Order.Field.Rat
import Verif.Model.Formatter

/-! Property C11: formatting numbers. -/

set_option linter.unusedSimpArgs false

namespace SvgPy.Formatter

/-! ### Specification -/

/-- The digit a character stands for. -/
def digitVal (c : Char) : Option Nat :=
  if 48 ≤ c.toNat ∧ c.toNat ≤ 57 then some (c.toNat - 48) else none

/-- A run of digits read as a number, starting from `acc`. -/
def readDigits (acc : Nat) : Str → Option Nat
  | [] => some acc
  | c :: cs => match digitVal c with
    | none => none
    | some d => readDigits (10 * acc + d) cs

/-- Digits, and optionally a point and more digits, read as a number. -/
def readUnsigned (t : Str) : Option ℚ :=
  match t.span (· ≠ '.') with
  | ([], _) => none
  | (i, []) => (readDigits 0 i).map fun n => (n : ℚ)
  | (_, ['.']) => none
  | (i, _ :: f) => match readDigits 0 i, readDigits 0 f with
    | some n, some k => some (n + k / 10 ^ f.length)
    | _, _ => none

/-- A decimal number read from a text: an optional minus sign in front. -/
def readNum : Str → Option ℚ
  | '-' :: t => (readUnsigned t).map fun q => -q
  | t => readUnsigned t

/-- `r` is `x` rounded to `p` decimals: a multiple of `10⁻ᵖ` that is nearest to `x`,
the even multiple if two are equally near. -/
def Rounded (p : Nat) (x r : ℚ) : Prop :=
  ∃ k : ℤ, r = k / 10 ^ p ∧ |x * 10 ^ p - k| ≤ 1 / 2 ∧ (|x * 10 ^ p - k| = 1 / 2 → 2 ∣ k)

/-- The text has no superfluous character: no sign of a zero, no zero in front of the
integer part, no point without digits and no zero at the end of the decimals. -/
def Neat (t : Str) : Prop :=
  ∃ sign i f, t = sign ++ i ++ f ∧ (sign = [] ∨ sign = ['-']) ∧ i ≠ [] ∧
    (∀ c ∈ i, (digitVal c).isSome = true) ∧ (i.head? = some '0' → i = ['0']) ∧
    (f = [] ∨ ∃ ds, f = '.' :: ds ∧ ds ≠ [] ∧ (∀ c ∈ ds, (digitVal c).isSome = true) ∧ ds.getLast? ≠ some '0') ∧
    ¬ (sign = ['-'] ∧ i = ['0'] ∧ f = [])

/-! ### Digits -/

theorem digit_val (n : Nat) : digitVal (digit n) = some (n % 10) := by
  have h : n % 10 < 10 := Nat.mod_lt _ (by omega)
  unfold digit
  generalize n % 10 = d at h
  rcases d with _|_|_|_|_|_|_|_|_|_|d
  all_goals first | rfl | omega

theorem digit_eq_zero (n : Nat) : digit n = '0' ↔ n % 10 = 0 := by
  constructor
  · intro h
    have := digit_val n
    rw [h] at this
    have e : digitVal '0' = some 0 := by decide
    rw [e] at this
    exact (Option.some.inj this).symm
  · intro h
    unfold digit
    rw [h]

theorem readDigits_append (a b : Str) (acc n : Nat) (h : readDigits acc a = some n) :
    readDigits acc (a ++ b) = readDigits n b := by
  induction a generalizing acc with
  | nil => cases h; rfl
  | cons c cs ih =>
    simp only [readDigits, List.cons_append] at h ⊢
    cases hd : digitVal c with
    | none => simp [hd] at h
    | some d => simp only [hd] at h ⊢; exact ih _ h

theorem padded_length (p n : Nat) : (padded p n).length = p := by
  induction p generalizing n with
  | zero => rfl
  | succ p ih => simp [padded, ih]

theorem padded_read (p n acc : Nat) : readDigits acc (padded p n) = some (acc * 10 ^ p + n % 10 ^ p) := by
  induction p generalizing n with
  | zero => simp [padded, readDigits, Nat.mod_one]
  | succ p ih =>
    rw [padded, readDigits_append _ _ _ _ (ih (n / 10))]
    simp only [readDigits, digit_val]
    congr 1
    have := Nat.mod_mul (x := n) (a := 10) (b := 10 ^ p)
    rw [pow_succ, Nat.mul_comm (10 ^ p) 10, this]
    ring

theorem decimalN_read (k n : Nat) (h : n < k) : readDigits 0 (decimalN k n) = some n := by
  induction k generalizing n with
  | zero => omega
  | succ k ih =>
    unfold decimalN
    split
    · simp only [readDigits, digit_val]; congr 1; omega
    · rw [readDigits_append _ _ _ _ (ih (n / 10) (by omega))]
      simp only [readDigits, digit_val]; congr 1; omega

theorem decimal_read (n : Nat) : readDigits 0 (decimal n) = some n := decimalN_read _ _ (by omega)

theorem decimalN_ne (k n : Nat) (h : n < k) : decimalN k n ≠ [] := by
  cases k with
  | zero => omega
  | succ k => unfold decimalN; split <;> simp

theorem isSome_digit (n : Nat) : (digitVal (digit n)).isSome = true := by rw [digit_val]; rfl

theorem decimalN_digits (k n : Nat) : ∀ c ∈ decimalN k n, (digitVal c).isSome = true := by
  induction k generalizing n with
  | zero => simp [decimalN]
  | succ k ih =>
    unfold decimalN
    split
    · simp [isSome_digit]
    · simp only [List.mem_append, List.mem_singleton]
      rintro c (h | rfl)
      · exact ih _ c h
      · exact isSome_digit _

theorem padded_digits (p n : Nat) : ∀ c ∈ padded p n, (digitVal c).isSome = true := by
  induction p generalizing n with
  | zero => simp [padded]
  | succ k ih =>
    unfold padded
    simp only [List.mem_append, List.mem_singleton]
    rintro c (h | rfl)
    · exact ih _ c h
    · exact isSome_digit _

theorem decimalN_head (k n : Nat) (h : n < k) (h0 : (decimalN k n).head? = some '0') : n = 0 := by
  induction k generalizing n with
  | zero => omega
  | succ k ih =>
    unfold decimalN at h0
    split at h0
    · simp only [List.head?_cons, Option.some.injEq, digit_eq_zero] at h0; omega
    · have hn := decimalN_ne k (n / 10) (by omega)
      rw [List.head?_append_of_ne_nil _ hn] at h0
      have := ih (n / 10) (by omega) h0
      omega

theorem decimal_head (n : Nat) (h : (decimal n).head? = some '0') : decimal n = ['0'] := by
  have := decimalN_head _ _ (by omega) h
  subst this
  rfl

/-! ### Stripping zeros -/

/-- Decimals without their trailing zeros. -/
def trimDec : Nat → Nat → Str
  | 0, _ => []
  | p + 1, n => if n % 10 = 0 then trimDec p (n / 10) else padded (p + 1) n

theorem rstripChar_snoc (c d : Char) (s : Str) :
    rstripChar c (s ++ [d]) = if d = c then rstripChar c s else s ++ [d] := by
  unfold rstripChar
  simp only [List.reverse_append, List.reverse_cons, List.reverse_nil, List.nil_append, List.singleton_append,
    List.dropWhile_cons, beq_iff_eq]
  split <;> simp

theorem rstripChar_of (c : Char) (s : Str) (h : s.getLast? ≠ some c) : rstripChar c s = s := by
  rcases List.eq_nil_or_concat s with rfl | ⟨a, d, rfl⟩
  · rfl
  · simp only [List.concat_eq_append] at h ⊢
    rw [rstripChar_snoc, if_neg]
    rintro rfl
    simp at h

theorem rstrip_padded (pre : Str) (p n : Nat) :
    rstripChar '0' (pre ++ '.' :: padded p n) = pre ++ '.' :: trimDec p n := by
  induction p generalizing n with
  | zero => rw [rstripChar_of]; · rfl
            simp [padded, List.getLast?_append]
  | succ p ih =>
    have : pre ++ '.' :: padded (p + 1) n = (pre ++ '.' :: padded p (n / 10)) ++ [digit n] := by simp [padded]
    rw [this, rstripChar_snoc]
    unfold trimDec
    by_cases h : n % 10 = 0
    · rw [if_pos ((digit_eq_zero n).mpr h), if_pos h, ih]
    · rw [if_neg (fun h' => h ((digit_eq_zero n).mp h')), if_neg h]
      simp [padded]

theorem trimDec_nil (p n : Nat) : trimDec p n = [] ↔ n % 10 ^ p = 0 := by
  induction p generalizing n with
  | zero => simp [trimDec, Nat.mod_one]
  | succ p ih =>
    have := Nat.mod_mul (x := n) (a := 10) (b := 10 ^ p)
    rw [pow_succ, Nat.mul_comm (10 ^ p) 10, this]
    unfold trimDec
    split
    · rename_i h
      rw [ih]; omega
    · rename_i h
      constructor
      · intro h'; simp [padded] at h'
      · intro h'; omega

theorem trimDec_last (p n : Nat) : (trimDec p n).getLast? ≠ some '0' := by
  induction p generalizing n with
  | zero => simp [trimDec]
  | succ p ih =>
    unfold trimDec
    split
    · exact ih _
    · rename_i h
      simp [padded, digit_eq_zero, h]

theorem trimDec_digits (p n : Nat) : ∀ c ∈ trimDec p n, (digitVal c).isSome = true := by
  induction p generalizing n with
  | zero => simp [trimDec]
  | succ p ih =>
    unfold trimDec
    split
    · exact ih _
    · exact padded_digits _ _

theorem trimDec_read (p n : Nat) :
    ∃ k, readDigits 0 (trimDec p n) = some k ∧
      (k : ℚ) / 10 ^ (trimDec p n).length = ((n % 10 ^ p : Nat) : ℚ) / 10 ^ p := by
  induction p generalizing n with
  | zero => exact ⟨0, rfl, by simp [trimDec, Nat.mod_one]⟩
  | succ p ih =>
    unfold trimDec
    split
    · rename_i h
      obtain ⟨k, hk, hv⟩ := ih (n / 10)
      refine ⟨k, hk, ?_⟩
      rw [hv]
      have := Nat.mod_mul (x := n) (a := 10) (b := 10 ^ p)
      rw [pow_succ (10 : Nat), Nat.mul_comm (10 ^ p) 10, this, h]
      push_cast
      rw [pow_succ]
      field_simp
      ring
    · refine ⟨_, padded_read _ _ _, ?_⟩
      rw [padded_length]
      simp

/-! ### The text -/

/-- The decimals with their point. -/
def decPart (p n : Nat) : Str := if n % 10 ^ p = 0 then [] else '.' :: trimDec p n

theorem digit_ne (c : Char) (h : (digitVal c).isSome = true) : c ≠ '.' ∧ c ≠ '-' := by
  constructor <;> · rintro rfl; revert h; decide

theorem last_digit (pre i : Str) (hi : i ≠ []) (h : ∀ c ∈ i, (digitVal c).isSome = true) :
    (pre ++ i).getLast? ≠ some '.' := by
  rcases List.eq_nil_or_concat i with rfl | ⟨a, d, rfl⟩
  · simp at hi
  · simp only [List.concat_eq_append] at h ⊢
    have := digit_ne d (h d (by simp))
    rw [← List.append_assoc, List.getLast?_concat]
    simp [this.1]

theorem formatSigned_eq (p : Nat) (hp : p ≠ 0) (neg : Bool) (mag : ℚ) :
    formatSigned p neg mag =
      (if neg = true ∧ roundEven (mag * 10 ^ p) ≠ 0 then ['-'] else []) ++
        decimal (roundEven (mag * 10 ^ p) / 10 ^ p) ++ decPart p (roundEven (mag * 10 ^ p)) := by
  unfold formatSigned formatF
  simp only [hp, if_false]
  generalize hm : roundEven (mag * 10 ^ p) = m
  rw [rstrip_padded]
  have hd : ∀ c ∈ decimal (m / 10 ^ p), (digitVal c).isSome = true := decimalN_digits _ _
  have hn : decimal (m / 10 ^ p) ≠ [] := decimalN_ne _ _ (by omega)
  have h10 : 0 < 10 ^ p := Nat.pos_of_ne_zero (by simp)
  have ht : rstripChar '.' ((if neg = true then ['-'] else []) ++ decimal (m / 10 ^ p) ++ '.' :: trimDec p (m % 10 ^ p)) =
      (if neg = true then ['-'] else []) ++ decimal (m / 10 ^ p) ++ decPart p m := by
    unfold decPart
    by_cases h0 : m % 10 ^ p = 0
    · rw [if_pos h0, h0, (trimDec_nil p 0).mpr (by simp), rstripChar_snoc, if_pos rfl, List.append_nil,
        rstripChar_of _ _ (last_digit _ _ hn hd)]
    · rw [if_neg h0]
      have e : trimDec p (m % 10 ^ p) = trimDec p m := by
        clear hm hd hn h0 h10 hp
        induction p generalizing m with
        | zero => rfl
        | succ p ih =>
          have h := Nat.mod_mul (x := m) (a := 10) (b := 10 ^ p)
          have h2 : (m % 10 ^ (p + 1)) % 10 = m % 10 := by
            rw [pow_succ, Nat.mod_mul_left_mod]
          have h3 : (m % 10 ^ (p + 1)) / 10 = m / 10 % 10 ^ p := by
            rw [pow_succ, Nat.mul_comm, h]; omega
          have h4 : ∀ q k, padded q (k % 10 ^ q) = padded q k := by
            intro q
            induction q with
            | zero => intro k; rfl
            | succ q ihq =>
              intro k
              have h := Nat.mod_mul (x := k) (a := 10) (b := 10 ^ q)
              have h2 : (k % 10 ^ (q + 1)) % 10 = k % 10 := by rw [pow_succ, Nat.mod_mul_left_mod]
              have h3 : (k % 10 ^ (q + 1)) / 10 = k / 10 % 10 ^ q := by
                rw [pow_succ, Nat.mul_comm, h]; omega
              simp only [padded, h3, ihq, digit, h2]
          simp only [trimDec, h2, h3, ih, h4]
      rw [e]
      have hne : trimDec p m ≠ [] := fun h => h0 ((trimDec_nil p m).mp h)
      apply rstripChar_of
      have := last_digit ((if neg = true then ['-'] else []) ++ decimal (m / 10 ^ p) ++ ['.']) (trimDec p m) hne
        (trimDec_digits _ _)
      simpa using this
  rw [ht]
  cases neg with
  | false =>
    simp only [Bool.false_eq_true, if_false, false_and, List.nil_append]
    rw [if_pos]
    intro h
    have : ('-' : Char) ∈ decimal (m / 10 ^ p) := by
      cases hc : decimal (m / 10 ^ p) with
      | nil => exact absurd hc hn
      | cons a b => rw [hc] at h; simp only [List.cons_append, List.cons.injEq] at h; rw [h.1]; simp
    exact (digit_ne _ (hd _ this)).2 rfl
  | true =>
    simp only [if_true, true_and]
    by_cases hm0 : m = 0
    · subst hm0
      simp [decPart, decimal, decimalN, digit]
    · simp only [ne_eq, hm0, not_false_eq_true, if_true]
      rw [if_pos]
      intro h
      simp only [List.cons_append, List.nil_append, List.cons.injEq, true_and] at h
      apply hm0
      have hdp : decPart p m = [] := by
        unfold decPart at h ⊢
        split at h
        · rename_i h'; rw [if_pos h']
        · exfalso
          cases hc : decimal (m / 10 ^ p) with
          | nil => exact hn hc
          | cons a b => rw [hc] at h; simp at h
      rw [hdp, List.append_nil] at h
      have hz : m / 10 ^ p = 0 := decimalN_head (m / 10 ^ p + 1) _ (by omega) (by
        have : decimalN (m / 10 ^ p + 1) (m / 10 ^ p) = decimal (m / 10 ^ p) := rfl
        rw [this, h]; rfl)
      have hmod : m % 10 ^ p = 0 := by
        unfold decPart at hdp
        by_contra h'
        simp [h'] at hdp
      have := Nat.div_add_mod m (10 ^ p)
      rw [hz, hmod] at this
      simpa using this.symm

theorem span_digits (i r : Str) (h : ∀ c ∈ i, (digitVal c).isSome = true) :
    (i ++ r).span (· ≠ '.') = (i ++ (r.span (· ≠ '.')).1, (r.span (· ≠ '.')).2) := by
  simp only [List.span_eq_takeWhile_dropWhile]
  have h' : ∀ c ∈ i, (decide (c ≠ '.')) = true := fun c hc => by simpa using (digit_ne c (h c hc)).1
  rw [List.takeWhile_append_of_pos h', List.dropWhile_append_of_pos h']

theorem readUnsigned_text (p m : Nat) :
    readUnsigned (decimal (m / 10 ^ p) ++ decPart p m) = some ((m : ℚ) / 10 ^ p) := by
  have hd : ∀ c ∈ decimal (m / 10 ^ p), (digitVal c).isSome = true := decimalN_digits _ _
  have hn : decimal (m / 10 ^ p) ≠ [] := decimalN_ne _ _ (by omega)
  have hr := decimal_read (m / 10 ^ p)
  have hm : ((m : ℚ)) = 10 ^ p * ((m / 10 ^ p : Nat) : ℚ) + ((m % 10 ^ p : Nat) : ℚ) := by
    exact_mod_cast (Nat.div_add_mod m (10 ^ p)).symm
  have h10 : (10 : ℚ) ^ p ≠ 0 := by positivity
  unfold readUnsigned decPart
  rw [span_digits _ _ hd]
  generalize decimal (m / 10 ^ p) = i at *
  cases i with
  | nil => exact absurd rfl hn
  | cons a b =>
    by_cases h0 : m % 10 ^ p = 0
    · rw [if_pos h0]
      rw [h0] at hm
      simp only [List.span_eq_takeWhile_dropWhile, List.takeWhile_nil, List.dropWhile_nil, List.append_nil, hr,
        Option.map_some]
      congr 1
      rw [hm]; field_simp; simp
    · rw [if_neg h0]
      obtain ⟨k, hk, hv⟩ := trimDec_read p m
      have hne : trimDec p m ≠ [] := fun h => h0 ((trimDec_nil p m).mp h)
      have e : ('.' :: trimDec p m).span (· ≠ '.') = ([], '.' :: trimDec p m) := by
        simp [List.span_eq_takeWhile_dropWhile]
      rw [e]
      cases hc : trimDec p m with
      | nil => exact absurd hc hne
      | cons c d =>
        rw [hc] at hk hv
        simp only [List.append_nil, hr, hk]
        congr 1
        rw [hv, hm]
        field_simp

theorem roundEven_near (q : ℚ) (hq : 0 ≤ q) :
    |q - roundEven q| ≤ 1 / 2 ∧ (|q - roundEven q| = 1 / 2 → 2 ∣ roundEven q) := by
  have hf : ((⌊q⌋.toNat : ℕ) : ℚ) = (⌊q⌋ : ℚ) := by
    exact_mod_cast Int.toNat_of_nonneg (Int.floor_nonneg.mpr hq)
  have h1 := Int.floor_le q
  have h2 := Int.lt_floor_add_one q
  unfold roundEven
  simp only
  generalize ⌊q⌋.toNat = f at hf
  rw [← hf] at h1 h2
  split
  · rename_i h
    rw [abs_of_nonneg (by linarith)]
    exact ⟨h.le, fun e => absurd e h.ne⟩
  · rename_i h
    split
    · rename_i h'
      push_cast
      rw [abs_of_nonpos (by linarith)]
      exact ⟨by linarith, fun e => by exfalso; linarith⟩
    · rename_i h'
      have e : q - f = 1 / 2 := by linarith
      split
      · rename_i hev
        rw [e]
        norm_num
        omega
      · rename_i hev
        push_cast
        have : q - (f + 1) = - (1 / 2) := by linarith
        rw [this]
        norm_num
        omega

/-- The number the text stands for. -/
def rounded (p : Nat) (x : ℚ) : ℚ :=
  if x < 0 then - ((roundEven (|x| * 10 ^ p) : ℚ) / 10 ^ p) else (roundEven (|x| * 10 ^ p) : ℚ) / 10 ^ p

theorem rounded_spec (p : Nat) (x : ℚ) : Rounded p x (rounded p x) := by
  have h10 : (0 : ℚ) < 10 ^ p := by positivity
  obtain ⟨h1, h2⟩ := roundEven_near (|x| * 10 ^ p) (by positivity)
  unfold rounded
  generalize roundEven (|x| * 10 ^ p) = m at *
  split
  · rename_i hx
    rw [abs_of_neg hx] at h1 h2
    refine ⟨-(m : ℤ), by push_cast; ring, ?_, ?_⟩
    · have : x * 10 ^ p - ((-(m : ℤ) : ℤ) : ℚ) = -(-x * 10 ^ p - m) := by push_cast; ring
      rw [this, abs_neg]; exact h1
    · have : x * 10 ^ p - ((-(m : ℤ) : ℤ) : ℚ) = -(-x * 10 ^ p - m) := by push_cast; ring
      rw [this, abs_neg]
      intro h
      have := h2 h
      omega
  · rename_i hx
    rw [abs_of_nonneg (not_lt.mp hx)] at h1 h2
    refine ⟨(m : ℤ), by push_cast; ring, by simpa using h1, fun h => ?_⟩
    have := h2 (by simpa using h)
    omega

theorem Rounded.unique {p : Nat} {x r s : ℚ} (h : Rounded p x r) (h' : Rounded p x s) : r = s := by
  obtain ⟨k, rfl, hk, hk2⟩ := h
  obtain ⟨l, rfl, hl, hl2⟩ := h'
  have key : k = l := by
    by_contra hne
    have a1 := abs_le.mp hk
    have a2 := abs_le.mp hl
    rcases lt_or_gt_of_ne hne with hlt | hlt
    · have h1 : k + 1 ≤ l := hlt
      have h2 : ((k : ℚ) + 1) ≤ l := by exact_mod_cast h1
      have e1 : x * 10 ^ p - k = 1 / 2 := by linarith
      have e2 : x * 10 ^ p - l = -(1 / 2) := by linarith
      have b1 := hk2 (by rw [e1]; norm_num)
      have b2 := hl2 (by rw [e2]; norm_num)
      have e3 : (l : ℚ) = k + 1 := by linarith
      have e4 : l = k + 1 := by exact_mod_cast e3
      omega
    · have h1 : l + 1 ≤ k := hlt
      have h2 : ((l : ℚ) + 1) ≤ k := by exact_mod_cast h1
      have e1 : x * 10 ^ p - l = 1 / 2 := by linarith
      have e2 : x * 10 ^ p - k = -(1 / 2) := by linarith
      have b1 := hl2 (by rw [e1]; norm_num)
      have b2 := hk2 (by rw [e2]; norm_num)
      have e3 : (k : ℚ) = l + 1 := by linarith
      have e4 : k = l + 1 := by exact_mod_cast e3
      omega
  rw [key]

theorem readNum_plain (t : Str) (h : t.head? ≠ some '-') : readNum t = readUnsigned t := by
  cases t with
  | nil => rfl
  | cons c cs =>
    unfold readNum
    split
    · rename_i e; cases e; simp at h
    · rfl

theorem read_signed (p : Nat) (hp : p ≠ 0) (neg : Bool) (mag : ℚ) :
    readNum (formatSigned p neg mag) = some
      (if neg = true then -((roundEven (mag * 10 ^ p) : ℚ) / 10 ^ p) else (roundEven (mag * 10 ^ p) : ℚ) / 10 ^ p) := by
  rw [formatSigned_eq p hp]
  generalize roundEven (mag * 10 ^ p) = m
  have hh : (decimal (m / 10 ^ p) ++ decPart p m).head? ≠ some '-' := by
    have hd : ∀ c ∈ decimal (m / 10 ^ p), (digitVal c).isSome = true := decimalN_digits _ _
    have hn : decimal (m / 10 ^ p) ≠ [] := decimalN_ne _ _ (by omega)
    cases hc : decimal (m / 10 ^ p) with
    | nil => exact absurd hc hn
    | cons a b =>
      rw [hc] at hd
      simpa using (digit_ne a (hd a (by simp))).2
  by_cases h : neg = true ∧ m ≠ 0
  · rw [if_pos h]
    simp only [List.cons_append, List.nil_append, readNum, readUnsigned_text, h.1, if_true, Option.map_some]
  · rw [if_neg h, List.nil_append, readNum_plain _ hh, readUnsigned_text]
    split
    · rename_i hneg
      have : m = 0 := by by_contra h'; exact h ⟨hneg, h'⟩
      subst this; simp
    · rfl

theorem neat_signed (p : Nat) (hp : p ≠ 0) (neg : Bool) (mag : ℚ) : Neat (formatSigned p neg mag) := by
  rw [formatSigned_eq p hp]
  generalize roundEven (mag * 10 ^ p) = m
  refine ⟨_, _, _, rfl, ?_, decimalN_ne _ _ (by omega), decimalN_digits _ _, decimal_head _, ?_, ?_⟩
  · split <;> simp
  · unfold decPart
    split
    · exact .inl rfl
    · rename_i h
      exact .inr ⟨_, rfl, fun h' => h ((trimDec_nil p m).mp h'), trimDec_digits _ _, trimDec_last _ _⟩
  · rintro ⟨h1, h2, h3⟩
    split at h1
    · rename_i h
      have hz : m / 10 ^ p = 0 := decimalN_head (m / 10 ^ p + 1) _ (by omega) (by
        have : decimalN (m / 10 ^ p + 1) (m / 10 ^ p) = decimal (m / 10 ^ p) := rfl
        rw [this, h2]; rfl)
      have hmod : m % 10 ^ p = 0 := by
        unfold decPart at h3
        by_contra h'
        simp [h'] at h3
      have := Nat.div_add_mod m (10 ^ p)
      rw [hz, hmod] at this
      exact h.2 (by simpa using this.symm)
    · cases h1

/-- **C11** Reading the text of a number gives the number rounded to `p` decimals. -/
theorem format_read (p : Nat) (hp : p ≠ 0) (x : ℚ) :
    ∃ r, readNum (formatNum p x) = some r ∧ Rounded p x r := by
  refine ⟨rounded p x, ?_, rounded_spec p x⟩
  unfold formatNum
  rw [read_signed p hp]
  unfold rounded
  simp only [decide_eq_true_eq]

/-- **C11** The text carries no superfluous character; a negative zero, or a negative
number that rounds to zero, is written `0`. -/
theorem format_neat (p : Nat) (hp : p ≠ 0) (x : ℚ) :
    Neat (formatNum p x) ∧ formatSigned p true 0 = ['0'] ∧ (Rounded p x 0 → formatNum p x = ['0']) := by
  refine ⟨neat_signed p hp _ _, ?_, ?_⟩
  · rw [formatSigned_eq p hp]
    have : roundEven ((0 : ℚ) * 10 ^ p) = 0 := by simp [roundEven]
    rw [this]
    simp [ decPart, decimal, decimalN, digit]
  · intro h
    have h0 := h.unique (rounded_spec p x)
    have hm : roundEven (|x| * 10 ^ p) = 0 := by
      have h10 : (10 : ℚ) ^ p ≠ 0 := by positivity
      unfold rounded at h0
      generalize roundEven (|x| * 10 ^ p) = m at *
      have h1 := h0.symm
      split at h1 <;> simpa [h10] using h1
    unfold formatNum
    rw [formatSigned_eq p hp, hm]
    simp [decPart, decimal, decimalN, digit]

/-- **C11** Two numbers have the same text exactly when they round to the same number. -/
theorem format_eq_iff (p : Nat) (hp : p ≠ 0) (x y r s : ℚ) (hx : Rounded p x r) (hy : Rounded p y s) :
    formatNum p x = formatNum p y ↔ r = s := by
  constructor
  · intro h
    obtain ⟨r', h1, h2⟩ := format_read p hp x
    obtain ⟨s', h3, h4⟩ := format_read p hp y
    rw [h, h3] at h1
    cases h1
    rw [hx.unique h2, hy.unique h4]
  · intro h
    have e : rounded p x = rounded p y := by
      rw [(rounded_spec p x).unique hx, (rounded_spec p y).unique hy, h]
    have h10 : (0 : ℚ) < 10 ^ p := by positivity
    unfold formatNum
    rw [formatSigned_eq p hp, formatSigned_eq p hp]
    unfold rounded at e
    have pos : ∀ n : Nat, (0 : ℚ) ≤ (n : ℚ) / 10 ^ p := fun n => by positivity
    have inj : ∀ n k : Nat, (n : ℚ) / 10 ^ p = (k : ℚ) / 10 ^ p → n = k := fun n k h => by
      have := (div_left_inj' h10.ne').mp h
      exact_mod_cast this
    have zero : ∀ n : Nat, (n : ℚ) / 10 ^ p = 0 → n = 0 := fun n h => by
      apply inj n 0; simp [h]
    generalize roundEven (|x| * 10 ^ p) = m at *
    generalize roundEven (|y| * 10 ^ p) = n at *
    simp only [decide_eq_true_eq]
    split at e <;> split at e <;> rename_i hx0 hy0
    · have : m = n := inj _ _ (by linarith)
      subst this; simp [hx0, hy0]
    · have a := pos m; have b := pos n
      have : m = 0 := zero _ (by linarith)
      have : n = 0 := zero _ (by linarith)
      subst m n; simp
    · have a := pos m; have b := pos n
      have : m = 0 := zero _ (by linarith)
      have : n = 0 := zero _ (by linarith)
      subst m n; simp
    · have : m = n := inj _ _ (by linarith)
      subst this; simp [hx0, hy0]

/-- A number with at most `p` decimals rounds to itself. -/
theorem rounded_self (p : Nat) (k : ℤ) : Rounded p ((k : ℚ) / 10 ^ p) ((k : ℚ) / 10 ^ p) := by
  have h10 : (10 : ℚ) ^ p ≠ 0 := by positivity
  have : (k : ℚ) / 10 ^ p * 10 ^ p - k = 0 := by field_simp; simp
  refine ⟨k, rfl, ?_, ?_⟩
  · rw [this]; norm_num
  · rw [this]; norm_num

/-- The documented requirement `precision > 0` is needed: with no decimals 100 is
written `1`. -/
theorem format_precision_zero : formatNum 0 100 = ['1'] := by decide +kernel

/-- Non-trivial instances. -/
example : formatNum 6 (-5/2) = "-2.5".toList ∧ formatNum 6 (1/3) = "0.333333".toList ∧ formatNum 6 100 = "100".toList ∧
    formatNum 6 (-1/10000000) = "0".toList := by decide +kernel

end SvgPy.Formatter
