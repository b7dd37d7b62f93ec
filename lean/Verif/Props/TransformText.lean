import Verif.Model.TransformText
import Verif.Lemmas.NumText
import Verif.Lemmas.PyStr
import Verif.Props.Transform

/-! Properties C10 and C59: transform lists as text. -/

set_option linter.unusedSimpArgs false

namespace SvgPy.TransformText

open PyStr SvgPy.Transform NumText Formatter

/-! ### Specification -/

/-- The items are of one kind and the numbers of the second are those of the first
rounded to `p` decimals. -/
inductive ItemRounded (p : Nat) : Item ℚ → Item ℚ → Prop
  | matrix {a b c d e f a' b' c' d' e' f'} : Rounded p a a' → Rounded p b b' → Rounded p c c' → Rounded p d d' →
      Rounded p e e' → Rounded p f f' → ItemRounded p (.matrix a b c d e f) (.matrix a' b' c' d' e' f')
  | translate {x y x' y'} : Rounded p x x' → Rounded p y y' → ItemRounded p (.translate x y) (.translate x' y')
  | scale {x y x' y'} : Rounded p x x' → Rounded p y y' → ItemRounded p (.scale x y) (.scale x' y')
  | rotate {t x y t' x' y'} : Rounded p t t' → Rounded p x x' → Rounded p y y' →
      ItemRounded p (.rotate t x y) (.rotate t' x' y')
  | skewX {t t'} : Rounded p t t' → ItemRounded p (.skewX t) (.skewX t')
  | skewY {t t'} : Rounded p t t' → ItemRounded p (.skewY t) (.skewY t')

/-- A delimiter: white space and commas (an empty one stands for the default). -/
def Delim (d : Str) : Prop := ∀ c ∈ d, isSpace c = true ∨ c = ','

/-- The text between two functions: white space with at most one comma, not empty. -/
def Between (s : Str) : Prop :=
  (s ≠ [] ∧ ∀ c ∈ s, isSpace c = true) ∨
  ∃ a b, s = a ++ ',' :: b ∧ (∀ c ∈ a, isSpace c = true) ∧ ∀ c ∈ b, isSpace c = true

/-- A transform function as written: name, white space and the numbers in parentheses. -/
structure Call where
  fn : Fn
  gap : Str
  pre : Str
  first : Tok
  rest : List (Str × Tok)
  post : Str

/-- What is between the parentheses. -/
def Call.values (c : Call) : Str := c.pre ++ (seqText c.first c.rest ++ c.post)

/-- The numbers of a call. -/
def Call.numbers (c : Call) : List ℚ := c.first.value :: c.rest.map (·.2.value)

/-- The text of a call. -/
def Call.text (c : Call) : Str := fnName c.fn ++ (c.gap ++ ('(' :: (c.values ++ [')'])))

/-- The call follows the grammar: white space around the numbers, and between numbers
white space or commas; nothing is needed where the next number cannot continue the
one before, as in `1-2`. -/
def Call.Ok (c : Call) : Prop :=
  (∀ x ∈ c.gap, isSpace x = true) ∧ (∀ x ∈ c.pre, isSpace x = true) ∧ (∀ x ∈ c.post, isSpace x = true) ∧
  SeqOk c.first c.rest ∧ ∀ x ∈ c.rest, Delim x.1

/-- Calls with text between them. -/
def callsText : Call → List (Str × Call) → Str
  | c, [] => c.text
  | c, (s, d) :: r => c.text ++ (s ++ callsText d r)

/-- What the calls stand for: each is set up from its numbers; the first with a wrong number
of numbers raises. -/
def callsMean : List Call → Py (List (Item ℚ))
  | [] => .ok []
  | c :: r => match mkItem c.fn c.numbers with
    | .error e => .error e
    | .ok t => match callsMean r with
      | .error e => .error e
      | .ok ts => .ok (t :: ts)

/-! ### Finding calls -/

theorem after_append (a s : Str) : after a (a ++ s) = some s := by
  induction a with
  | nil => rfl
  | cons c a ih => simp [after, ih]

theorem after_some (a s r : Str) (h : after a s = some r) : s = a ++ r := by
  induction a generalizing s with
  | nil => simp [after] at h; simp [h]
  | cons c a ih =>
    cases s with
    | nil => simp [after] at h
    | cons d s =>
      simp only [after] at h
      split at h
      · rename_i e; rw [e, List.cons_append, ih s h]
      · cases h

theorem after_fn (f g : Fn) (h : f ≠ g) (s : Str) : after (fnName f) (fnName g ++ s) = none := by
  cases f <;> cases g <;> first | exact absurd rfl h | simp [fnName, after]

theorem fnAt_call (f : Fn) (s : Str) : fnAt (fnName f ++ s) = fnAt1 (fnName f ++ s) f := by
  have h : ∀ g, g ≠ f → fnAt1 (fnName f ++ s) g = none := fun g hg => by simp [fnAt1, after_fn g f hg]
  unfold fnAt fns
  cases f <;> simp [List.findSome?, h] <;>
    · generalize fnAt1 _ _ = x
      cases x <;> rfl

theorem fnAt_skip (c : Char) (s : Str) (h : isSpace c = true ∨ c = ',') : fnAt (c :: s) = none := by
  have h' : c ≠ 'm' ∧ c ≠ 't' ∧ c ≠ 's' ∧ c ≠ 'r' := by
    refine ⟨?_, ?_, ?_, ?_⟩ <;> · rintro rfl; revert h; decide
  have : ∀ f, fnAt1 (c :: s) f = none := by
    intro f
    obtain ⟨h1, h2, h3, h4⟩ := h'
    cases f <;> simp [fnAt1, fnName, after, h1.symm, h2.symm, h3.symm, h4.symm]
  simp [fnAt, fns, List.findSome?, this]

theorem dropSpace_le (s : Str) : (s.dropWhile isSpace).length ≤ s.length := (List.dropWhile_sublist _).length_le

theorem fnAt_shorter (s : Str) (f : Fn) (v r : Str) (h : fnAt s = some (f, v, r)) : r.length < s.length := by
  unfold fnAt at h
  obtain ⟨g, -, hg⟩ := List.exists_of_findSome?_eq_some h
  unfold fnAt1 at hg
  cases ha : after (fnName g) s with
  | none => simp [ha] at hg
  | some r1 =>
    have e := after_some _ _ _ ha
    have hn : 0 < (fnName g).length := by cases g <;> simp [fnName]
    have hl : s.length = (fnName g).length + r1.length := by rw [e]; simp
    simp only [ha] at hg
    cases hb : argsAt r1 with
    | none => simp [hb] at hg
    | some x =>
      obtain ⟨v', r2⟩ := x
      simp only [hb, Option.some.injEq, Prod.mk.injEq] at hg
      have : r2.length ≤ r1.length := by
        unfold argsAt at hb
        have h1 := dropSpace_le r1
        cases hd : r1.dropWhile isSpace with
        | nil => simp [hd] at hb
        | cons c r' =>
          rw [hd] at h1
          simp only [List.length_cons] at h1
          simp only [hd] at hb
          split at hb
          · cases hb
          · split at hb
            · cases hb
            · have h2 : (r'.dropWhile (· ≠ ')')).length ≤ r'.length := (List.dropWhile_sublist _).length_le
              cases hd2 : r'.dropWhile (· ≠ ')') with
              | nil => rw [hd2] at hb; cases hb
              | cons x r'' =>
                rw [hd2] at h2
                simp only [List.length_cons] at h2
                simp only [hd2] at hb
                cases hs : sepAt r'' with
                | none => simp [hs] at hb
                | some r3 =>
                  simp only [hs, Option.some.injEq, Prod.mk.injEq] at hb
                  have h3 : r3.length ≤ r''.length := by
                    cases r'' with
                    | nil => simp [sepAt] at hs; simp [hs]
                    | cons y ys =>
                      have := dropSpace_le ys
                      simp only [sepAt] at hs
                      split at hs
                      · simp only [Option.some.injEq] at hs; rw [← hs]; simp; omega
                      · split at hs
                        · simp only [Option.some.injEq] at hs; rw [← hs]; simp; omega
                        · cases hs
                  rw [← hb.2]; omega
      rw [← hg.2.2]; omega

theorem findN_enough (k l : Nat) (s : Str) (hk : s.length < k) (hl : s.length < l) : findN k s = findN l s := by
  induction k generalizing l s with
  | zero => omega
  | succ k ih =>
    cases l with
    | zero => omega
    | succ l =>
      cases s with
      | nil => rfl
      | cons c s =>
        simp only [findN]
        cases hn : fnAt (c :: s) with
        | none =>
          simp only [List.length_cons] at hk hl
          exact ih _ _ (by omega) (by omega)
        | some x =>
          obtain ⟨f, v, r⟩ := x
          have := fnAt_shorter _ _ _ _ hn
          simp only
          rw [ih l r (by omega) (by omega)]

theorem find_some (s : Str) (f : Fn) (v r : Str) (h : fnAt s = some (f, v, r)) : find s = (f, v) :: find r := by
  cases s with
  | nil => have := fnAt_shorter _ _ _ _ h; simp at this
  | cons c s =>
    have h1 := fnAt_shorter _ _ _ _ h
    unfold find
    rw [show findN ((c :: s).length + 1) (c :: s) = (f, v) :: findN (c :: s).length r by simp only [findN, h]]
    rw [findN_enough _ (r.length + 1) r h1 (by omega)]

theorem find_none (c : Char) (s : Str) (h : fnAt (c :: s) = none) : find (c :: s) = find s := by
  unfold find
  rw [show findN ((c :: s).length + 1) (c :: s) = findN (c :: s).length s by simp only [findN, h]]
  rfl

theorem find_skip (a s : Str) (h : ∀ c ∈ a, isSpace c = true ∨ c = ',') : find (a ++ s) = find s := by
  induction a with
  | nil => rfl
  | cons c a ih =>
    rw [List.cons_append, find_none _ _ (fnAt_skip c _ (h c (by simp)))]
    exact ih fun c hc => h c (by simp [hc])

theorem find_dropSpace (s : Str) : find (s.dropWhile isSpace) = find s := by
  induction s with
  | nil => rfl
  | cons c s ih =>
    by_cases hc : isSpace c = true
    · rw [List.dropWhile_cons_of_pos hc, ih, find_none _ _ (fnAt_skip c s (.inl hc))]
    · rw [List.dropWhile_cons_of_neg hc]

theorem argsAt_call (gap v r : Str) (hg : ∀ x ∈ gap, isSpace x = true) (hv : v ≠ []) (hp : ')' ∉ v) :
    argsAt (gap ++ ('(' :: (v ++ (')' :: r)))) = match sepAt r with
      | none => none
      | some r3 => some (v, r3) := by
  have h1 : (gap ++ ('(' :: (v ++ (')' :: r)))).dropWhile isSpace = '(' :: (v ++ (')' :: r)) := by
    rw [List.dropWhile_append_of_pos hg]
    rw [List.dropWhile_cons_of_neg (by decide)]
  have hv' : ∀ c ∈ v, (decide (c ≠ ')')) = true := fun c hc => by
    simp only [ne_eq, decide_not, Bool.not_eq_eq_eq_not, Bool.not_true, decide_eq_false_iff_not]
    rintro rfl; exact hp hc
  have h2 : (v ++ (')' :: r)).takeWhile (· ≠ ')') = v := by
    rw [List.takeWhile_append_of_pos hv']; simp
  have h3 : (v ++ (')' :: r)).dropWhile (· ≠ ')') = ')' :: r := by
    rw [List.dropWhile_append_of_pos hv']; simp
  unfold argsAt
  simp only [h1, ne_eq, not_true_eq_false, if_false]
  rw [h2, h3]
  simp only [hv, if_false]
  cases sepAt r <;> rfl

theorem sepAt_between (s r : Str) (h : Between s) : ∃ r', sepAt (s ++ r) = some r' ∧ find r' = find r := by
  rcases h with ⟨hne, h⟩ | ⟨a, b, rfl, ha, hb⟩
  · cases s with
    | nil => exact absurd rfl hne
    | cons c s =>
      refine ⟨(s ++ r).dropWhile isSpace, by simp [sepAt, h c (by simp)], ?_⟩
      rw [find_dropSpace, find_skip _ _ fun c hc => .inl (h c (by simp [hc]))]
  · cases a with
    | nil =>
      refine ⟨(b ++ r).dropWhile isSpace, by simp [sepAt], ?_⟩
      rw [find_dropSpace, find_skip _ _ fun c hc => .inl (hb c hc)]
    | cons c a =>
      refine ⟨(a ++ ',' :: b ++ r).dropWhile isSpace, by simp [sepAt, ha c (by simp)], ?_⟩
      rw [find_dropSpace, find_skip]
      intro x hx
      simp only [List.mem_append, List.mem_cons] at hx
      rcases hx with hx | rfl | hx
      · exact .inl (ha x (by simp [hx]))
      · exact .inr rfl
      · exact .inl (hb x hx)

theorem delim_paren (d : Str) (h : Delim d) : ')' ∉ d := by
  intro hc
  rcases h _ hc with h | h
  · revert h; decide
  · cases h

theorem call_values (c : Call) (hc : c.Ok) : c.values ≠ [] ∧ ')' ∉ c.values ∧ nums (strip c.values) = c.numbers := by
  obtain ⟨-, h1, h2, h3, h4⟩ := hc
  have sp : ∀ s : Str, (∀ x ∈ s, isSpace x = true) → ')' ∉ s := fun s hs hc => by
    have := hs _ hc; revert this; decide
  have nc : ∀ t : Tok, t.Ok → ')' ∉ t.text := fun t ht hc => by
    have := tok_chars t ht _ hc
    revert this; unfold NumChar; decide
  have sq : ∀ l t, SeqOk t l → (∀ x ∈ l, Delim x.1) → ')' ∉ seqText t l := by
    intro l
    induction l with
    | nil => intro t ht _; exact nc t ht
    | cons x l ih =>
      intro t ht hd
      obtain ⟨s, u⟩ := x
      simp only [seqText, List.mem_append, not_or]
      exact ⟨nc t ht.1, delim_paren s (hd (s, u) (by simp)), ih u ht.2.2.2 fun y hy => hd y (by simp [hy])⟩
  refine ⟨?_, ?_, ?_⟩
  · obtain ⟨⟨x, r, h, -⟩, -⟩ := seq_ends _ _ h3
    simp [Call.values, h]
  · simp only [Call.values, List.mem_append, not_or]
    exact ⟨sp _ h1, sq _ _ h3 h4, sp _ h2⟩
  · unfold Call.values
    rw [strip_around _ _ _ h1 h2 (seq_trimmed _ _ h3), nums_seq _ _ h3]
    rfl

theorem find_calls (c : Call) (l : List (Str × Call)) (hc : c.Ok) (hl : ∀ x ∈ l, Between x.1 ∧ x.2.Ok) :
    find (callsText c l) = (c :: l.map (·.2)).map fun c => (c.fn, c.values) := by
  induction l generalizing c with
  | nil =>
    have h : fnAt c.text = some (c.fn, c.values, []) := by
      unfold Call.text
      rw [fnAt_call]
      unfold fnAt1
      have := argsAt_call c.gap c.values [] hc.1 (call_values c hc).1 (call_values c hc).2.1
      rw [after_append]
      simp only [this, sepAt]
    simp only [callsText, find_some _ _ _ _ h]
    rfl
  | cons x l ih =>
    obtain ⟨s, d⟩ := x
    have hx := hl (s, d) (by simp)
    obtain ⟨r', h1, h2⟩ := sepAt_between s (callsText d l) hx.1
    have h : fnAt (c.text ++ (s ++ callsText d l)) = some (c.fn, c.values, r') := by
      have e : c.text ++ (s ++ callsText d l) =
          fnName c.fn ++ (c.gap ++ ('(' :: (c.values ++ (')' :: (s ++ callsText d l))))) := by simp [Call.text]
      rw [e, fnAt_call]
      unfold fnAt1
      rw [after_append]
      simp only [argsAt_call c.gap c.values _ hc.1 (call_values c hc).1 (call_values c hc).2.1, h1]
    simp only [callsText, find_some _ _ _ _ h, h2, ih d hx.2 (fun y hy => hl y (by simp [hy])), List.map_cons]

theorem callsText_trim (c : Call) (l : List (Str × Call)) :
    (∃ x r, callsText c l = x :: r ∧ isSpace x = false) ∧ (callsText c l).getLast? = some ')' := by
  constructor
  · have : ∃ x r, c.text = x :: r ∧ isSpace x = false := by
      unfold Call.text
      cases c.fn <;> exact ⟨_, _, rfl, by decide⟩
    obtain ⟨x, r, h1, h2⟩ := this
    cases l with
    | nil => exact ⟨x, r, h1, h2⟩
    | cons y l => exact ⟨x, r ++ (y.1 ++ callsText y.2 l), by simp [callsText, h1], h2⟩
  · induction l generalizing c with
    | nil =>
      have : callsText c [] = (fnName c.fn ++ (c.gap ++ ('(' :: c.values))) ++ [')'] := by simp [callsText, Call.text]
      rw [this, List.getLast?_concat]
    | cons y l ih =>
      simp only [callsText, List.getLast?_append, ih]
      rfl

theorem strip_calls (c : Call) (l : List (Str × Call)) : strip (callsText c l) = callsText c l := by
  obtain ⟨⟨x, r, h1, h2⟩, h3⟩ := callsText_trim c l
  apply strip_of_trimmed
  constructor
  · intro y hy; rw [h1] at hy; simp at hy; rw [← hy]; exact h2
  · intro y hy; rw [h3] at hy; cases hy; decide

theorem parseAll_calls (l : List Call) (h : ∀ c ∈ l, c.Ok) :
    parseAll (l.map fun c => (c.fn, c.values)) = callsMean l := by
  induction l with
  | nil => rfl
  | cons c l ih =>
    have ih := ih fun d hd => h d (by simp [hd])
    simp only [List.map_cons, parseAll, callsMean, (call_values c (h c (by simp))).2.2, ih]
    cases mkItem c.fn c.numbers with
    | error e => rfl
    | ok t => cases callsMean l <;> rfl

/-- **C59** A text of transform functions with white space or a comma between them is
read function by function, with the numbers written, in order. -/
theorem parse_calls (c : Call) (l : List (Str × Call)) (hc : c.Ok) (hl : ∀ x ∈ l, Between x.1 ∧ x.2.Ok) (a b : Str)
    (ha : ∀ x ∈ a, isSpace x = true) (hb : ∀ x ∈ b, isSpace x = true) :
    parse (a ++ (callsText c l ++ b)) = callsMean (c :: l.map (·.2)) := by
  have ht : Trimmed (callsText c l) := by
    have := trimmed_strip (callsText c l)
    rwa [strip_calls] at this
  unfold parse
  rw [strip_around a _ b ha hb ht, find_calls c l hc hl, parseAll_calls]
  intro d hd
  simp only [List.mem_cons, List.mem_map] at hd
  rcases hd with rfl | ⟨x, hx, rfl⟩
  · exact hc
  · exact (hl x hx).2

/-- **C59 fails** for functions with nothing between them: all but the last are dropped
without an error. -/
theorem parse_adjacent_violated : parse "translate(10)scale(2)".toList = .ok [.scale 2 2] := by
  decide +kernel

/-- **C59 fails** for malformed texts: what is not understood is dropped without an error. -/
theorem parse_garbage_violated :
    parse "rotate(30) foo(1) scale(2".toList = .ok [.rotate 30 0 0] ∧ parse "scale(2, x, 3)".toList = .ok [.scale 2 3] := by
  decide +kernel

/-! ### Round trip -/

theorem shorten_nonempty (f : Fn) (l : List Str) (h : l ≠ []) : shorten f l ≠ [] := by
  unfold shorten
  split
  · split <;> simp
  · split <;> simp
  · split <;> simp
  · exact h

/-- The call written for a list of number tokens. -/
def mkCall (f : Fn) (d : Str) (t : Tok) (ts : List Tok) : Call := ⟨f, [], [], t, ts.map fun u => (d, u), []⟩

theorem delim_neutral (d : Str) (h : Delim d) : ∀ c ∈ d, Neutral c := by
  intro c hc
  rcases h c hc with h | rfl
  · exact neutral_space c h
  · exact ⟨by decide, by decide, by decide, by decide, by decide, by decide⟩

theorem mkCall_ok (f : Fn) (d : Str) (hne : d ≠ []) (hd : Delim d) (t : Tok) (ts : List Tok) (h : ∀ u ∈ t :: ts, u.Ok) :
    (mkCall f d t ts).Ok := by
  refine ⟨by simp [mkCall], by simp [mkCall], by simp [mkCall], ?_, ?_⟩
  · exact join_seqOk d hne (delim_neutral d hd) t ts h
  · intro x hx
    simp only [mkCall, List.mem_map] at hx
    obtain ⟨u, -, rfl⟩ := hx
    exact hd

theorem mkCall_text (f : Fn) (d : Str) (t : Tok) (ts : List Tok) :
    (mkCall f d t ts).text = fnName f ++ '(' :: (join d ((t :: ts).map Tok.text) ++ [')']) := by
  rw [join_seq]
  simp [mkCall, Call.text, Call.values]

theorem mkCall_numbers (f : Fn) (d : Str) (t : Tok) (ts : List Tok) :
    (mkCall f d t ts).numbers = (t :: ts).map Tok.value := by
  simp [mkCall, Call.numbers]

/-- Rounding the numbers of an item. -/
def roundItem (p : Nat) : Item ℚ → Item ℚ
  | .unknown => .unknown
  | .matrix a b c d e f => .matrix (rounded p a) (rounded p b) (rounded p c) (rounded p d) (rounded p e) (rounded p f)
  | .translate x y => .translate (rounded p x) (rounded p y)
  | .scale x y => .scale (rounded p x) (rounded p y)
  | .rotate t x y => .rotate (rounded p t) (rounded p x) (rounded p y)
  | .skewX t => .skewX (rounded p t)
  | .skewY t => .skewY (rounded p t)

theorem roundItem_spec (p : Nat) (t : Item ℚ) (h : t ≠ .unknown) : ItemRounded p t (roundItem p t) := by
  cases t with
  | unknown => exact absurd rfl h
  | matrix => constructor <;> exact rounded_spec _ _
  | translate => constructor <;> exact rounded_spec _ _
  | scale => constructor <;> exact rounded_spec _ _
  | rotate => constructor <;> exact rounded_spec _ _
  | skewX => constructor; exact rounded_spec _ _
  | skewY => constructor; exact rounded_spec _ _

theorem format_zero (p : Nat) (hp : p ≠ 0) (x : ℚ) : formatNum p x = ['0'] ↔ rounded p x = 0 := by
  constructor
  · intro h
    have h0 := (format_neat p hp 0).2.2 (by simpa using rounded_self p 0)
    have := (format_eq_iff p hp x 0 _ _ (rounded_spec p x) (by simpa using rounded_self p 0)).mp (h.trans h0.symm)
    exact this
  · intro h
    exact (format_neat p hp x).2.2 (h ▸ rounded_spec p x)

/-- Each item is written as a call that means the rounded item. -/
theorem item_call (p : Nat) (hp : p ≠ 0) (delim : Str) (hd : Delim delim) (t : Item ℚ) (ht : t ≠ .unknown) :
    ∃ c : Call, c.Ok ∧ itemText p delim t = c.text ∧ mkItem c.fn c.numbers = .ok (roundItem p t) := by
  generalize he : (if delim = [] then [',', ' '] else delim) = d
  have hne : d ≠ [] := by
    rw [← he]; split
    · simp
    · assumption
  have hdd : Delim d := by
    rw [← he]; split
    · intro c hc
      simp only [List.mem_cons, List.not_mem_nil, or_false] at hc
      rcases hc with rfl | rfl
      · exact .inr rfl
      · exact .inl (by decide)
    · exact hd
  choose tk h1 h2 h3 _ _ using format_tok p hp
  have ok : ∀ (f : Fn) (x : ℚ) (xs : List ℚ), (mkCall f d (tk x) (xs.map tk)).Ok := fun f x xs =>
    mkCall_ok f d hne hdd _ _ (by
      intro u hu
      simp only [List.mem_cons, List.mem_map] at hu
      rcases hu with rfl | ⟨y, -, rfl⟩ <;> exact h1 _)
  have tx : ∀ (f : Fn) (x : ℚ) (xs : List ℚ), (mkCall f d (tk x) (xs.map tk)).text =
      fnName f ++ '(' :: (join d ((x :: xs).map (formatNum p)) ++ [')']) := fun f x xs => by
    rw [mkCall_text]
    simp only [List.map_cons, List.map_map, h2]
    have : (Tok.text ∘ tk) = formatNum p := by funext y; exact h2 y
    rw [this]
  have nb : ∀ (f : Fn) (x : ℚ) (xs : List ℚ), (mkCall f d (tk x) (xs.map tk)).numbers = (x :: xs).map (rounded p) :=
    fun f x xs => by
      rw [mkCall_numbers]
      simp only [List.map_cons, List.map_map, h3]
      have : (Tok.value ∘ tk) = rounded p := by funext y; exact h3 y
      rw [this]
  cases t with
  | unknown => exact absurd rfl ht
  | matrix a b c' d' e f =>
    refine ⟨mkCall .matrix d (tk a) ([b, c', d', e, f].map tk), ok .., ?_, ?_⟩
    · rw [tx]; simp only [itemText, parts, he, shorten, formatSeq]
    · rw [nb]; rfl
  | translate x y =>
    by_cases hy : rounded p y = 0
    · refine ⟨mkCall .translate d (tk x) ([].map tk), ok .., ?_, ?_⟩
      · rw [tx]; simp only [itemText, parts, he, shorten, formatSeq, List.map_cons, List.map_nil,
          (format_zero p hp y).mpr hy, if_true]
      · rw [nb]; simp [mkCall, mkItem, roundItem, hy]
    · refine ⟨mkCall .translate d (tk x) ([y].map tk), ok .., ?_, ?_⟩
      · rw [tx]; simp only [itemText, parts, he, shorten, formatSeq, List.map_cons, List.map_nil]
        rw [if_neg (fun h => hy ((format_zero p hp y).mp h))]
      · rw [nb]; rfl
  | scale x y =>
    by_cases hy : rounded p x = rounded p y
    · refine ⟨mkCall .scale d (tk x) ([].map tk), ok .., ?_, ?_⟩
      · rw [tx]; simp only [itemText, parts, he, shorten, formatSeq, List.map_cons, List.map_nil]
        rw [if_pos ((format_eq_iff p hp x y _ _ (rounded_spec p x) (rounded_spec p y)).mpr hy)]
      · rw [nb]; simp [mkCall, mkItem, roundItem, hy]
    · refine ⟨mkCall .scale d (tk x) ([y].map tk), ok .., ?_, ?_⟩
      · rw [tx]; simp only [itemText, parts, he, shorten, formatSeq, List.map_cons, List.map_nil]
        rw [if_neg (fun h => hy ((format_eq_iff p hp x y _ _ (rounded_spec p x) (rounded_spec p y)).mp h))]
      · rw [nb]; rfl
  | rotate a x y =>
    by_cases hy : rounded p x = 0 ∧ rounded p y = 0
    · refine ⟨mkCall .rotate d (tk a) ([].map tk), ok .., ?_, ?_⟩
      · rw [tx]; simp only [itemText, parts, he, shorten, formatSeq, List.map_cons, List.map_nil,
          (format_zero p hp x).mpr hy.1, (format_zero p hp y).mpr hy.2, and_self, if_true]
      · rw [nb]; simp [mkCall, mkItem, roundItem, hy]
    · refine ⟨mkCall .rotate d (tk a) ([x, y].map tk), ok .., ?_, ?_⟩
      · rw [tx]; simp only [itemText, parts, he, shorten, formatSeq, List.map_cons, List.map_nil]
        rw [if_neg (fun h => hy ⟨(format_zero p hp x).mp h.1, (format_zero p hp y).mp h.2⟩)]
      · rw [nb]; rfl
  | skewX a =>
    refine ⟨mkCall .skewX d (tk a) ([].map tk), ok .., ?_, ?_⟩
    · rw [tx]; simp only [itemText, parts, he, shorten, formatSeq]
    · rw [nb]; rfl
  | skewY a =>
    refine ⟨mkCall .skewY d (tk a) ([].map tk), ok .., ?_, ?_⟩
    · rw [tx]; simp only [itemText, parts, he, shorten, formatSeq]
    · rw [nb]; rfl

theorem join_calls (c : Call) (l : List Call) :
    join [' '] ((c :: l).map Call.text) = callsText c (l.map fun d => ([' '], d)) := by
  induction l generalizing c with
  | nil => rfl
  | cons d l ih =>
    have := ih d
    simp only [List.map_cons, join, callsText] at this ⊢
    rw [this, List.append_assoc]

theorem parse_listText (p : Nat) (hp : p ≠ 0) (delim : Str) (hd : Delim delim) (l : List (Item ℚ))
    (h : Item.unknown ∉ l) : parse (listText p delim l) = .ok (l.map (roundItem p)) := by
  have key : ∀ l : List (Item ℚ), Item.unknown ∉ l → ∃ cs : List Call, (∀ c ∈ cs, c.Ok) ∧
      l.map (itemText p delim) = cs.map Call.text ∧ callsMean cs = .ok (l.map (roundItem p)) := by
    intro l
    induction l with
    | nil => intro _; exact ⟨[], by simp, rfl, rfl⟩
    | cons t l ih =>
      intro h
      simp only [List.mem_cons, not_or] at h
      obtain ⟨cs, h1, h2, h3⟩ := ih h.2
      obtain ⟨c, h4, h5, h6⟩ := item_call p hp delim hd t (fun e => h.1 e.symm)
      refine ⟨c :: cs, ?_, ?_, ?_⟩
      · intro d hd
        simp only [List.mem_cons] at hd
        rcases hd with rfl | hd
        · exact h4
        · exact h1 d hd
      · simp [h2, h5]
      · simp only [callsMean, h6, h3, List.map_cons]
  obtain ⟨cs, h1, h2, h3⟩ := key l h
  unfold listText
  rw [h2]
  cases cs with
  | nil =>
    simp only [List.map_nil, List.map_eq_nil_iff] at h2
    subst h2
    rfl
  | cons c cs =>
    rw [join_calls]
    have := parse_calls c (cs.map fun d => ([' '], d)) (h1 c (by simp)) (by
      intro x hx
      simp only [List.mem_map] at hx
      obtain ⟨d, hd, rfl⟩ := hx
      exact ⟨.inl ⟨by simp, by simp; decide⟩, h1 d (by simp [hd])⟩) [] [] (by simp) (by simp)
    simp only [List.nil_append, List.append_nil, List.map_map] at this
    rw [this]
    have e : (cs.map ((fun x => x.2) ∘ fun d => (([' '] : Str), d))) = cs := by
      simp [Function.comp_def]
    rw [e, h3]

/-- **C10** Printing a transform list and parsing the text gives a list of items of the
same kinds whose numbers are rounded to the precision. -/
theorem roundtrip_rounded (p : Nat) (hp : p ≠ 0) (delim : Str) (hd : Delim delim) (l : List (Item ℚ))
    (h : Item.unknown ∉ l) : ∃ l', parse (listText p delim l) = .ok l' ∧ List.Forall₂ (ItemRounded p) l l' := by
  refine ⟨_, parse_listText p hp delim hd l h, ?_⟩
  clear hd
  induction l with
  | nil => exact .nil
  | cons t l ih =>
    simp only [List.mem_cons, not_or] at h
    exact .cons (roundItem_spec p t fun e => h.1 e.symm) (ih h.2)

/-- The numbers as real numbers. -/
noncomputable def toReal : Item ℚ → Item ℝ
  | .unknown => .unknown
  | .matrix a b c d e f => .matrix a b c d e f
  | .translate x y => .translate x y
  | .scale x y => .scale x y
  | .rotate t x y => .rotate t x y
  | .skewX t => .skewX t
  | .skewY t => .skewY t

theorem itemRounded_unique (p : Nat) (t u v : Item ℚ) (h : ItemRounded p t u) (h' : ItemRounded p t v) : u = v := by
  cases h <;> cases h' <;> congr 1 <;> exact Rounded.unique ‹_› ‹_›

/-- **C10** If the numbers have no more decimals than the precision, the parsed list is
the same list, and so has the same matrix. -/
theorem roundtrip_exact (p : Nat) (hp : p ≠ 0) (delim : Str) (hd : Delim delim) (l : List (Item ℚ))
    (h : ∀ t ∈ l, ItemRounded p t t) : ∃ l', parse (listText p delim l) = .ok l' ∧ l' = l ∧
      listMatrix (l'.map toReal) = listMatrix (l.map toReal) ∧
      ∀ pt, actAll (l'.map toReal) pt = actAll (l.map toReal) pt := by
  have hu : Item.unknown ∉ l := fun hm => by have := h _ hm; cases this
  obtain ⟨l', h1, h2⟩ := roundtrip_rounded p hp delim hd l hu
  have e : l' = l := by
    clear h1 hu
    induction h2 with
    | nil => rfl
    | cons a b ih =>
      rw [ih fun t ht => h t (by simp [ht]), itemRounded_unique p _ _ _ a (h _ (by simp))]
  exact ⟨l', h1, e, by rw [e], by rw [e]; simp⟩

/-- Non-trivial instances. -/
example : listText 6 [] [.rotate 30 0 0, .scale 2 2, .translate (5/2) (-1)] = "rotate(30) scale(2) translate(2.5, -1)".toList ∧
    parse "rotate(30) scale(2) translate(2.5, -1)".toList = .ok [.rotate 30 0 0, .scale 2 2, .translate (5/2) (-1)] := by
  decide +kernel

example : ∀ t ∈ ([.rotate 30 0 0, .scale 2 2] : List (Item ℚ)), ItemRounded 6 t t := by
  have h : ∀ n : ℤ, Rounded 6 (n : ℚ) (n : ℚ) := fun n => by
    have := rounded_self 6 (n * 10 ^ 6)
    have e : (((n * 10 ^ 6 : ℤ) : ℚ) / 10 ^ 6) = n := by push_cast; ring
    rwa [e] at this
  intro t ht
  simp only [List.mem_cons, List.not_mem_nil, or_false] at ht
  rcases ht with rfl | rfl
  · exact .rotate (by simpa using h 30) (by simpa using h 0) (by simpa using h 0)
  · exact .scale (by simpa using h 2) (by simpa using h 2)

end SvgPy.TransformText
