import Verif.Model.PathText
import Verif.Lemmas.NumText
import Verif.Lemmas.PyStr

/-! Properties C12 and C60: path data as text. -/

set_option linter.unusedSimpArgs false

namespace SvgPy.PathText

open PyStr Path NumText Formatter

/-! ### Specification -/

/-- White space. -/
def Blank (s : Str) : Prop := ∀ c ∈ s, isSpace c = true

/-- White space and commas. -/
def Delim (d : Str) : Prop := ∀ c ∈ d, isSpace c = true ∨ c = ','

/-- The capital letter of each command, as in the SVG grammar. -/
def capital : Kind → Char
  | .M => 'M' | .Z => 'Z' | .L => 'L' | .H => 'H' | .V => 'V' | .C => 'C' | .S => 'S' | .Q => 'Q' | .T => 'T'
  | .A => 'A' | .B => 'B'

/-- The letter of a command: small letters are relative. -/
def symbol (k : Kind) (rel : Bool) : Char := if rel then (capital k).toLower else capital k

/-- The numbers of a segment in the order of the SVG grammar. -/
def numbers : Seg ℚ → List ℚ
  | .move _ x y => [x, y]
  | .close _ => []
  | .line _ x y => [x, y]
  | .horiz _ x => [x]
  | .vert _ y => [y]
  | .curve _ x1 y1 x2 y2 x y => [x1, y1, x2, y2, x, y]
  | .smooth _ x2 y2 x y => [x2, y2, x, y]
  | .quad _ x1 y1 x y => [x1, y1, x, y]
  | .tsmooth _ x y => [x, y]
  | .arc _ rx ry rot large sweep x y => [rx, ry, rot, large, sweep, x, y]
  | .bearing _ a => [a]

/-- `Written text segs`: a command letter and numbers in any notation, with white space
and commas between them, for one or more segments of that command; or a closing letter. -/
inductive Written : Str → List (Seg ℚ) → Prop
  | close {rel ws} : Blank ws → Written (symbol .Z rel :: ws) [.close rel]
  | draw {k rel segs t l pre post} : k ≠ .Z → segs ≠ [] → (∀ s ∈ segs, s.kind = k ∧ s.rel = rel) →
      SeqOk t l → (∀ x ∈ l, Delim x.1) → t.value :: l.map (·.2.value) = segs.flatMap numbers →
      Blank pre → Blank post → Written (symbol k rel :: (pre ++ (seqText t l ++ post))) segs

/-- `PathWritten text segs`: such commands one after the other; a closing letter that is not
the last command has white space behind it. -/
inductive PathWritten : Str → List (Seg ℚ) → Prop
  | last {w segs} : Written w segs → PathWritten w segs
  | more {w segs text rest} : Written w segs → 2 ≤ w.length → PathWritten text rest → PathWritten (w ++ text) (segs ++ rest)

/-- The segments are of one type and the numbers of the second are those of the first
rounded to `p` decimals. -/
def SegRounded (p : Nat) (s t : Seg ℚ) : Prop :=
  s.kind = t.kind ∧ s.rel = t.rel ∧ List.Forall₂ (Rounded p) (numbers s) (numbers t)

/-- No two closing commands of one case directly after each other. -/
def NoDoubleClose : List (Seg ℚ) → Prop
  | s :: t :: l => ¬ (s.kind = .Z ∧ t.kind = .Z ∧ s.rel = t.rel) ∧ NoDoubleClose (t :: l)
  | _ => True

/-! ### Letters -/

theorem symbol_eq : symbol = letter := by
  funext k r
  cases k <;> cases r <;> decide

theorem numbers_eq : numbers = Seg.values := by
  funext s
  cases s <;> rfl

theorem cmdOf_letter (k : Kind) (r : Bool) : cmdOf (letter k r) = some (k, r) := by
  cases k <;> cases r <;> decide

theorem cmdOf_symbol (k : Kind) (r : Bool) : cmdOf (symbol k r) = some (k, r) := by
  rw [symbol_eq, cmdOf_letter]

theorem notCmd_of (c : Char) (h : cmdOf c = none) : notCmd c = true := by simp [notCmd, h]

theorem numChar_notCmd (c : Char) (h : NumChar c) : notCmd c = true := by
  rcases h with h | rfl | rfl | rfl | rfl | rfl
  · apply notCmd_of
    have hx : ∀ d : Char, isDigit d = false → c ≠ d := by rintro d hd rfl; rw [h] at hd; cases hd
    unfold cmdOf
    repeat rw [if_neg (hx _ (by decide))]
  all_goals decide

theorem space_notCmd (c : Char) (h : isSpace c = true) : notCmd c = true := by
  apply notCmd_of
  have hx : ∀ d : Char, isSpace d = false → c ≠ d := by rintro d hd rfl; rw [h] at hd; cases hd
  unfold cmdOf
  repeat rw [if_neg (hx _ (by decide))]

theorem delim_notCmd (c : Char) (h : isSpace c = true ∨ c = ',') : notCmd c = true := by
  rcases h with h | rfl
  · exact space_notCmd c h
  · decide

theorem seq_notCmd (t : Tok) (l : List (Str × Tok)) (h : SeqOk t l) (hd : ∀ x ∈ l, Delim x.1) :
    ∀ c ∈ seqText t l, notCmd c = true := by
  induction l generalizing t with
  | nil => exact fun c hc => numChar_notCmd c (tok_chars t h c hc)
  | cons x l ih =>
    obtain ⟨s, u⟩ := x
    intro c hc
    simp only [seqText, List.mem_append] at hc
    rcases hc with hc | hc | hc
    · exact numChar_notCmd c (tok_chars t h.1 c hc)
    · exact delim_notCmd c (hd (s, u) (by simp) c hc)
    · exact ih u h.2.2.2 (fun y hy => hd y (by simp [hy])) c hc

/-! ### Finding commands -/

theorem segAt_shorter (s v r : Str) (k : Kind × Bool) (h : segAt s = some (k, v, r)) : r.length < s.length := by
  cases s with
  | nil => cases h
  | cons c s =>
    simp only [segAt] at h
    cases hc : cmdOf c with
    | none => simp [hc] at h
    | some k' =>
      simp only [hc] at h
      split at h
      · cases h
      · simp only [Option.some.injEq, Prod.mk.injEq] at h
        rw [← h.2.2]
        have := (List.dropWhile_sublist (l := s) notCmd).length_le
        simp only [List.length_cons]; omega

theorem findN_enough (m n : Nat) (s : Str) (hm : s.length < m) (hn : s.length < n) : findN m s = findN n s := by
  induction m generalizing n s with
  | zero => omega
  | succ m ih =>
    cases n with
    | zero => omega
    | succ n =>
      cases s with
      | nil => rfl
      | cons c s =>
        simp only [findN]
        cases hx : segAt (c :: s) with
        | none =>
          simp only [List.length_cons] at hm hn
          exact ih _ _ (by omega) (by omega)
        | some x =>
          obtain ⟨k, v, r⟩ := x
          have := segAt_shorter _ _ _ _ hx
          simp only
          rw [ih n r (by omega) (by omega)]

theorem find_some (s v r : Str) (k : Kind × Bool) (h : segAt s = some (k, v, r)) : find s = (k, v) :: find r := by
  cases s with
  | nil => cases h
  | cons c s =>
    have h1 := segAt_shorter _ _ _ _ h
    unfold find
    rw [show findN ((c :: s).length + 1) (c :: s) = (k, v) :: findN (c :: s).length r by simp only [findN, h]]
    rw [findN_enough _ (r.length + 1) r h1 (by omega)]

/-! ### Groups of values -/

theorem values_length (s : Seg ℚ) : s.values.length = arity s.kind := by cases s <;> rfl

theorem mkSeg_values (s : Seg ℚ) : mkSeg s.rel s.kind s.values = some s := by cases s <;> rfl

theorem arity_pos (k : Kind) (h : k ≠ .Z) : arity k ≠ 0 := by cases k <;> simp [arity] at h ⊢

theorem chunkN_flatMap (k : Kind) (rel : Bool) (hk : k ≠ .Z) (segs : List (Seg ℚ))
    (h : ∀ s ∈ segs, s.kind = k ∧ s.rel = rel) (n : Nat) (hn : segs.length < n) :
    chunkN n (k, rel) (segs.flatMap Seg.values) = segs := by
  induction segs generalizing n with
  | nil =>
    cases n with
    | zero => omega
    | succ n => simp [chunkN, Nat.pos_of_ne_zero (arity_pos k hk)]
  | cons s l ih =>
    cases n with
    | zero => omega
    | succ n =>
      obtain ⟨h1, h2⟩ := h s (by simp)
      have hl : s.values.length = arity k := by rw [values_length, h1]
      simp only [List.flatMap_cons, chunkN]
      rw [if_neg]
      · rw [← hl, List.take_left, List.drop_left, ← h1, ← h2, mkSeg_values]
        simp only
        rw [h1, h2, ih (fun t ht => h t (by simp [ht])) n (by simp at hn; omega)]
      · simp only [List.length_append, hl, not_or]
        exact ⟨by omega, arity_pos k hk⟩

theorem flatMap_length (k : Kind) (hk : k ≠ .Z) (segs : List (Seg ℚ)) (h : ∀ s ∈ segs, s.kind = k) :
    segs.length ≤ (segs.flatMap Seg.values).length := by
  induction segs with
  | nil => simp
  | cons s l ih =>
    have := ih fun t ht => h t (by simp [ht])
    have hs := values_length s
    rw [h s (by simp)] at hs
    have := arity_pos k hk
    simp only [List.flatMap_cons, List.length_append, List.length_cons, hs]
    omega

theorem trimmed_ne_strip (a w b : Str) (ha : Blank a) (hb : Blank b) (hw : Trimmed w) : strip (a ++ (w ++ b)) = w :=
  strip_around a w b ha hb hw

theorem written_segAt (w : Str) (segs : List (Seg ℚ)) (h : Written w segs) (text : Str)
    (ht : text = [] ∨ 2 ≤ w.length ∧ ∃ c r, text = c :: r ∧ notCmd c = false) :
    ∃ k v, segAt (w ++ text) = some (k, v, text) ∧ segsOf k v = segs := by
  have key : ∀ (c : Char) (k : Kind × Bool) (v : Str), cmdOf c = some k → (∀ x ∈ v, notCmd x = true) → w = c :: v →
      segAt (w ++ text) = some (k, v, text) := by
    intro c k v hc hv hw
    have e1 : (v ++ text).takeWhile notCmd = v := by
      rw [List.takeWhile_append_of_pos hv]
      rcases ht with rfl | ⟨-, d, r, rfl, hd⟩
      · simp
      · simp [hd]
    have e2 : (v ++ text).dropWhile notCmd = text := by
      rw [List.dropWhile_append_of_pos hv]
      rcases ht with rfl | ⟨-, d, r, rfl, hd⟩
      · simp
      · simp [hd]
    rw [hw]
    simp only [List.cons_append, segAt, hc, e1, e2]
    rw [if_neg]
    rintro ⟨h1, h2⟩
    subst h1
    rcases ht with rfl | ⟨hl, -⟩
    · simp at h2
    · rw [hw] at hl; simp at hl
  cases h with
  | @close rel ws hws =>
    exact ⟨(.Z, rel), ws, key _ _ _ (cmdOf_symbol ..) (fun x hx => space_notCmd x (hws x hx)) rfl, by simp [segsOf]⟩
  | @draw k rel segs t l pre post hk hne hs hq hd hv hpre hpost =>
    refine ⟨(k, rel), _, key _ _ _ (cmdOf_symbol ..) ?_ rfl, ?_⟩
    · intro x hx
      simp only [List.mem_append] at hx
      rcases hx with hx | hx | hx
      · exact space_notCmd x (hpre x hx)
      · exact seq_notCmd t l hq hd x hx
      · exact space_notCmd x (hpost x hx)
    · rw [numbers_eq] at hv
      have e := strip_around pre (seqText t l) post hpre hpost (seq_trimmed t l hq)
      have hn : seqText t l ≠ [] := by
        obtain ⟨⟨c, r, h, -⟩, -⟩ := seq_ends t l hq
        rw [h]; simp
      unfold segsOf
      simp only [hk, if_false, e, hn, nums_seq t l hq, hv]
      apply chunkN_flatMap k rel hk segs hs
      have := flatMap_length k hk segs fun s hs' => (hs s hs').1
      omega

theorem pathWritten_head (text : Str) (segs : List (Seg ℚ)) (h : PathWritten text segs) :
    (∃ c r, text = c :: r ∧ notCmd c = false) := by
  have hw : ∀ w segs, Written w segs → ∃ c r, w = c :: r ∧ notCmd c = false := by
    intro w segs h
    cases h with
    | close => exact ⟨_, _, rfl, by simp [notCmd, cmdOf_symbol]⟩
    | draw => exact ⟨_, _, rfl, by simp [notCmd, cmdOf_symbol]⟩
  cases h with
  | last h => exact hw _ _ h
  | more h _ _ =>
    obtain ⟨c, r, rfl, hc⟩ := hw _ _ h
    exact ⟨c, _, rfl, hc⟩

theorem find_written (text : Str) (segs : List (Seg ℚ)) (h : PathWritten text segs) :
    (find text).flatMap (fun m => segsOf m.1 m.2) = segs := by
  induction h with
  | @last w segs hw =>
    obtain ⟨k, v, h1, h2⟩ := written_segAt w segs hw [] (.inl rfl)
    rw [List.append_nil] at h1
    rw [find_some _ _ _ _ h1]
    simp [find, findN, h2]
  | @more w segs text rest hw hl ht ih =>
    obtain ⟨k, v, h1, h2⟩ := written_segAt w segs hw text (.inr ⟨hl, pathWritten_head _ _ ht⟩)
    rw [find_some _ _ _ _ h1]
    simp [h2, ih]

theorem segAt_neutral (c : Char) (s : Str) (h : notCmd c = true) : segAt (c :: s) = none := by
  have : cmdOf c = none := by simpa [notCmd] using h
  simp [segAt, this]

theorem find_skip (a s : Str) (h : ∀ c ∈ a, notCmd c = true) : find (a ++ s) = find s := by
  induction a with
  | nil => rfl
  | cons c a ih =>
    have e : find (c :: (a ++ s)) = find (a ++ s) := by
      unfold find
      rw [show findN ((c :: (a ++ s)).length + 1) (c :: (a ++ s)) = findN (c :: (a ++ s)).length (a ++ s) by
        simp only [findN, segAt_neutral c _ (h c (by simp))]]
      rfl
    rw [List.cons_append, e]
    exact ih fun c hc => h c (by simp [hc])

/-- Trailing white space can be taken into the last command. -/
theorem pathWritten_strip (text : Str) (segs : List (Seg ℚ)) (h : PathWritten text segs) :
    PathWritten (rstrip text) segs := by
  have rs : ∀ a b : Str, Blank b → rstrip (a ++ b) = rstrip a := by
    intro a b hb
    unfold rstrip
    rw [List.reverse_append, List.dropWhile_append_of_pos (fun c hc => hb c (by simpa using hc))]
  have rsne : ∀ a b : Str, rstrip b ≠ [] → rstrip (a ++ b) = a ++ rstrip b := by
    intro a b hb
    obtain ⟨c, h1, h2, h3⟩ := rstrip_split b
    have e : rstrip (a ++ b) = rstrip (a ++ rstrip b) := by
      conv_lhs => rw [h1, ← List.append_assoc]
      exact rs _ _ h2
    rw [e, rstrip_eq]
    intro x hx
    rw [List.getLast?_append] at hx
    cases hl : (rstrip b).getLast? with
    | none => exact absurd (List.getLast?_eq_none_iff.mp hl) hb
    | some y => rw [hl] at hx; simp at hx; rw [← hx]; exact h3 y hl
  have hw : ∀ w segs, Written w segs → Written (rstrip w) segs := by
    intro w segs h
    cases h with
    | @close rel ws hws =>
      have e : rstrip (symbol .Z rel :: ws) = [symbol .Z rel] := by
        rw [show symbol Kind.Z rel :: ws = [symbol .Z rel] ++ ws from rfl, rs _ _ hws]
        cases rel <;> decide
      rw [e]; exact .close (by intro c hc; simp at hc)
    | @draw k rel segs t l pre post hk hne hs hq hd hv hpre hpost =>
      have e : rstrip (symbol k rel :: (pre ++ (seqText t l ++ post))) = symbol k rel :: (pre ++ (seqText t l ++ [])) := by
        rw [show symbol k rel :: (pre ++ (seqText t l ++ post)) = (symbol k rel :: (pre ++ seqText t l)) ++ post by simp,
          rs _ _ hpost, rstrip_eq]
        · simp
        · intro x hx
          obtain ⟨-, d, q, h3, h4⟩ := seq_ends t l hq
          rw [h3] at hx
          rw [show symbol k rel :: (pre ++ (q ++ [d])) = (symbol k rel :: (pre ++ q)) ++ [d] by simp,
            List.getLast?_concat] at hx
          cases hx
          exact numChar_space _ h4
      rw [e]
      exact .draw hk hne hs hq hd hv hpre (by intro c hc; simp at hc)
  induction h with
  | last h => exact .last (hw _ _ h)
  | @more w segs text rest h hl ht ih =>
    have hne : rstrip text ≠ [] := by
      obtain ⟨c, r, e, -⟩ := pathWritten_head _ _ ih
      rw [e]; simp
    rw [rsne _ _ hne]
    exact .more h hl ih

/-- **C60** Path data in the SVG grammar, in any number notation and with any spacing, is
read command by command, provided a closing letter that is not the last command has
white space behind it. -/
theorem parse_written_partial (text : Str) (segs : List (Seg ℚ)) (h : PathWritten text segs) (a : Str) (ha : Blank a) :
    parse (a ++ text) = segs := by
  unfold parse strip
  have h1 : lstrip (a ++ text) = text := by
    unfold lstrip
    rw [List.dropWhile_append_of_pos ha]
    obtain ⟨c, r, rfl, hc⟩ := pathWritten_head _ _ h
    rw [List.dropWhile_cons_of_neg]
    intro hs
    rw [space_notCmd c hs] at hc; cases hc
  rw [h1]
  exact find_written _ _ (pathWritten_strip _ _ h)

/-- **C60 fails** where a closing letter is directly followed by another command: the
closing is lost. -/
theorem parse_close_violated :
    parse "M0,0L5,0zM9,9".toList = [.move false 0 0, .line false 5 0, .move false 9 9] := by decide +kernel

/-- **C60 fails** for arc flags written without separator: the flags and coordinates are
read as other numbers and the segment is lost. -/
theorem parse_flags_violated :
    parse "M0,0a5,5 0 015,5".toList = [.move false 0 0] := by decide +kernel

/-! ### Round trip -/

theorem seqText_append (t u : Tok) (l m : List (Str × Tok)) (d : Str) :
    seqText t (l ++ (d, u) :: m) = seqText t l ++ (d ++ seqText u m) := by
  induction l generalizing t with
  | nil => rfl
  | cons x l ih =>
    obtain ⟨s, v⟩ := x
    simp only [List.cons_append, seqText, ih, List.append_assoc]

theorem seqOk_append (t u : Tok) (l m : List (Str × Tok)) (d : Str) (hne : d ≠ []) (hd : ∀ c ∈ d, Neutral c)
    (h1 : SeqOk t l) (h2 : SeqOk u m) : SeqOk t (l ++ (d, u) :: m) := by
  induction l generalizing t with
  | nil => exact ⟨h1, hd, stops_neutral t d _ hne hd, h2⟩
  | cons x l ih =>
    obtain ⟨s, v⟩ := x
    obtain ⟨a, b, c, e⟩ := h1
    refine ⟨a, b, ?_, ih v e⟩
    intro y hy
    have hne' : s ++ seqText v l ≠ [] := by
      obtain ⟨⟨z, r, hz, -⟩, -⟩ := seq_ends v l e
      simp [hz]
    apply c y
    rw [show l.append ((d, u) :: m) = l ++ (d, u) :: m from rfl, seqText_append, ← List.append_assoc,
      List.head?_append_of_ne_nil _ hne'] at hy
    exact hy

/-- A text of numbers: formatted numbers of a list of rationals with separators. -/
def NumsText (p : Nat) (s : Str) (vs : List ℚ) : Prop :=
  ∃ t l, SeqOk t l ∧ (∀ x ∈ l, Delim x.1) ∧ s = seqText t l ∧ t.value :: l.map (·.2.value) = vs.map (rounded p)

theorem numsText_one (p : Nat) (hp : p ≠ 0) (x : ℚ) : NumsText p (formatNum p x) [x] := by
  obtain ⟨t, h1, h2, h3, -⟩ := format_tok p hp x
  exact ⟨t, [], h1, by simp, by simp [seqText, h2], by simp [h3]⟩

theorem numsText_append (p : Nat) (a b d : Str) (u v : List ℚ) (hd : d = [' '] ∨ d = [',']) (ha : NumsText p a u)
    (hb : NumsText p b v) : NumsText p (a ++ (d ++ b)) (u ++ v) := by
  obtain ⟨t, l, h1, h2, rfl, h4⟩ := ha
  obtain ⟨t', l', h1', h2', rfl, h4'⟩ := hb
  have hn : d ≠ [] ∧ (∀ c ∈ d, Neutral c) ∧ Delim d := by
    rcases hd with rfl | rfl
    · refine ⟨by simp, ?_, ?_⟩
      · simp only [List.mem_singleton, forall_eq]; exact neutral_space _ (by decide)
      · intro c hc; simp at hc; subst hc; exact .inl (by decide)
    · refine ⟨by simp, ?_, ?_⟩
      · simp only [List.mem_singleton, forall_eq]
        exact ⟨by decide, by decide, by decide, by decide, by decide, by decide⟩
      · intro c hc; simp at hc; subst hc; exact .inr rfl
  refine ⟨t, l ++ (d, t') :: l', seqOk_append _ _ _ _ _ hn.1 hn.2.1 h1 h1', ?_, ?_, ?_⟩
  · intro x hx
    simp only [List.mem_append, List.mem_cons] at hx
    rcases hx with hx | rfl | hx
    · exact h2 x hx
    · exact hn.2.2
    · exact h2' x hx
  · rw [seqText_append]
  · rw [List.map_append (l₁ := u), ← h4, ← h4']; simp

theorem arg_nums (p : Nat) (hp : p ≠ 0) (s : Seg ℚ) (h : s.kind ≠ .Z) : NumsText p (argText p s) s.values := by
  have one := numsText_one p hp
  have pair : ∀ x y, NumsText p (formatNum p x ++ ([','] ++ formatNum p y)) [x, y] := fun x y =>
    numsText_append p _ _ _ _ _ (.inr rfl) (one x) (one y)
  have sp : ∀ {a b u v}, NumsText p a u → NumsText p b v → NumsText p (a ++ ([' '] ++ b)) (u ++ v) := fun ha hb =>
    numsText_append p _ _ _ _ _ (.inl rfl) ha hb
  cases s with
  | arc r rx ry rot fa fs x y =>
    have := sp (pair rx ry) (sp (one rot) (sp (one fa) (sp (one fs) (pair x y))))
    simpa [argText, join, Seg.values] using this
  | bearing r a => simpa [argText, join, Seg.values] using one a
  | curve r x1 y1 x2 y2 x y =>
    have := sp (pair x1 y1) (sp (pair x2 y2) (pair x y))
    simpa [argText, formatPairs, toPairs, join, Seg.values] using this
  | horiz r a => simpa [argText, join, Seg.values] using one a
  | line r x y => simpa [argText, join, Seg.values] using pair x y
  | move r x y => simpa [argText, join, Seg.values] using pair x y
  | quad r x1 y1 x y =>
    have := sp (pair x1 y1) (pair x y)
    simpa [argText, formatPairs, toPairs, join, Seg.values] using this
  | smooth r x1 y1 x y =>
    have := sp (pair x1 y1) (pair x y)
    simpa [argText, formatPairs, toPairs, join, Seg.values] using this
  | tsmooth r x y => simpa [argText, formatPairs, toPairs, join, Seg.values] using pair x y
  | vert r a => simpa [argText, join, Seg.values] using one a
  | close r => exact absurd rfl h

/-- A segment with its numbers rounded. -/
def roundSeg (p : Nat) (s : Seg ℚ) : Seg ℚ := (mkSeg s.rel s.kind (s.values.map (rounded p))).getD s

theorem roundSeg_kind (p : Nat) (s : Seg ℚ) :
    (roundSeg p s).kind = s.kind ∧ (roundSeg p s).rel = s.rel ∧ (roundSeg p s).values = s.values.map (rounded p) := by
  cases s <;> exact ⟨rfl, rfl, rfl⟩

theorem roundSeg_spec (p : Nat) (s : Seg ℚ) : SegRounded p s (roundSeg p s) := by
  obtain ⟨h1, h2, h3⟩ := roundSeg_kind p s
  refine ⟨h1.symm, h2.symm, ?_⟩
  rw [numbers_eq, h3]
  generalize s.values = vs
  induction vs with
  | nil => exact .nil
  | cons v vs ih => exact .cons (rounded_spec p v) ih

/-- The values of a run of segments of one type. -/
theorem run_nums (p : Nat) (hp : p ≠ 0) (k : Kind) (hk : k ≠ .Z) (s : Seg ℚ) (l : List (Seg ℚ)) (hs : s.kind = k)
    (hl : ∀ t ∈ l, t.kind = k) :
    NumsText p (join [' '] ((s :: l).map (argText p))) ((s :: l).flatMap Seg.values) := by
  induction l generalizing s with
  | nil => simpa [join] using arg_nums p hp s (hs ▸ hk)
  | cons t l ih =>
    have h1 := arg_nums p hp s (hs ▸ hk)
    have h2 := ih t (hl t (by simp)) fun u hu => hl u (by simp [hu])
    have := numsText_append p _ _ _ _ _ (.inl rfl) h1 h2
    simpa [join] using this

theorem pieces_ne (p : Nat) (hp : p ≠ 0) (last : Option (Kind × Bool)) (l : List (Seg ℚ)) (h : NoDoubleClose l)
    (hlast : ∀ s r, l = s :: r → s.kind = .Z → last ≠ some (s.kind, s.rel)) : ∀ x ∈ pieces p last l, x ≠ [] := by
  induction l generalizing last with
  | nil => simp [pieces]
  | cons s l ih =>
    have harg : s.kind ≠ .Z → argText p s ≠ [] := by
      intro hk
      obtain ⟨t, m, h1, -, e, -⟩ := arg_nums p hp s hk
      obtain ⟨⟨c, r, hc, -⟩, -⟩ := seq_ends t m h1
      rw [e, hc]; simp
    intro x hx
    simp only [pieces, List.mem_cons] at hx
    rcases hx with rfl | hx
    · split
      · rename_i hl
        by_cases hk : s.kind = .Z
        · exact absurd hl (hlast s l rfl hk)
        · simpa [segText] using harg hk
      · simp [segText]
    · refine ih (some (s.kind, s.rel)) ?_ ?_ x hx
      · cases l with
        | nil => trivial
        | cons t l => exact h.2
      · rintro t r rfl hk e
        simp only [Option.some.injEq, Prod.mk.injEq] at e
        exact h.1 ⟨by rw [e.1, hk], hk, e.2⟩

/-- Segments of one type: their pieces after the first. -/
theorem pieces_run (p : Nat) (k : Kind) (rel : Bool) (l m : List (Seg ℚ)) (hl : ∀ t ∈ l, t.kind = k ∧ t.rel = rel) :
    pieces p (some (k, rel)) (l ++ m) = l.map (argText p) ++ pieces p (some (k, rel)) m := by
  induction l with
  | nil => rfl
  | cons s l ih =>
    obtain ⟨h1, h2⟩ := hl s (by simp)
    simp only [List.cons_append, pieces, h1, h2, if_true, List.map_cons]
    rw [ih fun t ht => hl t (by simp [ht])]
    simp [segText]

theorem pieces_other (p : Nat) (last : Option (Kind × Bool)) (l : List (Seg ℚ))
    (h : ∀ s r, l = s :: r → last ≠ some (s.kind, s.rel)) : pieces p last l = pieces p none l := by
  cases l with
  | nil => rfl
  | cons s l => simp [pieces, h s l rfl]

theorem join_append (a b : List Str) (ha : a ≠ []) (hb : b ≠ []) : join [' '] (a ++ b) = join [' '] a ++ (' ' :: join [' '] b) := by
  induction a with
  | nil => exact absurd rfl ha
  | cons x a ih =>
    cases a with
    | nil =>
      cases b with
      | nil => exact absurd rfl hb
      | cons y b => simp [join]
    | cons z a =>
      have := ih (by simp)
      simp only [List.cons_append, join] at this ⊢
      rw [this]; simp

theorem split_run (k : Kind) (rel : Bool) (l : List (Seg ℚ)) :
    ∃ a b, l = a ++ b ∧ (∀ t ∈ a, t.kind = k ∧ t.rel = rel) ∧ (∀ s r, b = s :: r → ¬ (s.kind = k ∧ s.rel = rel)) := by
  induction l with
  | nil => exact ⟨[], [], rfl, by simp, by simp⟩
  | cons s l ih =>
    by_cases h : s.kind = k ∧ s.rel = rel
    · obtain ⟨a, b, rfl, h1, h2⟩ := ih
      refine ⟨s :: a, b, rfl, ?_, h2⟩
      intro t ht
      simp only [List.mem_cons] at ht
      rcases ht with rfl | ht
      · exact h
      · exact h1 t ht
    · exact ⟨[], s :: l, rfl, by simp, by rintro t r e; cases e; exact h⟩

theorem noDouble_append (a b : List (Seg ℚ)) (h : NoDoubleClose (a ++ b)) : NoDoubleClose b := by
  induction a with
  | nil => exact h
  | cons s a ih =>
    apply ih
    rw [List.cons_append] at h
    cases hx : a ++ b with
    | nil => trivial
    | cons t l => rw [hx] at h; exact h.2

theorem text_written (p : Nat) (hp : p ≠ 0) (n : Nat) (l : List (Seg ℚ)) (hn : l.length ≤ n) (hne : l ≠ [])
    (h : NoDoubleClose l) : PathWritten (join [' '] (pieces p none l)) (l.map (roundSeg p)) := by
  induction n generalizing l with
  | zero => simp at hn; exact absurd hn hne
  | succ n ih =>
    cases l with
    | nil => exact absurd rfl hne
    | cons s l =>
      have hb0 : pieces p none (s :: l) = segText p s :: pieces p (some (s.kind, s.rel)) l := by simp [pieces]
      by_cases hk : s.kind = .Z
      · obtain ⟨r, rfl⟩ : ∃ r, s = .close r := by cases s <;> simp [Seg.kind] at hk; exact ⟨_, rfl⟩
        have e1 : pieces p (some (Kind.Z, r)) l = pieces p none l := by
          apply pieces_other
          rintro t m rfl e
          simp only [Option.some.injEq, Prod.mk.injEq] at e
          exact h.1 ⟨rfl, e.1.symm, e.2⟩
        rw [hb0]
        simp only [Seg.kind, Seg.rel, e1, segText, argText, ← symbol_eq]
        cases hl : l with
        | nil => exact .last (Written.close (rel := r) (ws := []) (by intro c hc; simp at hc))
        | cons t m =>
          have hw := ih (t :: m) (by rw [hl] at hn; simpa using hn) (by simp) (by rw [hl] at h; exact h.2)
          have : join [' '] ([symbol .Z r] :: pieces p none (t :: m)) = [symbol .Z r, ' '] ++ join [' '] (pieces p none (t :: m)) := by
            simp [pieces, join]
          rw [this]
          exact .more (Written.close (rel := r) (ws := [' ']) (by intro c hc; simp at hc; subst hc; decide)) (by simp) hw
      · obtain ⟨a, b, rfl, ha, hb⟩ := split_run s.kind s.rel l
        have e1 : pieces p (some (s.kind, s.rel)) (a ++ b) = a.map (argText p) ++ pieces p none b := by
          rw [pieces_run p _ _ a b ha, pieces_other]
          rintro t r e e'
          simp only [Option.some.injEq, Prod.mk.injEq] at e'
          exact hb t r e ⟨e'.1.symm, e'.2.symm⟩
        rw [hb0, e1]
        obtain ⟨t, m, h1, h2, h3, h4⟩ := run_nums p hp s.kind hk s a rfl fun t ht => (ha t ht).1
        have hj : ∀ y : List Str, join [' '] (segText p s :: (a.map (argText p) ++ y)) =
            symbol s.kind s.rel :: join [' '] ((s :: a).map (argText p) ++ y) := by
          intro y
          cases hy : a.map (argText p) ++ y with
          | nil =>
            rw [List.map_cons, List.cons_append, hy]; simp [join, segText, ← symbol_eq]
          | cons z w => rw [List.map_cons, List.cons_append, hy]; simp [join, segText, ← symbol_eq]
        have hround : t.value :: m.map (·.2.value) = ((s :: a).map (roundSeg p)).flatMap numbers := by
          rw [h4, numbers_eq]
          clear h1 h2 h3 h4 hj
          generalize s :: a = q
          induction q with
          | nil => rfl
          | cons u q ihq =>
            simp only [List.flatMap_cons, List.map_append, List.map_cons, ihq]
            rw [(roundSeg_kind p u).2.2]
        have hkinds : ∀ u ∈ (s :: a).map (roundSeg p), u.kind = s.kind ∧ u.rel = s.rel := by
          intro u hu
          simp only [List.mem_map] at hu
          obtain ⟨v, hv, rfl⟩ := hu
          obtain ⟨q1, q2, -⟩ := roundSeg_kind p v
          simp only [List.mem_cons] at hv
          rw [q1, q2]
          rcases hv with rfl | hv
          · exact ⟨rfl, rfl⟩
          · exact ha v hv
        rw [hj]
        cases b with
        | nil =>
          have := Written.draw (k := s.kind) (rel := s.rel) (pre := []) (post := []) hk (by simp) hkinds h1 h2 hround
            (by intro c hc; simp at hc) (by intro c hc; simp at hc)
          simp only [List.nil_append, List.append_nil] at this
          simp only [pieces, List.append_nil]
          rw [h3]
          exact .last this
        | cons u b =>
          have := Written.draw (k := s.kind) (rel := s.rel) (pre := []) (post := [' ']) hk (by simp) hkinds h1 h2 hround
            (by intro c hc; simp at hc) (by intro c hc; simp at hc; subst hc; decide)
          simp only [List.nil_append] at this
          rw [join_append _ _ (by simp) (by simp [pieces]), h3]
          have e2 : symbol s.kind s.rel :: (seqText t m ++ ' ' :: join [' '] (pieces p none (u :: b))) =
              (symbol s.kind s.rel :: (seqText t m ++ [' '])) ++ join [' '] (pieces p none (u :: b)) := by simp
          rw [e2]
          have e3 : (s :: (a ++ u :: b)).map (roundSeg p) = (s :: a).map (roundSeg p) ++ (u :: b).map (roundSeg p) := by simp
          rw [e3]
          refine .more this (by simp) (ih (u :: b) ?_ (by simp) ?_)
          · simp at hn ⊢; omega
          · exact noDouble_append (s :: a) (u :: b) h

theorem parse_pathText (p : Nat) (hp : p ≠ 0) (l : List (Seg ℚ)) (h : NoDoubleClose l) :
    parse (pathText p l) = l.map (roundSeg p) := by
  have e : (pieces p none l).filter (· ≠ []) = pieces p none l := by
    rw [List.filter_eq_self]
    intro x hx
    simpa using pieces_ne p hp none l h (by simp) x hx
  unfold pathText
  rw [e]
  cases l with
  | nil => rfl
  | cons s l =>
    have := text_written p hp (s :: l).length (s :: l) (Nat.le_refl _) (by simp) h
    exact parse_written_partial _ _ this [] (by intro c hc; simp at hc)

/-- **C12** Printing path data and parsing the text gives the segments with their numbers
rounded to the precision, if no closing command directly follows one of the same case. -/
theorem roundtrip_rounded_partial (p : Nat) (hp : p ≠ 0) (l : List (Seg ℚ)) (h : NoDoubleClose l) :
    List.Forall₂ (SegRounded p) l (parse (pathText p l)) := by
  rw [parse_pathText p hp l h]
  clear h
  induction l with
  | nil => exact .nil
  | cons s l ih => exact .cons (roundSeg_spec p s) ih

/-- **C12** If the numbers have no more decimals than the precision, the segments come back
unchanged. -/
theorem roundtrip_exact_partial (p : Nat) (hp : p ≠ 0) (l : List (Seg ℚ)) (h : NoDoubleClose l)
    (hr : ∀ s ∈ l, ∀ v ∈ numbers s, Rounded p v v) : parse (pathText p l) = l := by
  rw [numbers_eq] at hr
  rw [parse_pathText p hp l h]
  conv_rhs => rw [← List.map_id l]
  apply List.map_congr_left
  intro s hs
  have e : s.values.map (rounded p) = s.values := by
    conv_rhs => rw [← List.map_id s.values]
    apply List.map_congr_left
    intro v hv
    exact (rounded_spec p v).unique (hr s hs v hv)
  unfold roundSeg
  rw [e, mkSeg_values]
  rfl

/-- **C12 fails** for repeated closing commands: one of them is lost. -/
theorem roundtrip_violated : parse (pathText 6 [.move false 0 0, .close false, .close false]) = [.move false 0 0, .close false] := by
  decide +kernel

/-- Non-trivial instances. -/
example : pathText 6 [.move false 1 2, .line true (1/2) (-3), .line true 4 5, .close true, .close false] =
    "M1,2 l0.5,-3 4,5 z Z".toList ∧
    NoDoubleClose [.move false 1 2, .line true (1/2) (-3), .line true 4 5, .close true, .close false] := by
  constructor
  · decide +kernel
  · simp [NoDoubleClose, Seg.kind, Seg.rel]

example : PathWritten "M1,2z".toList [.move false 1 2, .close true] :=
  .more (Written.draw (k := .M) (rel := false) (segs := [.move false 1 2]) (t := ⟨none, ['1'], none, none⟩)
      (l := [([','], ⟨none, ['2'], none, none⟩)]) (pre := []) (post := []) (by simp) (by simp) (by simp [Seg.kind, Seg.rel])
      (by simp [SeqOk, Tok.Ok, Tok.Stops, Neutral, Digits, ExpOk, isDigit])
      (by simp [Delim]) (by simp [Tok.value, natOf, sgn, expVal, numbers]) (by simp [Blank]) (by simp [Blank]))
    (by decide) (.last (Written.close (rel := true) (ws := []) (by simp [Blank])))

example : parse "M.5.5-1e1,2 l 3-4".toList = [.move false (1/2) (1/2), .move false (-10) 2, .line true 3 (-4)] := by
  decide +kernel

end SvgPy.PathText
