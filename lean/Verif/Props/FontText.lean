import Verif.Model.FontText
import Verif.Lemmas.PyStr
import Verif.Props.Url

/-! Properties C77 (the `font` shorthand), C78 (font families) and C79 (feature settings). -/

set_option linter.unusedSimpArgs false

namespace SvgPy.FontText

/-! ### Words with quoted parts -/

/-- A part of a word: plain text or text in double or single quotes. -/
inductive Piece
  | plain (s : Str) | quoted (s : Str) | single (s : Str)

/-- How a part is written. -/
def Piece.text : Piece → Str
  | .plain s => s
  | .quoted s => '"' :: s ++ ['"']
  | .single s => '\'' :: s ++ ['\'']

/-- What a part stands for. -/
def Piece.content : Piece → Str
  | .plain s => s
  | .quoted s => s
  | .single s => s

/-- Plain parts have neither white space, quotes nor backslashes, parts in double quotes no double
quotes and backslashes, parts in single quotes no single quotes. -/
def Piece.Valid : Piece → Prop
  | .plain s => s ≠ [] ∧ ∀ c ∈ s, c ∉ " \t\r\n\"'\\".toList
  | .quoted s => ∀ c ∈ s, c ∉ "\"\\".toList
  | .single s => ∀ c ∈ s, c ≠ '\''

/-- A word. -/
def wordText (w : List Piece) : Str := (w.map Piece.text).flatten

/-- What a word stands for. -/
def wordContent (w : List Piece) : Str := (w.map Piece.content).flatten

/-- A part is quoted. -/
def Piece.isQuoted : Piece → Bool
  | .plain _ => false
  | .quoted _ => true
  | .single _ => true

theorem plain_char (c : Char) (h : c ∉ " \t\r\n\"'\\".toList) : isWs c = false ∧ isQuote c = false ∧ c ≠ '\\' := by
  have e : ∀ x ∈ " \t\r\n\"'\\".toList, c ≠ x := fun x hx e => h (e ▸ hx)
  have h1 := e ' ' (by decide); have h2 := e '\t' (by decide); have h3 := e '\r' (by decide); have h4 := e '\n' (by decide)
  have h5 := e '"' (by decide); have h6 := e '\'' (by decide); have h7 := e '\\' (by decide)
  simp [isWs, isQuote, h1, h2, h3, h4, h5, h6, h7]

theorem lex_plain (s : Str) (h : ∀ c ∈ s, c ∉ " \t\r\n\"'\\".toList) (tok : Str) (q : Bool) (rest : Str) :
    lex .word tok q (s ++ rest) = lex .word (tok ++ s) q rest := by
  induction s generalizing tok with
  | nil => simp
  | cons c s ih =>
    obtain ⟨h1, h2, h3⟩ := plain_char c (h c (by simp))
    rw [List.cons_append, lex]
    rw [if_neg (by rw [h1]; decide), if_neg (by rw [h2]; decide), if_neg h3, ih (fun x hx => h x (by simp [hx]))]
    simp

theorem lex_quoted (s : Str) (h : ∀ c ∈ s, c ∉ "\"\\".toList) (tok : Str) (q : Bool) (rest : Str) :
    lex (.quote '"') tok q (s ++ '"' :: rest) = lex .word (tok ++ s) true rest := by
  induction s generalizing tok with
  | nil => simp [lex]
  | cons c s ih =>
    have hc := h c (by simp)
    have h1 : c ≠ '"' := by rintro rfl; exact hc (by decide)
    have h2 : c ≠ '\\' := by rintro rfl; exact hc (by decide)
    rw [List.cons_append, lex, if_neg h1, if_neg (fun e => h2 e.1), ih (fun x hx => h x (by simp [hx]))]
    simp

theorem lex_single (s : Str) (h : ∀ c ∈ s, c ≠ '\'') (tok : Str) (q : Bool) (rest : Str) :
    lex (.quote '\'') tok q (s ++ '\'' :: rest) = lex .word (tok ++ s) true rest := by
  induction s generalizing tok with
  | nil => simp [lex]
  | cons c s ih =>
    rw [List.cons_append, lex, if_neg (h c (by simp)), if_neg (fun e => absurd e.2 (by decide)), ih (fun x hx => h x (by simp [hx]))]
    simp

theorem lex_piece (p : Piece) (h : p.Valid) (tok : Str) (q : Bool) (rest : Str) :
    lex .word tok q (p.text ++ rest) = lex .word (tok ++ p.content) (q || p.isQuoted) rest := by
  cases p with
  | plain s => simp only [Piece.text, Piece.content, Piece.isQuoted, Bool.or_false]; exact lex_plain s h.2 tok q rest
  | quoted s =>
    simp only [Piece.text, Piece.content, Piece.isQuoted, Bool.or_true, List.cons_append, List.append_assoc, List.singleton_append, List.nil_append]
    rw [lex, if_neg (by decide), if_pos (by decide)]
    exact lex_quoted s h tok q rest
  | single s =>
    simp only [Piece.text, Piece.content, Piece.isQuoted, Bool.or_true, List.cons_append, List.append_assoc, List.singleton_append, List.nil_append]
    rw [lex, if_neg (by decide), if_pos (by decide)]
    exact lex_single s h tok q rest

theorem lex_pieces (w : List Piece) (h : ∀ p ∈ w, p.Valid) (tok : Str) (q : Bool) (rest : Str) :
    lex .word tok q (wordText w ++ rest) = lex .word (tok ++ wordContent w) (q || w.any Piece.isQuoted) rest := by
  induction w generalizing tok q with
  | nil => simp [wordText, wordContent]
  | cons p w ih =>
    have e : wordText (p :: w) ++ rest = p.text ++ (wordText w ++ rest) := by simp [wordText]
    rw [e, lex_piece p (h p (by simp)), ih (fun x hx => h x (by simp [hx]))]
    simp [wordContent, Bool.or_assoc]

theorem lex_start (w : List Piece) (hne : w ≠ []) (h : ∀ p ∈ w, p.Valid) (rest : Str) :
    lex .ws [] false (wordText w ++ rest) = lex .word [] false (wordText w ++ rest) := by
  cases w with
  | nil => exact absurd rfl hne
  | cons p w =>
    have hp := h p (by simp)
    cases p with
    | plain s =>
      obtain ⟨h0, h1⟩ := hp
      cases s with
      | nil => exact absurd rfl h0
      | cons c s =>
        obtain ⟨h1, h2, h3⟩ := plain_char c (h1 c (by simp))
        have e : wordText (.plain (c :: s) :: w) ++ rest = c :: (s ++ (wordText w ++ rest)) := by simp [wordText, Piece.text]
        rw [e, lex, lex]
        have hw : ¬ isWs c = true := by rw [h1]; decide
        have hq : ¬ isQuote c = true := by rw [h2]; decide
        rw [if_neg hw, if_neg h3, if_neg hq, if_neg hw, if_neg hq, if_neg h3]
        rfl
    | quoted s =>
      have e : wordText (.quoted s :: w) ++ rest = '"' :: (s ++ '"' :: (wordText w ++ rest)) := by simp [wordText, Piece.text]
      rw [e, lex, lex]
      rfl
    | single s =>
      have e : wordText (.single s :: w) ++ rest = '\'' :: (s ++ '\'' :: (wordText w ++ rest)) := by simp [wordText, Piece.text]
      rw [e, lex, lex]
      rfl

theorem word_emits (w : List Piece) (hne : w ≠ []) (h : ∀ p ∈ w, p.Valid) : wordContent w ≠ [] ∨ w.any Piece.isQuoted = true := by
  cases w with
  | nil => exact absurd rfl hne
  | cons p w =>
    cases p with
    | quoted s => right; simp [Piece.isQuoted]
    | single s => right; simp [Piece.isQuoted]
    | plain s =>
      left
      have := (h (.plain s) (by simp)).1
      simp [wordContent, Piece.content, this]

/-- Words separated by spaces are split into what they stand for. -/
theorem shlex_words (ws : List (List Piece)) (h : ∀ w ∈ ws, w ≠ [] ∧ ∀ p ∈ w, p.Valid) :
    shlexSplit (PyStr.join [' '] (ws.map wordText)) = .ok (ws.map wordContent) := by
  unfold shlexSplit
  induction ws with
  | nil => rfl
  | cons w ws ih =>
    have hw := h w (by simp)
    have ih := ih (fun x hx => h x (by simp [hx]))
    cases ws with
    | nil =>
      show lex .ws [] false (wordText w) = _
      have e : wordText w = wordText w ++ [] := by simp
      rw [e, lex_start w hw.1 hw.2, lex_pieces w hw.2, lex]
      simp only [List.nil_append, Bool.false_or]
      unfold emit
      rw [if_pos (word_emits w hw.1 hw.2)]
      rfl
    | cons w' ws =>
      have e : PyStr.join [' '] ((w :: w' :: ws).map wordText) = wordText w ++ ' ' :: PyStr.join [' '] ((w' :: ws).map wordText) := by
        simp [PyStr.join]
      rw [e, lex_start w hw.1 hw.2, lex_pieces w hw.2, lex, if_pos (by decide), ih]
      simp only [List.nil_append, Bool.false_or]
      unfold emit
      rw [if_pos (word_emits w hw.1 hw.2)]
      rfl

/-! ### Families -/

/-- A family name: not empty, without comma, without white space around it. -/
def Name (n : Str) : Prop := n ≠ [] ∧ ',' ∉ n ∧ PyStr.Trimmed n

theorem names_of (n : Str) (h : Name n) : familyNames [n] = [n] := by
  unfold familyNames
  simp only [List.map_cons, List.map_nil, List.flatten_cons, List.flatten_nil, List.append_nil]
  rw [PyStr.splitOn_notMem ',' n h.2.1]
  simp only [List.map_cons, List.map_nil, PyStr.strip_of_trimmed n h.2.2]
  have : 0 < n.length := List.length_pos_iff.2 h.1
  simp [this]

theorem names_comma (n : Str) (h : Name n) : familyNames [n ++ [',']] = [n] := by
  unfold familyNames
  simp only [List.map_cons, List.map_nil, List.flatten_cons, List.flatten_nil, List.append_nil]
  rw [PyStr.splitOn_append ',' n [] h.2.1]
  simp only [PyStr.splitOn, List.map_cons, List.map_nil, PyStr.strip_of_trimmed n h.2.2]
  have : 0 < n.length := List.length_pos_iff.2 h.1
  have e : PyStr.strip [] = [] := rfl
  simp [this, e]

theorem names_cons (i : Str) (is : List Str) : familyNames (i :: is) = familyNames [i] ++ familyNames is := by simp [familyNames]

/-- The items of a list of names: all but the last end with a comma. -/
def itemsOf : List Str → List Str
  | [] => []
  | [n] => [n]
  | n :: ns => (n ++ [',']) :: itemsOf ns

theorem names_items (ns : List Str) (h : ∀ n ∈ ns, Name n) : familyNames (itemsOf ns) = ns := by
  induction ns with
  | nil => rfl
  | cons n ns ih =>
    cases ns with
    | nil => exact names_of n (h n (by simp))
    | cons n' ns =>
      show familyNames ((n ++ [',']) :: itemsOf (n' :: ns)) = _
      rw [names_cons, ih (fun x hx => h x (by simp [hx])), names_comma n (h n (by simp))]
      rfl

theorem strip_piece (a n b : Str) (ha : ∀ x ∈ a, PyStr.isSpace x = true) (hb : ∀ x ∈ b, PyStr.isSpace x = true) (h : Name n) :
    PyStr.strip (a ++ n ++ b) = n := by
  rw [List.append_assoc]
  exact PyStr.strip_around a n b ha hb h.2.2

/-- **C78** A list of names without quotes, each with any white space around it, separated by commas, gives
these names in order.  Missing: lists with both kinds of names, see `family_violated`. -/
theorem family_partial (ps : List (Str × Str × Str)) (hne : ps ≠ []) (hn : ∀ p ∈ ps, Name p.2.1)
    (hs : ∀ p ∈ ps, (∀ x ∈ p.1, PyStr.isSpace x = true) ∧ ∀ x ∈ p.2.2, PyStr.isSpace x = true)
    (h : ∀ p ∈ ps, '"' ∉ p.2.1 ∧ '\'' ∉ p.2.1) :
    parseFamily (PyStr.join [','] (ps.map fun p => p.1 ++ p.2.1 ++ p.2.2)) = .ok (ps.map fun p => p.2.1) := by
  have sp : ∀ c : Char, PyStr.isSpace c = false → ∀ p ∈ ps, c ∉ p.2.1 → c ∉ p.1 ++ p.2.1 ++ p.2.2 := by
    intro c hc p hp hm hx
    rw [List.mem_append, List.mem_append] at hx
    rcases hx with (hx | hx) | hx
    · have := (hs p hp).1 c hx; rw [hc] at this; cases this
    · exact hm hx
    · have := (hs p hp).2 c hx; rw [hc] at this; cases this
  have notIn : ∀ c : Char, PyStr.isSpace c = false → c ≠ ',' → (∀ p ∈ ps, c ∉ p.2.1) → c ∉ PyStr.join [','] (ps.map fun p => p.1 ++ p.2.1 ++ p.2.2) := by
    intro c hc hcc hm
    have hall : ∀ l : List Str, (∀ s ∈ l, c ∉ s) → c ∉ PyStr.join [','] l := by
      intro l
      induction l with
      | nil => intro _; simp [PyStr.join]
      | cons s l ih =>
        intro hl
        cases l with
        | nil => exact hl s (by simp)
        | cons s' l =>
          simp only [PyStr.join, List.mem_append, List.mem_singleton, not_or]
          exact ⟨⟨hl s (by simp), hcc⟩, ih (fun x hx => hl x (by simp [hx]))⟩
    apply hall
    intro s hs'
    obtain ⟨p, hp, rfl⟩ := List.mem_map.1 hs'
    exact sp c hc p hp (hm p hp)
  unfold parseFamily
  have hno : ¬ ('"' ∈ PyStr.join [','] (ps.map fun p => p.1 ++ p.2.1 ++ p.2.2) ∨ '\'' ∈ PyStr.join [','] (ps.map fun p => p.1 ++ p.2.1 ++ p.2.2)) := by
    rintro (e | e)
    · exact notIn '"' (by decide) (by decide) (fun p hp => (h p hp).1) e
    · exact notIn '\'' (by decide) (by decide) (fun p hp => (h p hp).2) e
  rw [if_neg hno]
  unfold familyNames
  simp only [List.map_cons, List.map_nil, List.flatten_cons, List.flatten_nil, List.append_nil]
  rw [PyStr.splitOn_join ',' _ (by simpa using hne) (by
    intro s hs'
    obtain ⟨p, hp, rfl⟩ := List.mem_map.1 hs'
    exact sp ',' (by decide) p hp (hn p hp).2.1)]
  rw [List.map_map]
  have e : (ps.map (PyStr.strip ∘ fun p => p.1 ++ p.2.1 ++ p.2.2)) = ps.map fun p => p.2.1 := by
    apply List.map_congr_left
    intro p hp
    exact strip_piece _ _ _ (hs p hp).1 (hs p hp).2 (hn p hp)
  rw [e]
  congr 1
  rw [List.filter_eq_self]
  intro n hn'
  obtain ⟨p, hp, rfl⟩ := List.mem_map.1 hn'
  simpa using List.length_pos_iff.2 (hn p hp).1

/-- A non-trivial instance. -/
example : parseFamily "DejaVu Sans, serif".toList = .ok ["DejaVu Sans".toList, "serif".toList] :=
  family_partial [([], "DejaVu Sans".toList, []), ([' '], "serif".toList, [])] (by decide) (by
    intro n hn
    simp only [List.mem_cons, List.not_mem_nil, or_false] at hn
    rcases hn with rfl | rfl <;> exact ⟨by decide, by decide, by simp [PyStr.Trimmed]; decide⟩) (by decide) (by decide)

/-- **C78** is violated: next to a quoted name, the words of a name without quotes are separate names; a
quoted name with a comma is split. -/
theorem family_violated :
    parseFamily "DejaVu Sans, \"Foo\"".toList = .ok ["DejaVu".toList, "Sans".toList, "Foo".toList] ∧
      parseFamily "\"Foo, Bar\"".toList = .ok ["Foo".toList, "Bar".toList] := by decide +kernel

/-! ### Feature settings -/

/-- The words of a setting and its number: nothing or `on` is 1, `off` is 0, otherwise a decimal number. -/
def SettingWords (ws : List Str) (n : Nat) : Prop :=
  (ws = [] ∧ n = 1) ∨ (ws = ["on".toList] ∧ n = 1) ∨ (ws = ["off".toList] ∧ n = 0) ∨
    ∃ d, d ≠ [] ∧ Formatter.readDigits 0 d = some n ∧ ws = [d]

theorem settingOf_eq (ws : List Str) (n : Nat) (h : SettingWords ws n) : settingOf ws = some n := by
  rcases h with ⟨rfl, rfl⟩ | ⟨rfl, rfl⟩ | ⟨rfl, rfl⟩ | ⟨d, hd, hr, rfl⟩
  · rfl
  · decide
  · decide
  · obtain ⟨a, b⟩ := (Url.readDigits_iff d 0 n).1 hr
    unfold settingOf
    have hc : d ≠ [] ∧ d.all Char.isDigit = true := ⟨hd, a⟩
    simp only
    rw [if_pos hc, b]

theorem unquoteTag_eq (q : Char) (hq : q = '"' ∨ q = '\'') (tag : Str) : unquoteTag (q :: tag ++ [q]) = tag := by
  unfold unquoteTag
  have hc : (q :: tag ++ [q]).head? = (q :: tag ++ [q]).getLast? ∧ ((q :: tag ++ [q]).head? = some '"' ∨ (q :: tag ++ [q]).head? = some '\'') := by
    refine ⟨by rw [List.getLast?_append]; rfl, ?_⟩
    rcases hq with rfl | rfl <;> simp
  rw [if_pos hc]
  simp

/-- A setting: its text, the tag, and the number. -/
structure Setting where
  text : Str
  tag : Str
  value : Nat

/-- The text is a tag of four printable characters in quotes, followed by a setting. -/
def Setting.Valid (s : Setting) : Prop :=
  s.tag.length = 4 ∧ (∀ c ∈ s.tag, 0x20 ≤ c.toNat ∧ c.toNat ≤ 0x7e) ∧ ',' ∉ s.text ∧
    ∃ q ws, (q = '"' ∨ q = '\'') ∧ SettingWords ws s.value ∧ PyStr.splitWs s.text = (q :: s.tag ++ [q]) :: ws

theorem features_eq (ss : List Setting) (h : ∀ s ∈ ss, s.Valid) (acc : Dict Str Nat) :
    features acc (ss.map Setting.text) = .ok (Dict.update acc (ss.map fun s => (s.tag, s.value))) := by
  induction ss generalizing acc with
  | nil => rfl
  | cons s ss ih =>
    obtain ⟨h4, hc, _, q, ws, hq, hw, hs⟩ := h s (by simp)
    rw [List.map_cons, features, hs]
    simp only
    rw [unquoteTag_eq q hq]
    have hno : ¬ (s.tag.length ≠ 4 ∨ s.tag.any (fun c => !(decide (0x20 ≤ c.toNat) && decide (c.toNat ≤ 0x7e))) = true) := by
      rintro (e | e)
      · exact e h4
      · rw [List.any_eq_true] at e
        obtain ⟨c, hm, e⟩ := e
        have := hc c hm
        simp [this.1, this.2] at e
    rw [if_neg hno, settingOf_eq ws s.value hw]
    simp only
    rw [ih (fun x hx => h x (by simp [hx]))]
    rfl

/-- **C79** A list of feature settings, separated by commas, gives each tag its number; the last setting
of a tag counts.  Missing: tags with spaces or commas, and empty settings, see `features_violated`. -/
theorem features_partial (ss : List Setting) (hne : ss ≠ []) (h : ∀ s ∈ ss, s.Valid) :
    parseFeatures (PyStr.join [','] (ss.map Setting.text)) = .ok (Dict.ofPairs (ss.map fun s => (s.tag, s.value))) := by
  unfold parseFeatures
  have hn : PyStr.join [','] (ss.map Setting.text) ≠ "normal".toList := by
    intro e
    cases ss with
    | nil => exact hne rfl
    | cons s ss =>
      obtain ⟨_, _, _, q, ws, hq, _, hs⟩ := h s (by simp)
      cases ss with
      | nil =>
        have e : s.text = "normal".toList := e
        rw [e] at hs
        have e2 : PyStr.splitWs "normal".toList = ["normal".toList] := by decide
        rw [e2] at hs
        injection hs with hs _
        have : 'n' = q := by
          have := congrArg List.head? hs
          simpa using this
        rcases hq with rfl | rfl <;> exact absurd this (by decide)
      | cons s' ss =>
        have hm : ',' ∈ "normal".toList := by rw [← e]; simp [PyStr.join]
        exact absurd hm (by decide)
  rw [if_neg hn, PyStr.splitOn_join ',' _ (by simpa using hne) (by
    intro t ht
    obtain ⟨s, hs, rfl⟩ := List.mem_map.1 ht
    exact (h s hs).2.2.1)]
  exact features_eq ss h []

/-- A non-trivial instance: `"liga" off, 'kern' 2,"smcp"`. -/
example : parseFeatures "\"liga\" off, 'kern' 2,\"smcp\"".toList = .ok [("liga".toList, 0), ("kern".toList, 2), ("smcp".toList, 1)] :=
  features_partial [⟨"\"liga\" off".toList, "liga".toList, 0⟩, ⟨" 'kern' 2".toList, "kern".toList, 2⟩, ⟨"\"smcp\"".toList, "smcp".toList, 1⟩] (by simp) (by
    intro s hs
    simp only [List.mem_cons, List.not_mem_nil, or_false] at hs
    rcases hs with rfl | rfl | rfl
    · exact ⟨by decide, by decide, by decide, '"', ["off".toList], .inl rfl, .inr (.inr (.inl ⟨rfl, rfl⟩)), by decide⟩
    · exact ⟨by decide, by decide, by decide, '\'', ["2".toList], .inr rfl, .inr (.inr (.inr ⟨"2".toList, by decide, by decide, rfl⟩)), by decide⟩
    · exact ⟨by decide, by decide, by decide, '"', [], .inl rfl, .inl ⟨rfl, rfl⟩, by decide⟩)

/-- **C79** is violated: a comma at the end raises an error, a tag with a space is ignored. -/
theorem features_violated :
    (match parseFeatures "\"liga\",".toList with | .error .indexError => true | _ => false) = true ∧
      parseFeatures "\"ab c\" 2".toList = .ok [] := by
  constructor
  · decide +kernel
  · rfl

/-! ### The `font` shorthand -/

/-- What the keywords in front of the size stand for. -/
inductive Kind
  | style | variant | weight | stretch | none
  deriving DecidableEq

/-- The keywords of the shorthand, CSS Fonts 4, 2.7. -/
def fontWords : List (String × Kind) :=
  [("normal", .none), ("italic", .style), ("oblique", .style), ("small-caps", .variant),
    ("bold", .weight), ("bolder", .weight), ("lighter", .weight), ("100", .weight), ("200", .weight), ("300", .weight), ("400", .weight),
    ("500", .weight), ("600", .weight), ("700", .weight), ("800", .weight), ("900", .weight),
    ("ultra-condensed", .stretch), ("extra-condensed", .stretch), ("condensed", .stretch), ("semi-condensed", .stretch),
    ("semi-expanded", .stretch), ("expanded", .stretch), ("extra-expanded", .stretch), ("ultra-expanded", .stretch)]

/-- The last keyword of a kind, or `normal`. -/
def lastOf (k : Kind) (ws : List (String × Kind)) : Str := ((ws.filter fun w => w.2 = k).getLast?.map fun w => w.1.toList).getD "normal".toList

/-- The last keyword of a kind, or a default. -/
def lastOr (d : Str) (k : Kind) (ws : List (String × Kind)) : Str := ((ws.filter fun w => w.2 = k).getLast?.map fun w => w.1.toList).getD d

theorem lastOr_cons (d : Str) (k : Kind) (w : String × Kind) (ws : List (String × Kind)) :
    lastOr d k (w :: ws) = lastOr (if w.2 = k then w.1.toList else d) k ws := by
  unfold lastOr
  rw [List.filter_cons]
  by_cases h : w.2 = k
  · simp only [h, decide_true, if_true]
    rw [List.getLast?_cons]
    cases (ws.filter fun w => decide (w.2 = k)).getLast? <;> rfl
  · simp [h]

/-- One step of the loop. -/
def stepWord (f : Font) (w : Str) (k : Kind) : Font :=
  match k with
  | .style => { f with style := w }
  | .variant => { f with variant := w }
  | .weight => { f with weight := w }
  | .stretch => { f with stretch := w }
  | .none => f

theorem wordLoop_step (f : Font) (w : String × Kind) (h : w ∈ fontWords) (rest : List Str) :
    wordLoop f (w.1.toList :: rest) = wordLoop (stepWord f w.1.toList w.2) rest := by
  have d0 : ∀ w ∈ fontWords, w.2 = .none → w.1.toList = "normal".toList := by decide +kernel
  have d1 : ∀ w ∈ fontWords, w.2 = .style → w.1.toList ≠ "normal".toList ∧ (w.1.toList = "italic".toList ∨ w.1.toList = "oblique".toList) := by decide +kernel
  have d2 : ∀ w ∈ fontWords, w.2 = .variant → w.1.toList ≠ "normal".toList ∧ ¬ (w.1.toList = "italic".toList ∨ w.1.toList = "oblique".toList) ∧ w.1.toList = "small-caps".toList := by decide +kernel
  have d3 : ∀ w ∈ fontWords, w.2 = .weight → w.1.toList ≠ "normal".toList ∧ ¬ (w.1.toList = "italic".toList ∨ w.1.toList = "oblique".toList) ∧ w.1.toList ≠ "small-caps".toList ∧ w.1.toList ∈ weightWords := by decide +kernel
  have d4 : ∀ w ∈ fontWords, w.2 = .stretch → w.1.toList ≠ "normal".toList ∧ ¬ (w.1.toList = "italic".toList ∨ w.1.toList = "oblique".toList) ∧ w.1.toList ≠ "small-caps".toList ∧ w.1.toList ∉ weightWords ∧ w.1.toList ∈ stretchWords := by decide +kernel
  have h0 := d0 w h; have h1 := d1 w h; have h2 := d2 w h; have h3 := d3 w h; have h4 := d4 w h
  rw [wordLoop]
  cases hk : w.2 with
  | none => rw [if_pos (h0 hk)]; rfl
  | style => rw [if_neg (h1 hk).1, if_pos (h1 hk).2]; rfl
  | variant => rw [if_neg (h2 hk).1, if_neg (h2 hk).2.1, if_pos (h2 hk).2.2]; rfl
  | weight => rw [if_neg (h3 hk).1, if_neg (h3 hk).2.1, if_neg (h3 hk).2.2.1, if_pos (h3 hk).2.2.2]; rfl
  | stretch => rw [if_neg (h4 hk).1, if_neg (h4 hk).2.1, if_neg (h4 hk).2.2.1, if_neg (h4 hk).2.2.2.1, if_pos (h4 hk).2.2.2.2]; rfl

theorem wordLoop_eq (ws : List (String × Kind)) (h : ∀ w ∈ ws, w ∈ fontWords) (f : Font) :
    wordLoop f (ws.map fun w => w.1.toList) =
      { f with style := lastOr f.style .style ws, variant := lastOr f.variant .variant ws, weight := lastOr f.weight .weight ws, stretch := lastOr f.stretch .stretch ws } := by
  induction ws generalizing f with
  | nil => rfl
  | cons w ws ih =>
    rw [List.map_cons, wordLoop_step f w (h w (by simp)), ih (fun x hx => h x (by simp [hx]))]
    simp only [lastOr_cons]
    cases hk : w.2 <;> simp [stepWord]

/-- Size and line height as one item. -/
def sizeText (size : Str) (line : Option Str) : Str :=
  match line with
  | none => size
  | some l => size ++ '/' :: l

theorem sizeOf_eq (size : Str) (line : Option Str) (hs : '/' ∉ size) (hl : '/' ∉ line.getD []) :
    sizeOf' (sizeText size line) = (size, line.getD "normal".toList) := by
  unfold sizeOf' sizeText
  cases line with
  | none => rw [if_neg hs]; rfl
  | some l =>
    rw [if_pos (by simp)]
    rw [PyStr.splitOn_append '/' size l hs, PyStr.splitOn_notMem '/' l hl]
    rfl

theorem familyLoop_eq (ns : List Str) (hn : ∀ n ∈ ns, n ≠ []) (fam rest : List Str) (i : Str) (hi : i ≠ [','] ∧ i.getLast? ≠ some ',') :
    familyLoop false fam ((ns.map fun n => n ++ [',']).reverse ++ i :: rest) = ((ns.map fun n => n ++ [',']) ++ fam, i :: rest) := by
  induction ns using List.reverseRecOn generalizing fam with
  | nil =>
    simp only [List.map_nil, List.reverse_nil, List.nil_append]
    rw [familyLoop, if_neg hi.1, if_neg (by rintro (e | e); cases e; exact hi.2 e)]
  | append_singleton ns n ih =>
    have h1 := hn n (by simp)
    simp only [List.map_append, List.map_cons, List.map_nil, List.reverse_append, List.reverse_cons, List.reverse_nil, List.nil_append, List.cons_append]
    have hne : n ++ [','] ≠ [','] := by
      intro e
      exact h1 (List.append_left_eq_self.1 e)
    rw [familyLoop, if_neg hne, if_pos (.inr (by simp)), ih (fun x hx => hn x (by simp [hx]))]
    simp

theorem itemsOf_append (ns : List Str) (l : Str) : itemsOf (ns ++ [l]) = (ns.map fun n => n ++ [',']) ++ [l] := by
  induction ns with
  | nil => rfl
  | cons n ns ih =>
    cases ns with
    | nil => rfl
    | cons n' ns =>
      show (n ++ [',']) :: itemsOf ((n' :: ns) ++ [l]) = _
      rw [ih]
      rfl

/-- The words for system fonts. -/
def systemNames : List Str := ["caption", "icon", "menu", "message-box", "small-caption", "status-bar"].map String.toList

theorem system_eq : systemFonts = systemNames := rfl

/-- **C77** (system fonts) A word for a system font anywhere in the shorthand leaves everything to the system:
no part is given. -/
theorem font_system (ws : List (List Piece)) (h : ∀ w ∈ ws, w ≠ [] ∧ ∀ p ∈ w, p.Valid)
    (hs : ∃ w ∈ ws, wordContent w ∈ systemNames) :
    parseFont (PyStr.join [' '] (ws.map wordText)) = .ok none := by
  obtain ⟨w, hw, hw'⟩ := hs
  unfold parseFont
  rw [shlex_words ws h]
  show Except.ok (parseItems _) = _
  have : ((ws.map wordContent).any fun i => decide (i ∈ systemFonts)) = true := by
    rw [List.any_eq_true]
    exact ⟨_, List.mem_map.2 ⟨w, hw, rfl⟩, by rw [system_eq]; simpa using hw'⟩
  unfold parseItems
  rw [if_pos this]

example : parseFont "icon".toList = .ok none :=
  font_system [[.plain "icon".toList]] (by
    intro w hw
    rw [List.mem_singleton] at hw
    subst hw
    refine ⟨by simp, fun p hp => ?_⟩
    rw [List.mem_singleton] at hp
    subst hp
    exact ⟨by decide, by decide⟩) ⟨_, List.mem_singleton.2 rfl, by decide⟩

/-- What is expected of a size: it is one item and not mistaken for something else. -/
def SizeOk (size : Str) (line : Option Str) : Prop :=
  '/' ∉ size ∧ '/' ∉ line.getD [] ∧ sizeText size line ≠ [','] ∧ (sizeText size line).getLast? ≠ some ',' ∧ sizeText size line ∉ systemNames

theorem parseItems_eq (ws : List (String × Kind)) (size : Str) (line : Option Str) (ns : List Str) (hw : ∀ w ∈ ws, w ∈ fontWords)
    (hs : SizeOk size line) (hne : ns ≠ []) (hn : ∀ n ∈ ns, Name n) (hsys : ∀ l, ns.getLast? = some l → l ∉ systemNames) :
    parseItems ((ws.map fun w => w.1.toList) ++ [sizeText size line] ++ itemsOf ns) = some {
      family := ns
      size := size
      lineHeight := line.getD "normal".toList
      style := lastOf .style ws
      variant := lastOf .variant ws
      weight := lastOf .weight ws
      stretch := lastOf .stretch ws } := by
  obtain ⟨is, l, rfl⟩ : ∃ is l, ns = is ++ [l] := ⟨ns.dropLast, ns.getLast hne, (List.dropLast_append_getLast hne).symm⟩
  have hsysl : l ∉ systemNames := hsys l (by simp)
  have hcomma : ∀ s ∈ systemFonts, ',' ∉ s := by decide
  have hwords : ∀ w ∈ fontWords, w.1.toList ∉ systemFonts := by decide
  unfold parseItems
  have hno : ¬ ((ws.map fun w => w.1.toList) ++ [sizeText size line] ++ itemsOf (is ++ [l])).any (fun i => decide (i ∈ systemFonts)) = true := by
    rw [List.any_eq_true]
    rintro ⟨i, hi, e⟩
    have e : i ∈ systemFonts := by simpa using e
    rw [itemsOf_append, List.mem_append, List.mem_append, List.mem_append] at hi
    rcases hi with (hi | hi) | hi | hi
    · obtain ⟨w, hw', rfl⟩ := List.mem_map.1 hi
      exact hwords w (hw w hw') e
    · rw [List.mem_singleton] at hi
      subst hi
      exact hs.2.2.2.2 e
    · obtain ⟨n, hn', rfl⟩ := List.mem_map.1 hi
      exact hcomma _ e (by simp)
    · rw [List.mem_singleton] at hi
      subst hi
      exact hsysl e
  rw [if_neg hno, itemsOf_append]
  have hrev : ((ws.map fun w => w.1.toList) ++ [sizeText size line] ++ ((is.map fun n => n ++ [',']) ++ [l])).reverse =
      l :: ((is.map fun n => n ++ [',']).reverse ++ sizeText size line :: (ws.map fun w => w.1.toList).reverse) := by
    simp only [List.reverse_append, List.reverse_cons, List.reverse_nil, List.nil_append, List.cons_append, List.append_assoc]
  rw [hrev]
  simp only
  rw [familyLoop_eq is (fun n hn' => (hn n (by simp [hn'])).1) [l] _ _ ⟨hs.2.2.1, hs.2.2.2.1⟩]
  simp only
  rw [sizeOf_eq size line hs.1 hs.2.1, List.reverse_reverse, wordLoop_eq ws hw, ← itemsOf_append, names_items _ hn]
  rfl

/-- How a name is written. -/
inductive Quotes
  | bare | double | single
deriving DecidableEq

/-- A name, written with or without quotes. -/
structure FamilyName where
  name : Str
  quotes : Quotes

/-- A name without quotes is one word; in double quotes it has no double quotes and backslashes, in single
quotes no single quotes. -/
def FamilyName.Valid (n : FamilyName) : Prop :=
  Name n.name ∧ match n.quotes with
    | .double => ∀ c ∈ n.name, c ∉ "\"\\".toList
    | .single => ∀ c ∈ n.name, c ≠ '\''
    | .bare => ∀ c ∈ n.name, c ∉ " \t\r\n\"'\\".toList

/-- The text of a name. -/
def FamilyName.text (n : FamilyName) : Str :=
  match n.quotes with
  | .double => "\"".toList ++ n.name ++ "\"".toList
  | .single => "'".toList ++ n.name ++ "'".toList
  | .bare => n.name

/-- The name as a part of a word. -/
def FamilyName.piece (n : FamilyName) : Piece :=
  match n.quotes with
  | .double => .quoted n.name
  | .single => .single n.name
  | .bare => .plain n.name

/-- The words of a list of names separated by commas. -/
def familyWords : List FamilyName → List (List Piece)
  | [] => []
  | [n] => [[n.piece]]
  | n :: ns => [n.piece, .plain [',']] :: familyWords ns

/-- The text of a shorthand: keywords, size with line height, and names, separated by spaces. -/
def fontText (ws : List (String × Kind)) (size : Str) (line : Option Str) (ns : List FamilyName) : Str :=
  PyStr.join [' '] (((ws.map fun w => w.1.toList) ++ [sizeText size line]) ++ (familyWords ns).map wordText)

theorem piece_content (n : FamilyName) : n.piece.content = n.name := by
  unfold FamilyName.piece
  cases n.quotes <;> rfl

theorem piece_text (n : FamilyName) : n.piece.text = n.text := by
  unfold FamilyName.piece FamilyName.text
  cases n.quotes <;> rfl

theorem piece_valid (n : FamilyName) (h : n.Valid) : n.piece.Valid := by
  unfold FamilyName.piece
  obtain ⟨h1, h2⟩ := h
  cases hq : n.quotes with
  | double => rw [hq] at h2; exact h2
  | single => rw [hq] at h2; exact h2
  | bare => rw [hq] at h2; exact ⟨h1.1, h2⟩

theorem familyWords_content (ns : List FamilyName) : (familyWords ns).map wordContent = itemsOf (ns.map FamilyName.name) := by
  induction ns with
  | nil => rfl
  | cons n ns ih =>
    cases ns with
    | nil => simp [familyWords, itemsOf, wordContent, piece_content]
    | cons n' ns =>
      show wordContent [n.piece, .plain [',']] :: (familyWords (n' :: ns)).map wordContent = (n.name ++ [',']) :: itemsOf ((n' :: ns).map FamilyName.name)
      rw [ih]
      show (n.piece.content ++ ([','] ++ [])) :: _ = _
      rw [piece_content]
      rfl

theorem familyWords_valid (ns : List FamilyName) (h : ∀ n ∈ ns, n.Valid) : ∀ w ∈ familyWords ns, w ≠ [] ∧ ∀ p ∈ w, p.Valid := by
  induction ns with
  | nil => simp [familyWords]
  | cons n ns ih =>
    have hn := piece_valid n (h n (by simp))
    cases ns with
    | nil =>
      intro w hw
      simp only [familyWords, List.mem_singleton] at hw
      subst hw
      refine ⟨by simp, fun p hp => ?_⟩
      rw [List.mem_singleton] at hp
      subst hp
      exact hn
    | cons n' ns =>
      intro w hw
      rcases List.mem_cons.1 hw with rfl | hw
      · refine ⟨by simp, fun p hp => ?_⟩
        rcases List.mem_cons.1 hp with rfl | hp
        · exact hn
        · rw [List.mem_singleton] at hp
          subst hp
          exact ⟨by simp, by decide⟩
      · exact ih (fun x hx => h x (by simp [hx])) w hw

theorem familyWords_text (ns : List FamilyName) :
    PyStr.join [',', ' '] (ns.map FamilyName.text) = PyStr.join [' '] ((familyWords ns).map wordText) := by
  induction ns with
  | nil => rfl
  | cons n ns ih =>
    cases ns with
    | nil => simp [familyWords, PyStr.join, wordText, piece_text]
    | cons n' ns =>
      have e : PyStr.join [',', ' '] ((n :: n' :: ns).map FamilyName.text) =
          n.text ++ [',', ' '] ++ PyStr.join [',', ' '] ((n' :: ns).map FamilyName.text) := by
        simp [PyStr.join]
      have e2 : familyWords (n :: n' :: ns) = [n.piece, .plain [',']] :: familyWords (n' :: ns) := rfl
      have hne : ∃ w ws, familyWords (n' :: ns) = w :: ws := by cases ns <;> exact ⟨_, _, rfl⟩
      rw [e, e2, ih]
      obtain ⟨w, ws, hw⟩ := hne
      have e3 : wordText [n.piece, .plain [',']] = n.text ++ [','] := by
        show n.piece.text ++ ([','] ++ []) = _
        rw [piece_text, List.append_nil]
      rw [hw]
      simp only [List.map_cons, e3]
      simp [PyStr.join]

theorem mem_join (c : Char) (sep : Str) (x : Str) (l : List Str) (hx : x ∈ l) (hc : c ∈ x) : c ∈ PyStr.join sep l := by
  induction l with
  | nil => simp at hx
  | cons a l ih =>
    cases l with
    | nil =>
      rw [List.mem_singleton] at hx
      subst hx
      simpa [PyStr.join] using hc
    | cons b l =>
      have e : PyStr.join sep (a :: b :: l) = a ++ sep ++ PyStr.join sep (b :: l) := by simp [PyStr.join]
      rw [e]
      rcases List.mem_cons.1 hx with rfl | hx
      · simp [hc]
      · simp [ih hx]

/-- **C78** A list of family names separated by commas, each in double quotes, in single quotes or a bare
word, gives these names in order when at least one is in quotes (for lists without quotes see
`family_partial`). -/
theorem family_quoted (ns : List FamilyName) (h : ∀ n ∈ ns, n.Valid) (hq : ∃ n ∈ ns, n.quotes ≠ .bare) :
    parseFamily (PyStr.join [',', ' '] (ns.map FamilyName.text)) = .ok (ns.map FamilyName.name) := by
  obtain ⟨n, hn, hb⟩ := hq
  have hmem : '"' ∈ PyStr.join [',', ' '] (ns.map FamilyName.text) ∨ '\'' ∈ PyStr.join [',', ' '] (ns.map FamilyName.text) := by
    cases e : n.quotes with
    | bare => exact absurd e hb
    | double =>
      refine .inl (mem_join _ _ n.text _ (List.mem_map.2 ⟨n, hn, rfl⟩) ?_)
      simp [FamilyName.text, e]
    | single =>
      refine .inr (mem_join _ _ n.text _ (List.mem_map.2 ⟨n, hn, rfl⟩) ?_)
      simp [FamilyName.text, e]
  unfold parseFamily
  rw [if_pos hmem, familyWords_text, shlex_words _ (familyWords_valid ns h), familyWords_content]
  show Except.ok (familyNames (itemsOf (ns.map FamilyName.name))) = _
  rw [names_items]
  intro m hm
  obtain ⟨x, hx, rfl⟩ := List.mem_map.1 hm
  exact (h x hx).1

/-- A non-trivial instance. -/
example : parseFamily "'DejaVu Sans', \"It's\", serif".toList = .ok ["DejaVu Sans".toList, "It's".toList, "serif".toList] :=
  family_quoted [⟨"DejaVu Sans".toList, .single⟩, ⟨"It's".toList, .double⟩, ⟨"serif".toList, .bare⟩] (by
      intro n hn
      simp only [List.mem_cons, List.not_mem_nil, or_false] at hn
      rcases hn with rfl | rfl | rfl
      · exact ⟨⟨by decide, by decide, by simp [PyStr.Trimmed]; decide⟩, by decide⟩
      · exact ⟨⟨by decide, by decide, by simp [PyStr.Trimmed]; decide⟩, by decide⟩
      · exact ⟨⟨by decide, by decide, by simp [PyStr.Trimmed]; decide⟩, by decide⟩) ⟨_, List.mem_cons_self .., by decide⟩

/-- **C77** The text of a `font` shorthand gives the keyword of each kind (the last one, or `normal`), the
size, the line height and the names in order.  Missing: names of several words without quotes, white
space around the slash, system fonts and families with the names of system fonts, see
`font_violated`. -/
theorem font_partial (ws : List (String × Kind)) (size : Str) (line : Option Str) (ns : List FamilyName) (hw : ∀ w ∈ ws, w ∈ fontWords)
    (hs : SizeOk size line) (hne : size ≠ []) (hc : ∀ c ∈ sizeText size line, c ∉ " \t\r\n\"'\\".toList) (hns : ns ≠ []) (hn : ∀ n ∈ ns, n.Valid)
    (hsys : ∀ n ∈ ns, n.name ∉ systemNames) :
    parseFont (fontText ws size line ns) = .ok (some {
      family := ns.map FamilyName.name
      size := size
      lineHeight := line.getD "normal".toList
      style := lastOf .style ws
      variant := lastOf .variant ws
      weight := lastOf .weight ws
      stretch := lastOf .stretch ws }) := by
  have htext : fontText ws size line ns =
      PyStr.join [' '] ((((ws.map fun w => [Piece.plain w.1.toList]) ++ [[Piece.plain (sizeText size line)]]) ++ familyWords ns).map wordText) := by
    unfold fontText
    simp [wordText, Piece.text, Function.comp_def]
  have hplain : ∀ w ∈ fontWords, w.1.toList ≠ [] ∧ ∀ c ∈ w.1.toList, c ∉ " \t\r\n\"'\\".toList := by decide +kernel
  unfold parseFont
  rw [htext, shlex_words]
  · have hcontent : ((((ws.map fun w => [Piece.plain w.1.toList]) ++ [[Piece.plain (sizeText size line)]]) ++ familyWords ns).map wordContent) =
        (ws.map fun w => w.1.toList) ++ [sizeText size line] ++ itemsOf (ns.map FamilyName.name) := by
      rw [List.map_append, familyWords_content]
      simp [wordContent, Piece.content, Function.comp_def]
    rw [hcontent]
    show Except.ok (parseItems _) = _
    rw [parseItems_eq ws size line _ hw hs (by simpa using hns)]
    · intro n hn'
      obtain ⟨m, hm, rfl⟩ := List.mem_map.1 hn'
      exact (hn m hm).1
    · intro l hl
      obtain ⟨m, hm, rfl⟩ := List.mem_map.1 (List.mem_of_getLast? hl)
      exact hsys m hm
  · intro w hw'
    rw [List.mem_append, List.mem_append] at hw'
    rcases hw' with (h | h) | h
    · obtain ⟨x, hx, rfl⟩ := List.mem_map.1 h
      refine ⟨by simp, fun p hp => ?_⟩
      rw [List.mem_singleton] at hp
      subst hp
      exact hplain x (hw x hx)
    · rw [List.mem_singleton] at h
      subst h
      refine ⟨by simp, fun p hp => ?_⟩
      rw [List.mem_singleton] at hp
      subst hp
      refine ⟨?_, hc⟩
      unfold sizeText
      cases line with
      | none => exact hne
      | some l => simp
    · exact familyWords_valid ns hn w h

/-- A non-trivial instance. -/
example : parseFont "italic bold 12px/30px \"DejaVu Sans\", serif".toList =
    .ok (some ⟨["DejaVu Sans".toList, "serif".toList], "12px".toList, "30px".toList, "italic".toList, "normal".toList, "bold".toList, "normal".toList⟩) :=
  font_partial [("italic", .style), ("bold", .weight)] "12px".toList (some "30px".toList) [⟨"DejaVu Sans".toList, .double⟩, ⟨"serif".toList, .bare⟩]
    (by decide) (by unfold SizeOk; decide) (by decide) (by decide) (by simp) (by
      intro n hn
      simp only [List.mem_cons, List.not_mem_nil, or_false] at hn
      rcases hn with rfl | rfl
      · exact ⟨⟨by decide, by decide, by simp [PyStr.Trimmed]; decide⟩, by decide⟩
      · exact ⟨⟨by decide, by decide, by simp [PyStr.Trimmed]; decide⟩, by decide⟩) (by decide)

/-- The size that is read. -/
def sizeRead (s : String) : Option Str :=
  match parseFont s.toList with
  | .ok (some f) => some f.size
  | _ => none

/-- **C77** is violated: in `12px Times New Roman` the size is `New`, in `12px / 2 serif` it is `2`; nothing
is read from `12px menu`. -/
theorem font_violated : sizeRead "12px Times New Roman" = some "New".toList ∧ sizeRead "12px / 2 serif" = some "2".toList ∧
    sizeRead "12px menu" = none := by decide +kernel

end SvgPy.FontText
