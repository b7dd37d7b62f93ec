import Verif.Model.MediaParse
import Verif.Lemmas.Regex
import Verif.Lemmas.PyStr
import Verif.Props.MediaQuery

/-! Property C101: the text of a media query means what it says. -/

set_option linter.unusedSimpArgs false

namespace SvgPy.MediaParse

open SvgPy.Regex SvgPy.MediaQuery PyStr

/-! ### The specification: media queries and their texts -/

/-- The inequality signs. -/
inductive Sign
  | lt | le | gt | ge

/-- Their texts. -/
def Sign.text : Sign → Str
  | .lt => ['<']
  | .le => ['<', '=']
  | .gt => ['>']
  | .ge => ['>', '=']

/-- Their meanings. -/
def Sign.cmp : Sign → Cmp
  | .lt => .lt
  | .le => .le
  | .gt => .gt
  | .ge => .ge

/-- Prefixes of feature names. -/
inductive Prefix
  | plain | min | max

/-- Their texts. -/
def Prefix.text : Prefix → Str
  | .plain => []
  | .min => "min-".toList
  | .max => "max-".toList

/-- Their meanings. -/
def Prefix.cmp : Prefix → Cmp
  | .plain => .eq
  | .min => .ge
  | .max => .le

/-- Spaces. -/
def blanks (n : Nat) : Str := List.replicate n ' '

/-- A media feature in parentheses: `(n)`, `(n: v)`, `(l < r)` or `(l < m < r)`.  The numbers are the
numbers of spaces: behind the colon, and before (one more) and behind each sign. -/
inductive Feature
  | has (n : Str)
  | is (p : Prefix) (n v : Str) (g : Nat)
  | rel (l : Str) (s : Sign) (r : Str) (g h : Nat)
  | rel2 (l : Str) (s : Sign) (m : Str) (s' : Sign) (r : Str) (g h g' h' : Nat)

/-- What is between the parentheses. -/
def Feature.body : Feature → Str
  | .has n => n
  | .is p n v g => p.text ++ n ++ ':' :: (blanks g ++ v)
  | .rel l s r g h => l ++ blanks (g + 1) ++ s.text ++ blanks h ++ r
  | .rel2 l s m s' r g h g' h' =>
    l ++ blanks (g + 1) ++ s.text ++ blanks h ++ m ++ blanks (g' + 1) ++ s'.text ++ blanks h' ++ r

/-- The text of a feature. -/
def Feature.text (f : Feature) : Str := '(' :: (f.body ++ [')'])

/-- An operand that begins like a number is a value, others are names of features. -/
def looksNumeric : Str → Bool
  | [] => false
  | x :: s =>
    let u := if x = '+' ∨ x = '-' then s else x :: s
    match u with
    | '.' :: y :: _ => y.isDigit
    | y :: _ => y.isDigit
    | [] => false

/-- The operand a text stands for. -/
def operand (s : Str) : Operand Str := if looksNumeric s then .num s else .name (String.ofList s)

/-- What a feature says. -/
def Feature.leaf : Feature → Leaf
  | .has n => .name n
  | .is p n v _ => .compare (.name (String.ofList n)) [(p.cmp, .num v)]
  | .rel l s r _ _ => .compare (operand l) [(s.cmp, operand r)]
  | .rel2 l s m s' r _ _ _ _ => .compare (operand l) [(s.cmp, operand m), (s'.cmp, operand r)]

/-- Characters of names and values: no white space and none of `( ) : , < > =`. -/
def wordChar (x : Char) : Bool := !isSpace x && !("():,<>=".toList.contains x)

/-- Names and values. -/
def Word (w : Str) : Prop := w ≠ [] ∧ ∀ x ∈ w, wordChar x = true

/-- Features made of words.  A name with a prefix is not that of a discrete feature, and one without
does not begin as if it had one. -/
def Feature.Ok : Feature → Prop
  | .has n => Word n
  | .is p n v _ => Word n ∧ Word v ∧ match p with
    | .plain => n.take 4 ≠ "min-".toList ∧ n.take 4 ≠ "max-".toList
    | _ => String.ofList n ∉ discreteFeatures
  | .rel l _ r _ _ => Word l ∧ Word r
  | .rel2 l _ m _ r _ _ _ _ => Word l ∧ Word m ∧ Word r

/-- `and` and `or`. -/
def opName : BoolOp → Str
  | .and => "and".toList
  | .or => "or".toList

/-- What follows the first feature of a condition. -/
def restText (o : BoolOp) : List Feature → Str
  | [] => []
  | f :: fs => ' ' :: (opName o ++ ' ' :: (f.text ++ restText o fs))

/-- A condition: features joined by one operator. -/
def condText (o : BoolOp) (f : Feature) (fs : List Feature) : Str := f.text ++ restText o fs

/-- What may precede a media type. -/
inductive Mod
  | none' | not' | only'

/-- Their texts. -/
def Mod.text : Mod → Str
  | .none' => []
  | .not' => "not ".toList
  | .only' => "only ".toList

/-- Media queries: a condition, a negated condition, or a media type with features. -/
inductive Query
  | cond (o : BoolOp) (f : Feature) (fs : List Feature)
  | notCond (o : BoolOp) (f : Feature) (fs : List Feature)
  | type (m : Mod) (ty : Str) (fs : List Feature)

/-- The text of a query. -/
def Query.text : Query → Str
  | .cond o f fs => condText o f fs
  | .notCond o f fs => "not ".toList ++ condText o f fs
  | .type m ty fs => m.text ++ (ty ++ restText .and fs)

/-- Media types: words other than the keywords. -/
def TypeWord (ty : Str) : Prop :=
  Word ty ∧ ty ≠ "not".toList ∧ ty ≠ "only".toList ∧ ty ≠ "and".toList ∧ ty ≠ "or".toList

/-- Queries made of words. -/
def Query.Ok : Query → Prop
  | .cond _ f fs => f.Ok ∧ ∀ g ∈ fs, g.Ok
  | .notCond _ f fs => f.Ok ∧ ∀ g ∈ fs, g.Ok
  | .type _ ty fs => TypeWord ty ∧ ∀ g ∈ fs, g.Ok

/-- The truth of a query, where `ev` tells which features and media types hold. -/
def Query.meaning (ev : Leaf → Bool) : Query → Bool
  | .cond .and f fs => (f :: fs).all fun g => ev g.leaf
  | .cond .or f fs => (f :: fs).any fun g => ev g.leaf
  | .notCond .and f fs => !((f :: fs).all fun g => ev g.leaf)
  | .notCond .or f fs => !((f :: fs).any fun g => ev g.leaf)
  | .type .not' ty fs => !(ev (.name ty) && fs.all fun g => ev g.leaf)
  | .type _ ty fs => ev (.name ty) && fs.all fun g => ev g.leaf

/-- A negation concerns a single term (the code is wrong for others, see C26). -/
def Query.SingleNot : Query → Prop
  | .notCond _ _ fs => fs = []
  | .type .not' _ fs => fs = []
  | _ => True

/-- Queries with commas between them and any spaces around. -/
def listText (qs : List (Nat × Query × Nat)) : Str :=
  join [','] (qs.map fun q => blanks q.1 ++ (q.2.1.text ++ blanks q.2.2))

/-! ### Words -/

private theorem wordChar_sp {x : Char} (h : wordChar x = true) : sp x = false := by
  simp only [wordChar, Bool.and_eq_true, Bool.not_eq_true'] at h
  exact h.1

private theorem wordChar_nsp {x : Char} (h : wordChar x = true) : nsp x = true := by
  have := wordChar_sp h
  simp only [sp] at this
  simp [nsp, this]

private theorem wordChar_ne {x y : Char} (h : wordChar x = true) (hy : wordChar y = false) : x ≠ y := by
  rintro rfl
  rw [h] at hy
  cases hy

private theorem word_cons {w : Str} (h : Word w) : ∃ x t, w = x :: t ∧ wordChar x = true ∧
    ∀ y ∈ t, wordChar y = true := by
  obtain ⟨h1, h2⟩ := h
  cases w with
  | nil => exact absurd rfl h1
  | cons x t => exact ⟨x, t, rfl, h2 x (by simp), fun y hy => h2 y (by simp [hy])⟩

private theorem blanks_sp (n : Nat) : ∀ x ∈ blanks n, sp x = true := by
  intro x hx
  rw [List.eq_of_mem_replicate hx]
  decide

private theorem word_stops {p : Char → Bool} {x : Char} {t : Str} (h : p x = false) : Stops p (x :: t) :=
  stops_cons p x t h

/-! ### What may follow a feature -/

/-- The rest of a condition, or nothing. -/
private def Follows (v : Str) : Prop := v = [] ∨ ∃ o w, v = ' ' :: (opName o ++ ' ' :: '(' :: w)

private theorem restText_follows (o : BoolOp) (fs : List Feature) : Follows (restText o fs) := by
  cases fs with
  | nil => exact Or.inl rfl
  | cons f fs => exact Or.inr ⟨o, f.body ++ [')'] ++ restText o fs, by simp only [restText, Feature.text, List.cons_append]⟩

private theorem follows_next {v : Str} (h : Follows v) (ch : Char) (ha : ch ≠ 'a') (ho : ch ≠ 'o') :
    NextNot ch v := by
  rcases h with rfl | ⟨o, w, rfl⟩
  · exact nextNot_nil ch
  · refine nextNot_spaces ch [' '] _ (by decide) ?_
    cases o with
    | and => exact nextNot_cons ch 'a' _ (by decide) (Ne.symm ha)
    | or => exact nextNot_cons ch 'o' _ (by decide) (Ne.symm ho)

private theorem follows_stops {v : Str} (h : Follows v) : Stops nsp v := by
  rcases h with rfl | ⟨o, w, rfl⟩
  · exact stops_nil _
  · exact stops_cons _ _ _ (by decide)

/-! ### Single features -/

private theorem sp_zero_word {x : Char} {t : Str} {c : Caps} {k : Cont} (h : wordChar x = true) :
    starM sp c k (x :: t) = k (x :: t) c := starM_zero (stops_cons _ _ _ (wordChar_sp h))

/-- `\(\s*\S+\s*c` fails when the run of characters behind the parenthesis has no `c` and none
follows. -/
private theorem run_none {ch : Char} {u v : Str} {c : Caps} {k : Cont} (hu : ∀ x ∈ u, nsp x = true ∧ x ≠ ch)
    (hv : Stops nsp v) (hn : NextNot ch v) (hk : ∀ s c', NextNot ch s → k s c' = none) :
    starM nsp c k (u ++ v) = none := by
  refine starM_none (fun x hx => (hu x hx).1) hv ?_
  intro a b e
  cases b with
  | nil => exact hk _ _ hn
  | cons y b =>
    have := hu y (by simp [e])
    exact hk _ _ (nextNot_cons ch y _ (by simpa [nsp, sp] using this.1) this.2)

private theorem plain_none_of_run {x : Char} {u v : Str} (hx : sp x = false) (hx' : nsp x = true)
    (hu : ∀ y ∈ u, nsp y = true ∧ y ≠ ':') (hv : Stops nsp v) (hn : NextNot ':' v) :
    matchAt rePlain ('(' :: x :: (u ++ v)) = none := by
  simp only [matchAt, rePlain, Re.cat, Re.m, Re.c, Re.plus, chrM, beq_self_eq_true, if_true, Option.map_eq_none_iff]
  rw [starM_zero (stops_cons _ _ _ hx)]
  simp only [chrM, hx', if_true]
  exact run_none hu hv hn (fun s c' h => spChr_none (by decide) h)

private theorem boolean_none_of_run {x : Char} {u v : Str} (hx : sp x = false) (hx' : nsp x = true)
    (hu : ∀ y ∈ u, nsp y = true ∧ y ≠ ')') (hv : Stops nsp v) (hn : NextNot ')' v) :
    matchAt reBoolean ('(' :: x :: (u ++ v)) = none := by
  simp only [matchAt, reBoolean, Re.cat, Re.m, Re.c, Re.plus, chrM, beq_self_eq_true, if_true, Option.map_eq_none_iff]
  rw [starM_zero (stops_cons _ _ _ hx)]
  simp only [chrM, hx', if_true]
  exact run_none hu hv hn (fun s c' h => spChr_none (by decide) h)

/-- `(n)`. -/
private theorem has_boolean {n v : Str} (hn : Word n) (hv : Follows v) :
    matchAt rePlain ('(' :: (n ++ ')' :: v)) = none ∧
      matchAt reBoolean ('(' :: (n ++ ')' :: v)) = some ('(' :: (n ++ [')']), [], v) := by
  obtain ⟨x, t, rfl, hx, ht⟩ := word_cons hn
  constructor
  · have := plain_none_of_run (x := x) (u := t ++ [')']) (v := v) (wordChar_sp hx) (wordChar_nsp hx) ?_
      (follows_stops hv) (follows_next hv _ (by decide) (by decide))
    · simpa using this
    · intro y hy
      rcases List.mem_append.1 hy with h | h
      · exact ⟨wordChar_nsp (ht y h), wordChar_ne (ht y h) (by decide)⟩
      · rw [List.mem_singleton.1 h]
        decide
  · have key : reBoolean.m ('(' :: (x :: t ++ ')' :: v)) [] (fun s' c => some (s', c)) = some (v, []) := by
      simp only [reBoolean, Re.cat, Re.m, Re.c, Re.plus, chrM, beq_self_eq_true, if_true, List.cons_append]
      rw [sp_zero_word hx]
      simp only [chrM, wordChar_nsp hx, if_true]
      refine starM_back (u := t) (w := [')']) (v := v) (fun y hy => wordChar_nsp (ht y hy)) (by decide)
        (follows_stops hv) ?_ ?_
      · intro a b e ha
        have : b = [] := by
          cases a with
          | nil => exact absurd rfl ha
          | cons y a =>
            simp only [List.cons_append, List.cons.injEq] at e
            exact (List.append_eq_nil_iff.1 e.2.symm).2
        subst this
        exact spChr_none (by decide) (follows_next hv _ (by decide) (by decide))
      · rw [List.cons_append, starM_zero (stops_cons _ _ _ (by decide))]
        simp [chrM]
    simp only [matchAt, key, Option.map_some]
    have := take_sub ('(' :: (x :: t ++ [')'])) v
    simp only [List.cons_append, List.append_assoc, List.nil_append] at this ⊢
    rw [this]

/-- The part of the pattern from the colon. -/
private def colonRe : Re :=
  .cat [.star sp, .c ':', .star sp, .group 2 (.plus nsp), .star sp, .c ')']

private theorem rePlain_head {x : Char} {s : Str} (hx : wordChar x = true) :
    rePlain.m ('(' :: x :: s) [] (fun s' c => some (s', c)) =
      starM nsp [] (fun s' c' => colonRe.m s' ((1, (x :: s).take ((x :: s).length - s'.length)) :: c')
        (fun s' c => some (s', c))) s := by
  simp only [rePlain, Re.cat, Re.m, Re.c, Re.plus, chrM, beq_self_eq_true, if_true]
  rw [sp_zero_word hx]
  simp only [chrM, wordChar_nsp hx, if_true]
  rfl

private theorem colon_none {s : Str} {c : Caps} {k : Cont} (h : NextNot ':' s) : colonRe.m s c k = none :=
  spChr_none (by decide) h

private theorem single_split {x : Char} {a b : Str} (e : [x] = a ++ b) (ha : a ≠ []) : b = [] := by
  cases a with
  | nil => exact absurd rfl ha
  | cons z a =>
    simp only [List.cons_append, List.cons.injEq] at e
    exact (List.append_eq_nil_iff.1 e.2.symm).2

private theorem colon_ok {w v : Str} {g : Nat} (hw : Word w) (hv : Follows v) (c : Caps) :
    colonRe.m (':' :: (blanks g ++ (w ++ ')' :: v))) c (fun s' c => some (s', c)) = some (v, (2, w) :: c) := by
  obtain ⟨y, u, rfl, hy, hu⟩ := word_cons hw
  simp only [colonRe, Re.cat, Re.m, Re.c, Re.plus]
  rw [starM_zero (stops_cons _ _ _ (by decide))]
  simp only [chrM, beq_self_eq_true, if_true]
  refine starM_max (blanks_sp g) (stops_cons _ _ _ (wordChar_sp hy)) ?_
  simp only [chrM, wordChar_nsp hy, if_true, List.cons_append]
  refine starM_back (u := u) (w := [')']) (v := v) (fun z hz => wordChar_nsp (hu z hz)) (by decide)
    (follows_stops hv) ?_ ?_
  · intro a b e ha
    rw [single_split e ha]
    exact spChr_none (by decide) (follows_next hv _ (by decide) (by decide))
  · rw [List.cons_append, List.nil_append, starM_zero (stops_cons _ _ _ (by decide))]
    simp only [chrM, beq_self_eq_true, if_true, Option.some.injEq, Prod.mk.injEq, true_and, List.cons.injEq,
      and_true]
    exact take_sub_cons y u (')' :: v)

/-- `(n: v)`. -/
private theorem is_plain {n w v : Str} {g : Nat} (hn : Word n) (hw : Word w) (hv : Follows v) :
    matchAt rePlain ('(' :: (n ++ ':' :: (blanks g ++ (w ++ ')' :: v)))) =
      some ('(' :: (n ++ ':' :: (blanks g ++ (w ++ [')']))), [(2, w), (1, n)], v) := by
  have key : rePlain.m ('(' :: (n ++ ':' :: (blanks g ++ (w ++ ')' :: v)))) [] (fun s' c => some (s', c)) =
      some (v, [(2, w), (1, n)]) := by
    obtain ⟨x, t, rfl, hx, ht⟩ := word_cons hn
    rw [List.cons_append, rePlain_head hx]
    have last := colon_ok (g := g) hw hv [(1, x :: t)]
    have last' : colonRe.m (':' :: (blanks g ++ (w ++ ')' :: v)))
        [(1, (x :: (t ++ ':' :: (blanks g ++ (w ++ ')' :: v)))).take
          ((x :: (t ++ ':' :: (blanks g ++ (w ++ ')' :: v)))).length - (':' :: (blanks g ++ (w ++ ')' :: v))).length))]
        (fun s' c => some (s', c)) = some (v, [(2, w), (1, x :: t)]) := by
      rw [take_sub_cons]
      exact last
    clear last
    rename' last' => last
    cases g with
    | succ g =>
      refine starM_back (u := t) (w := [':']) (v := blanks (g + 1) ++ (w ++ ')' :: v))
        (fun z hz => wordChar_nsp (ht z hz)) (by decide) ?_ ?_ last
      · exact stops_cons _ _ _ (by decide)
      · intro a b e ha
        rw [single_split e ha]
        refine colon_none (nextNot_spaces _ (blanks (g + 1)) _ (blanks_sp _) ?_)
        obtain ⟨y, u, rfl, hy, hu⟩ := word_cons hw
        exact nextNot_cons _ _ _ (wordChar_sp hy) (wordChar_ne hy (by decide))
    | zero =>
      have e0 : blanks 0 = [] := rfl
      simp only [e0, List.nil_append] at last ⊢
      have e1 : (t ++ ':' :: (w ++ ')' :: v)) = t ++ ((':' :: (w ++ [')'])) ++ v) := by simp
      have e2 : (':' :: (w ++ ')' :: v)) = (':' :: (w ++ [')'])) ++ v := by simp
      rw [e1]
      rw [e1, e2] at last
      refine starM_back (u := t) (w := ':' :: (w ++ [')'])) (v := v)
        (fun z hz => wordChar_nsp (ht z hz)) ?_ (follows_stops hv) ?_ last
      · intro z hz
        simp only [List.mem_cons, List.mem_append, List.not_mem_nil, or_false] at hz
        rcases hz with rfl | hz | rfl
        · decide
        · exact wordChar_nsp (hw.2 z hz)
        · decide
      · intro a b e ha
        cases b with
        | nil => exact colon_none (follows_next hv _ (by decide) (by decide))
        | cons z b =>
          refine colon_none ?_
          cases a with
          | nil => exact absurd rfl ha
          | cons z' a =>
            simp only [List.cons_append, List.cons.injEq] at e
            have hz : z ∈ w ++ [')'] := by rw [e.2]; simp
            simp only [List.mem_cons, List.mem_append, List.not_mem_nil, or_false] at hz
            rcases hz with hz | rfl
            · exact nextNot_cons _ _ _ (wordChar_sp (hw.2 z hz)) (wordChar_ne (hw.2 z hz) (by decide))
            · exact nextNot_cons _ _ _ (by decide) (by decide)
  simp only [matchAt, key, Option.map_some]
  have := take_sub ('(' :: (n ++ ':' :: (blanks g ++ (w ++ [')'])))) v
  simp only [List.cons_append, List.append_assoc, List.nil_append] at this ⊢
  rw [this]

/-! ### Ranges -/

private theorem chrM_cons (p : Char → Bool) (c : Caps) (k : Cont) (x : Char) (s : Str) :
    chrM p c k (x :: s) = if p x then k s c else none := rfl

private theorem sign_cons (s : Sign) : ∃ x t, s.text = x :: t ∧ (x = '<' ∨ x = '>') ∧ (t = [] ∨ t = ['=']) := by
  cases s <;> simp [Sign.text]

/-- A sign. -/
private theorem cmp_ok {s : Sign} {v : Str} {c : Caps} {k : Cont} {r : Res} (hv : v.head? ≠ some '=')
    (hk : k v c = some r) : reCmp.m (s.text ++ v) c k = some r := by
  obtain ⟨x, t, h1, h2, h3⟩ := sign_cons s
  rw [h1]
  have hx : (x == '<' || x == '>') = true := by rcases h2 with rfl | rfl <;> decide
  simp only [reCmp, Re.m, Re.opt, Re.c, List.cons_append, chrM_cons, hx, if_true]
  rcases h3 with rfl | rfl
  · have : chrM (· == '=') c k v = none := by
      cases v with
      | nil => rfl
      | cons y v =>
        have : y ≠ '=' := by simpa using hv
        simp [chrM, this]
    rw [List.nil_append, this, hk]
    rfl
  · simp [chrM, hk]

/-- The part of the pattern behind an operand: a sign and an operand. -/
private theorem signed_ok {i j : Nat} {s : Sign} {w v : Str} {h : Nat} {c : Caps} {k : Cont} {r : Res}
    (hw : Word w) (hv : Stops rightChar v)
    (hk : starM sp ((j, w) :: (i, s.text) :: c) k v = some r) :
    (Re.group i reCmp).m (s.text ++ (blanks h ++ (w ++ v))) c (fun s' c' => starM sp c' (fun s' c' =>
      (Re.group j (Re.plus rightChar)).m s' c' (fun s' c' => starM sp c' k s')) s') = some r := by
  obtain ⟨y, u, rfl, hy, hu⟩ := word_cons hw
  have rc : ∀ z, wordChar z = true → rightChar z = true := by
    intro z hz
    have h1 := wordChar_ne hz (y := '<') (by decide)
    have h2 := wordChar_ne hz (y := '>') (by decide)
    have h3 := wordChar_ne hz (y := ')') (by decide)
    have h4 := wordChar_ne hz (y := ' ') (by decide)
    simp [rightChar, h1, h2, h3, h4]
  simp only [Re.m]
  refine cmp_ok ?_ ?_
  · cases h with
    | zero =>
      have := wordChar_ne hy (y := '=') (by decide)
      simpa [blanks] using this
    | succ h => simp [blanks, List.replicate_succ]
  · refine starM_max (blanks_sp h) (stops_cons _ _ _ (wordChar_sp hy)) ?_
    simp only [Re.plus, Re.m, chrM, rc y hy, if_true, List.cons_append]
    refine starM_max (fun z hz => rc z (hu z hz)) hv ?_
    rw [take_sub_cons, take_sub]
    exact hk

private theorem leftChar_word {z : Char} (hz : wordChar z = true) : leftChar z = true := by
  have h1 := wordChar_ne hz (y := '<') (by decide)
  have h2 := wordChar_ne hz (y := '>') (by decide)
  have h4 := wordChar_ne hz (y := ' ') (by decide)
  simp [leftChar, h1, h2, h4]

private theorem sign_stops (s : Sign) (v : Str) : Stops sp (s.text ++ v) := by
  cases s <;> exact stops_cons _ _ _ (by decide)

private theorem blanks_succ (g : Nat) (v : Str) : blanks (g + 1) ++ v = ' ' :: (blanks g ++ v) := rfl

/-- What the pattern of a range records. -/
private theorem range_start {l : Str} {g : Nat} {w v : Str} {k : Cont} {r : Res} (hl : Word l) (s : Sign)
    (hk : k (s.text ++ v) [(1, l)] = some r) (hw : w = blanks (g + 1) ++ (s.text ++ v)) :
    (Re.cat [.c '(', .star sp, .group 1 (.plus leftChar), .star sp]).m ('(' :: (l ++ w)) [] k = some r := by
  obtain ⟨x, t, rfl, hx, ht⟩ := word_cons hl
  subst hw
  simp only [Re.cat, Re.m, Re.c, Re.plus, chrM_cons, beq_self_eq_true, if_true, List.cons_append]
  rw [sp_zero_word hx]
  simp only [chrM_cons, leftChar_word hx, if_true]
  refine starM_max (fun z hz => leftChar_word (ht z hz)) (stops_cons _ _ _ (by decide)) ?_
  rw [take_sub_cons]
  exact starM_max (blanks_sp (g + 1)) (sign_stops s v) hk

/-- `(l < r)`. -/
private theorem rel_range {l r v : Str} {s : Sign} {g h : Nat} (hl : Word l) (hr : Word r) :
    matchAt reRange ('(' :: (l ++ (blanks (g + 1) ++ (s.text ++ (blanks h ++ (r ++ ')' :: v)))))) =
      some ('(' :: (l ++ (blanks (g + 1) ++ (s.text ++ (blanks h ++ (r ++ [')']))))),
        [(3, r), (2, s.text), (1, l)], v) := by
  have key : reRange.m ('(' :: (l ++ (blanks (g + 1) ++ (s.text ++ (blanks h ++ (r ++ ')' :: v)))))) []
      (fun s' c => some (s', c)) = some (v, [(3, r), (2, s.text), (1, l)]) := by
    refine range_start (g := g) (v := blanks h ++ (r ++ ')' :: v)) hl s ?_ rfl
    refine signed_ok hr (stops_cons _ _ _ (by decide)) ?_
    rw [starM_zero (stops_cons _ _ _ (by decide))]
    simp [Re.m, Re.cat, Re.opt, Re.c, reCmp, chrM]
  simp only [matchAt, key, Option.map_some]
  have := take_sub ('(' :: (l ++ (blanks (g + 1) ++ (s.text ++ (blanks h ++ (r ++ [')'])))))) v
  simp only [List.cons_append, List.append_assoc, List.nil_append] at this ⊢
  rw [this]

/-- `(l < m < r)`. -/
private theorem rel2_range {l m r v : Str} {s s' : Sign} {g h g' h' : Nat} (hl : Word l) (hm : Word m)
    (hr : Word r) :
    matchAt reRange ('(' :: (l ++ (blanks (g + 1) ++ (s.text ++ (blanks h ++ (m ++ (blanks (g' + 1) ++
      (s'.text ++ (blanks h' ++ (r ++ ')' :: v)))))))))) =
      some ('(' :: (l ++ (blanks (g + 1) ++ (s.text ++ (blanks h ++ (m ++ (blanks (g' + 1) ++
      (s'.text ++ (blanks h' ++ (r ++ [')']))))))))),
        [(5, r), (4, s'.text), (3, m), (2, s.text), (1, l)], v) := by
  have key : reRange.m ('(' :: (l ++ (blanks (g + 1) ++ (s.text ++ (blanks h ++ (m ++ (blanks (g' + 1) ++
      (s'.text ++ (blanks h' ++ (r ++ ')' :: v)))))))))) []
      (fun s' c => some (s', c)) = some (v, [(5, r), (4, s'.text), (3, m), (2, s.text), (1, l)]) := by
    refine range_start (g := g) (v := blanks h ++ (m ++ (blanks (g' + 1) ++
      (s'.text ++ (blanks h' ++ (r ++ ')' :: v)))))) hl s ?_ rfl
    refine signed_ok hm (stops_cons _ _ _ (by decide)) ?_
    refine starM_max (blanks_sp (g' + 1)) (sign_stops s' _) ?_
    have inner : (Re.cat [.group 4 reCmp, .star sp, .group 5 (.plus rightChar), .star sp]).m
        (s'.text ++ (blanks h' ++ (r ++ ')' :: v))) [(3, m), (2, s.text), (1, l)]
        (fun s' c' => (Re.c ')').m s' c' (fun s' c => some (s', c))) =
        some (v, [(5, r), (4, s'.text), (3, m), (2, s.text), (1, l)]) := by
      refine signed_ok hr (stops_cons _ _ _ (by decide)) ?_
      rw [starM_zero (stops_cons _ _ _ (by decide))]
      simp [Re.m, Re.c, chrM]
    show Option.or _ _ = _
    have e : ∀ (a b : Option Res) (r : Res), a = some r → a.or b = some r := by
      rintro a b r rfl
      rfl
    exact e _ _ _ inner
  simp only [matchAt, key, Option.map_some]
  have := take_sub ('(' :: (l ++ (blanks (g + 1) ++ (s.text ++ (blanks h ++ (m ++ (blanks (g' + 1) ++
      (s'.text ++ (blanks h' ++ (r ++ [')'])))))))))) v
  simp only [List.cons_append, List.append_assoc, List.nil_append] at this ⊢
  rw [this]

/-- A range is neither plain nor boolean. -/
private theorem rel_none {l w : Str} {g : Nat} {s : Sign} (hl : Word l) :
    matchAt rePlain ('(' :: (l ++ (blanks (g + 1) ++ (s.text ++ w)))) = none ∧
      matchAt reBoolean ('(' :: (l ++ (blanks (g + 1) ++ (s.text ++ w)))) = none := by
  obtain ⟨x, t, rfl, hx, ht⟩ := word_cons hl
  have hst : Stops nsp (blanks (g + 1) ++ (s.text ++ w)) := stops_cons _ _ _ (by decide)
  have hne : ∀ ch, ch ≠ '<' → ch ≠ '>' → NextNot ch (blanks (g + 1) ++ (s.text ++ w)) := by
    intro ch h1 h2
    refine nextNot_spaces _ _ _ (blanks_sp _) ?_
    obtain ⟨y, u, e, hy, _⟩ := sign_cons s
    rw [e]
    rcases hy with rfl | rfl
    · exact nextNot_cons _ _ _ (by decide) (Ne.symm h1)
    · exact nextNot_cons _ _ _ (by decide) (Ne.symm h2)
  constructor
  · exact plain_none_of_run (wordChar_sp hx) (wordChar_nsp hx)
      (fun y hy => ⟨wordChar_nsp (ht y hy), wordChar_ne (ht y hy) (by decide)⟩) hst (hne _ (by decide) (by decide))
  · exact boolean_none_of_run (wordChar_sp hx) (wordChar_nsp hx)
      (fun y hy => ⟨wordChar_nsp (ht y hy), wordChar_ne (ht y hy) (by decide)⟩) hst (hne _ (by decide) (by decide))

/-! ### Conditions -/

/-- The alternative that recognises a feature. -/
private def tagOf : Feature → Tag
  | .has _ => .boolean
  | .is _ _ _ _ => .plain
  | .rel _ _ _ _ _ => .range
  | .rel2 _ _ _ _ _ _ _ _ _ => .range

private theorem name_word {p : Prefix} {n : Str} (h : Word n) : Word (p.text ++ n) := by
  refine ⟨by simp [h.1], fun x hx => ?_⟩
  rcases List.mem_append.1 hx with hx | hx
  · cases p
    · simp [Prefix.text] at hx
    · have : ∀ x ∈ Prefix.min.text, wordChar x = true := by decide
      exact this x hx
    · have : ∀ x ∈ Prefix.max.text, wordChar x = true := by decide
      exact this x hx
  · exact h.2 x hx

/-- A feature is found. -/
private theorem first_feature {f : Feature} {v : Str} (hf : f.Ok) (hv : Follows v) :
    firstAlt inParensRe (f.text ++ v) = some (tagOf f, f.text, v) := by
  cases f with
  | has n =>
    obtain ⟨h1, h2⟩ := has_boolean hf hv
    have e : (Feature.has n).text ++ v = '(' :: (n ++ ')' :: v) := by simp [Feature.text, Feature.body]
    simp only [inParensRe, firstAlt, e, h1, h2]
    rfl
  | is p n w g =>
    have h1 := is_plain (g := g) (name_word (p := p) hf.1) hf.2.1 hv
    have e : (Feature.is p n w g).text ++ v = '(' :: (p.text ++ n ++ ':' :: (blanks g ++ (w ++ ')' :: v))) := by
      simp [Feature.text, Feature.body]
    simp only [inParensRe, firstAlt, e, h1, tagOf]
    simp [Feature.text, Feature.body]
  | rel l s r g h =>
    have e : (Feature.rel l s r g h).text ++ v =
        '(' :: (l ++ (blanks (g + 1) ++ (s.text ++ (blanks h ++ (r ++ ')' :: v))))) := by
      simp [Feature.text, Feature.body]
    obtain ⟨h1, h2⟩ := rel_none (g := g) (s := s) (w := blanks h ++ (r ++ ')' :: v)) hf.1
    simp only [inParensRe, firstAlt, e, h1, h2, rel_range hf.1 hf.2, tagOf]
    simp [Feature.text, Feature.body]
  | rel2 l s m s' r g h g' h' =>
    have e : (Feature.rel2 l s m s' r g h g' h').text ++ v =
        '(' :: (l ++ (blanks (g + 1) ++ (s.text ++ (blanks h ++ (m ++ (blanks (g' + 1) ++
      (s'.text ++ (blanks h' ++ (r ++ ')' :: v))))))))) := by
      simp [Feature.text, Feature.body]
    obtain ⟨h1, h2⟩ := rel_none (g := g) (s := s) (w := blanks h ++ (m ++ (blanks (g' + 1) ++
      (s'.text ++ (blanks h' ++ (r ++ ')' :: v)))))) hf.1
    simp only [inParensRe, firstAlt, e, h1, h2, rel2_range hf.1 hf.2.1 hf.2.2, tagOf]
    simp [Feature.text, Feature.body]

/-- An operator is found. -/
private theorem first_op (o : BoolOp) (v : Str) :
    firstAlt inParensRe (' ' :: (opName o ++ ' ' :: '(' :: v)) = some (.op, ' ' :: (opName o ++ [' ']), '(' :: v) := by
  have z : Stops sp ('(' :: v) := stops_cons _ _ _ (by decide)
  have hsp : sp ' ' = true := by decide
  have fin : ∀ c : Caps, (Re.plus sp).m (' ' :: '(' :: v) c (fun s' c => some (s', c)) = some ('(' :: v, c) := by
    intro c
    simp only [Re.plus, Re.m, chrM_cons, hsp, if_true]
    rw [starM_zero z]
  have key : ∃ c, reOp.m (' ' :: (opName o ++ ' ' :: '(' :: v)) [] (fun s' c => some (s', c)) = some ('(' :: v, c) := by
    have hst : Stops sp (opName o ++ ' ' :: '(' :: v) := by cases o <;> exact stops_cons _ _ _ (by decide)
    have e : reOp.m (' ' :: (opName o ++ ' ' :: '(' :: v)) [] (fun s' c => some (s', c)) =
        (Re.group 1 (.alt (.lit "and".toList) (.lit "or".toList))).m (opName o ++ ' ' :: '(' :: v) []
          (fun s' c' => (Re.plus sp).m s' c' (fun s' c => some (s', c))) := by
      simp only [reOp, Re.cat]
      rw [Re.m, Re.plus, Re.m, Re.m, chrM_cons, if_pos hsp]
      show starM sp _ _ _ = _
      rw [starM_zero hst]
      rfl
    rw [e]
    cases o with
    | and =>
      refine ⟨[(1, "and".toList)], ?_⟩
      rw [Re.m, Re.m, opName, lit_ok, take_sub, fin]
      rfl
    | or =>
      refine ⟨[(1, "or".toList)], ?_⟩
      rw [Re.m, Re.m, opName, lit_ok, take_sub, fin]
      rfl
  obtain ⟨c, key⟩ := key
  have hop : matchAt reOp (' ' :: (opName o ++ ' ' :: '(' :: v)) = some (' ' :: (opName o ++ [' ']), c, '(' :: v) := by
    simp only [matchAt, key, Option.map_some]
    have := take_sub (' ' :: (opName o ++ [' '])) ('(' :: v)
    simp only [List.cons_append, List.append_assoc, List.nil_append] at this ⊢
    rw [this]
  have n1 : matchAt rePlain (' ' :: (opName o ++ ' ' :: '(' :: v)) = none := rfl
  have n2 : matchAt reBoolean (' ' :: (opName o ++ ' ' :: '(' :: v)) = none := rfl
  have n3 : matchAt reRange (' ' :: (opName o ++ ' ' :: '(' :: v)) = none := rfl
  have n4 : matchAt reNot (' ' :: (opName o ++ ' ' :: '(' :: v)) = none := rfl
  have n5 : matchAt reParens (' ' :: (opName o ++ ' ' :: '(' :: v)) = none := rfl
  simp only [inParensRe, firstAlt, n1, n2, n3, n4, n5, hop]

/-- The matches in the rest of a condition. -/
private def restMatches (o : BoolOp) : List Feature → List (Tag × Str)
  | [] => []
  | f :: fs => (.op, ' ' :: (opName o ++ [' '])) :: (tagOf f, f.text) :: restMatches o fs

private theorem firstAlt_nil : firstAlt inParensRe [] = none := rfl

private theorem find_cond (o : BoolOp) (f : Feature) (fs : List Feature) (hf : f.Ok) (hfs : ∀ g ∈ fs, g.Ok)
    (n : Nat) (hn : (f.text ++ restText o fs).length < n) :
    findIter inParensRe n (f.text ++ restText o fs) = (tagOf f, f.text) :: restMatches o fs := by
  induction fs generalizing f n with
  | nil =>
    cases n with
    | zero => cases hn
    | succ n =>
      simp only [findIter, first_feature hf (restText_follows o [])]
      cases n with
      | zero => simp [restText, Feature.text] at hn
      | succ n => simp [findIter, restText, firstAlt_nil, restMatches]
  | cons g gs ih =>
    cases n with
    | zero => cases hn
    | succ n =>
      simp only [findIter, first_feature hf (restText_follows o (g :: gs))]
      cases n with
      | zero => simp [restText, Feature.text] at hn
      | succ n =>
        have e : restText o (g :: gs) = ' ' :: (opName o ++ ' ' :: '(' :: (g.body ++ [')'] ++ restText o gs)) := by
          simp [restText, Feature.text]
        have e2 : '(' :: (g.body ++ [')'] ++ restText o gs) = g.text ++ restText o gs := by simp [Feature.text]
        rw [e]
        simp only [findIter, first_op]
        rw [e2, ih g (hfs g (by simp)) (fun x hx => hfs x (by simp [hx])) n]
        · rfl
        · simp only [restText, List.length_append, List.length_cons] at hn ⊢
          omega

/-- What the matcher records is turned into the feature. -/
private theorem sign_cmp (s : Sign) : cmpOf s.text = s.cmp := by cases s <;> decide

/-- The optional exponent never fails. -/
private def expRe : Re :=
  .opt (.cat [.chr (fun x => x == 'e' || x == 'E'), .opt (.chr fun x => x == '+' || x == '-'), .plus digit])

private theorem exp_isSome (s : Str) (c : Caps) : (expRe.m s c (fun s' c => some (s', c))).isSome = true := by
  simp only [expRe, Re.opt, Re.m]
  cases (Re.m _ s c _) <;> rfl

/-- The digits of a number. -/
private def digitsRe : Re :=
  .alt (.cat [.star digit, .c '.', .plus digit]) (.cat [.plus digit, .opt (.c '.'), .star digit])

/-- A number without sign. -/
private def startsDigits : Str → Bool
  | '.' :: y :: _ => y.isDigit
  | y :: _ => y.isDigit
  | [] => false

private theorem digits_iff (s : Str) (c : Caps) :
    (digitsRe.m s c (fun s' c' => expRe.m s' c' (fun s' c => some (s', c)))).isSome = startsDigits s := by
  simp only [digitsRe, Re.m, Option.isSome_or]
  cases s with
  | nil => rfl
  | cons x s =>
    by_cases hd : digit x = true
    · have hx : x.isDigit = true := hd
      have hne : x ≠ '.' := by
        rintro rfl
        exact absurd hd (by decide)
      have h2 : startsDigits (x :: s) = true := by
        unfold startsDigits
        split
        · rename_i he
          simp only [List.cons.injEq] at he
          exact absurd he.1 hne
        · rename_i he
          simp only [List.cons.injEq] at he
          rw [← he.1]
          exact hx
        · rename_i he
          cases he
      rw [h2]
      have : (Re.m (Re.cat [.plus digit, .opt (.c '.'), .star digit]) (x :: s) c
          (fun s' c' => expRe.m s' c' (fun s' c => some (s', c)))).isSome = true := by
        simp only [Re.cat, Re.m, Re.plus, chrM_cons, hd, if_true]
        refine starM_isSome (fun s => ?_) s
        simp only [Re.opt, Re.m, Option.isSome_or]
        rw [starM_isSome (fun s => exp_isSome s c) s]
        simp
      rw [this]
      simp
    · have hd' : digit x = false := by simpa using hd
      have h2 : (Re.m (Re.cat [.plus digit, .opt (.c '.'), .star digit]) (x :: s) c
          (fun s' c' => expRe.m s' c' (fun s' c => some (s', c)))) = none := by
        simp only [Re.cat, Re.m, Re.plus, chrM_cons, hd']
        rfl
      rw [h2]
      have h1 : (Re.m (Re.cat [.star digit, .c '.', .plus digit]) (x :: s) c
          (fun s' c' => expRe.m s' c' (fun s' c => some (s', c)))) =
          (if (x == '.') = true then (Re.plus digit).m s c (fun s' c' => expRe.m s' c' (fun s' c => some (s', c)))
            else none) := by
        simp only [Re.cat, Re.m, Re.c]
        rw [starM_zero (stops_cons _ _ _ hd')]
        rfl
      rw [h1]
      by_cases hx : x = '.'
      · subst hx
        simp only [beq_self_eq_true, if_true, Option.isSome_none, Bool.or_false]
        cases s with
        | nil => rfl
        | cons y s =>
          simp only [startsDigits, Re.plus, Re.m, chrM_cons]
          by_cases hy : digit y = true
          · have : y.isDigit = true := hy
            rw [this, if_pos hy]
            exact starM_isSome (fun s => exp_isSome s c) s
          · rw [if_neg hy]
            simpa [digit] using hy
      · have : startsDigits (x :: s) = false := by
          unfold startsDigits
          split
          · rename_i he
            simp only [List.cons.injEq] at he
            exact absurd he.1 hx
          · rename_i he
            simp only [List.cons.injEq] at he
            rw [← he.1]
            exact hd'
          · rfl
        simp [hx, this]

private theorem number_iff (s : Str) : (matchAt reNumber s).isSome = looksNumeric s := by
  have e : (matchAt reNumber s).isSome = ((chrM (fun x => x == '+' || x == '-') []
      (fun s' c' => digitsRe.m s' c' (fun s' c' => expRe.m s' c' (fun s' c => some (s', c)))) s).isSome ||
        startsDigits s) := by
    rw [← digits_iff s []]
    simp only [matchAt, Option.isSome_map]
    show (Option.or _ _).isSome = _
    rw [Option.isSome_or]
    rfl
  rw [e]
  cases s with
  | nil => rfl
  | cons x s =>
    rw [chrM_cons]
    by_cases hx : x = '+' ∨ x = '-'
    · have h1 : (x == '+' || x == '-') = true := by rcases hx with rfl | rfl <;> decide
      have h2 : startsDigits (x :: s) = false := by rcases hx with rfl | rfl <;> rfl
      simp only [h1, if_true, h2, Bool.or_false, digits_iff, looksNumeric, hx]
      unfold startsDigits
      rfl
    · have h1 : (x == '+' || x == '-') = false := by simpa using hx
      simp only [h1, Bool.false_eq_true, if_false, Option.isSome_none, Bool.false_or, looksNumeric, hx]
      unfold startsDigits
      rfl

private theorem operandOf_eq (s : Str) : operandOf s = operand s := by
  simp only [operandOf, operand, number_iff]

private theorem word_noparen {x : Char} (h : wordChar x = true) : (x == '(' || x == ')') = false := by
  have h1 := wordChar_ne h (y := '(') (by decide)
  have h2 := wordChar_ne h (y := ')') (by decide)
  simp [h1, h2]

private theorem boolean_leaf {n : Str} (hn : Word n) : booleanLeaf (Feature.has n).text = .name n := by
  have h1 : ∀ u : Str, (∀ x ∈ u, wordChar x = true) → u ≠ [] → ∀ t,
      (u ++ t).dropWhile (fun x => x == '(' || x == ')') = u ++ t := by
    intro u hu hne t
    cases u with
    | nil => exact absurd rfl hne
    | cons x u => simp only [List.cons_append, List.dropWhile_cons, word_noparen (hu x (by simp))]; rfl
  simp only [booleanLeaf, Feature.text, Feature.body, List.dropWhile_cons]
  simp only [beq_self_eq_true, Bool.true_or, if_true]
  rw [h1 n hn.2 hn.1]
  simp only [List.reverse_append, List.reverse_cons, List.reverse_nil, List.nil_append, List.cons_append,
    List.dropWhile_cons]
  have : (')' == '(' || ')' == ')') = true := by decide
  rw [if_pos this]
  have h2 := h1 n.reverse (fun x hx => hn.2 x (by simpa using hx)) (by simpa using hn.1) []
  simp only [List.append_nil] at h2
  rw [h2, List.reverse_reverse]

private theorem plain_leaf {p : Prefix} {n v : Str} {g : Nat} (h : (Feature.is p n v g).Ok) :
    plainLeaf (Feature.is p n v g).text = .ok (Feature.is p n v g).leaf := by
  have h1 := is_plain (g := g) (name_word (p := p) h.1) h.2.1 (Or.inl rfl : Follows [])
  have e : (Feature.is p n v g).text = '(' :: (p.text ++ n ++ ':' :: (blanks g ++ (v ++ [')']))) := by
    simp [Feature.text, Feature.body]
  have hp : plainOp (p.text ++ n) = (p.cmp, n) := by
    have h3 := h.2.2
    cases p with
    | plain =>
      show plainOp n = _
      simp only [plainOp, Prefix.cmp]
      have c1 : ¬ ((n.take 4 = "max-".toList ∨ n.take 4 = "min-".toList) ∧
          String.ofList (n.drop 4) ∈ discreteFeatures) := by
        rintro ⟨hh | hh, _⟩
        · exact h3.2 hh
        · exact h3.1 hh
      rw [if_neg c1, if_neg h3.2, if_neg h3.1]
    | min =>
      simp only [plainOp, Prefix.cmp]
      have a1 : (Prefix.min.text ++ n).take 4 = "min-".toList := rfl
      have a2 : (Prefix.min.text ++ n).drop 4 = n := rfl
      rw [a1, a2, if_neg (fun hh => h3 hh.2), if_neg (by decide), if_pos rfl]
    | max =>
      simp only [plainOp, Prefix.cmp]
      have a1 : (Prefix.max.text ++ n).take 4 = "max-".toList := rfl
      have a2 : (Prefix.max.text ++ n).drop 4 = n := rfl
      rw [a1, a2, if_neg (fun hh => h3 hh.2), if_pos rfl]
  simp only [plainLeaf, e, h1]
  have g1 : groupOf [(2, v), (1, p.text ++ n)] 1 = some (p.text ++ n) := rfl
  have g2 : groupOf [(2, v), (1, p.text ++ n)] 2 = some v := rfl
  rw [g1, g2]
  simp only [Option.getD_some, hp, Feature.leaf]

private theorem range_leaf {l r : Str} {s : Sign} {g h : Nat} (hf : (Feature.rel l s r g h).Ok) :
    rangeLeaf (Feature.rel l s r g h).text = .ok (Feature.rel l s r g h).leaf := by
  have h1 := rel_range (s := s) (g := g) (h := h) (v := []) hf.1 hf.2
  have e : (Feature.rel l s r g h).text = '(' :: (l ++ (blanks (g + 1) ++ (s.text ++ (blanks h ++ (r ++ [')']))))) := by
    simp [Feature.text, Feature.body]
  simp only [rangeLeaf, e, h1]
  have g1 : groupOf [(3, r), (2, s.text), (1, l)] 1 = some l := rfl
  have g2 : groupOf [(3, r), (2, s.text), (1, l)] 2 = some s.text := rfl
  have g3 : groupOf [(3, r), (2, s.text), (1, l)] 3 = some r := rfl
  have g5 : range2Of [(3, r), (2, s.text), (1, l)] = [] := rfl
  rw [g1, g2, g3, g5]
  simp only [Option.getD_some, operandOf_eq, sign_cmp, Feature.leaf]

private theorem range2_leaf {l m r : Str} {s s' : Sign} {g h g' h' : Nat}
    (hf : (Feature.rel2 l s m s' r g h g' h').Ok) :
    rangeLeaf (Feature.rel2 l s m s' r g h g' h').text = .ok (Feature.rel2 l s m s' r g h g' h').leaf := by
  have h1 := rel2_range (s := s) (s' := s') (g := g) (h := h) (g' := g') (h' := h') (v := []) hf.1 hf.2.1 hf.2.2
  have e : (Feature.rel2 l s m s' r g h g' h').text =
      '(' :: (l ++ (blanks (g + 1) ++ (s.text ++ (blanks h ++ (m ++ (blanks (g' + 1) ++
      (s'.text ++ (blanks h' ++ (r ++ [')']))))))))) := by
    simp [Feature.text, Feature.body]
  simp only [rangeLeaf, e, h1]
  have g1 : groupOf [(5, r), (4, s'.text), (3, m), (2, s.text), (1, l)] 1 = some l := rfl
  have g2 : groupOf [(5, r), (4, s'.text), (3, m), (2, s.text), (1, l)] 2 = some s.text := rfl
  have g3 : groupOf [(5, r), (4, s'.text), (3, m), (2, s.text), (1, l)] 3 = some m := rfl
  have g5 : range2Of [(5, r), (4, s'.text), (3, m), (2, s.text), (1, l)] = [(cmpOf s'.text, operandOf r)] := by
    have : groupOf [(5, r), (4, s'.text), (3, m), (2, s.text), (1, l)] 5 = some r := rfl
    simp only [range2Of, this]
    rw [if_neg hf.2.2.1]
    rfl
  rw [g1, g2, g3, g5]
  simp only [Option.getD_some, operandOf_eq, sign_cmp, Feature.leaf]

/-- A match of a feature adds the feature. -/
private theorem loop_feature {rec : Str → Tree → Run Tree} {f : Feature} (hf : f.Ok) (ms : List (Tag × Str))
    (live : Bool) (t : Tree) :
    parensLoop rec ((tagOf f, f.text) :: ms) live t = parensLoop rec ms live (t.add f.leaf) := by
  cases f with
  | has n => simp only [tagOf, parensLoop, boolean_leaf hf, Feature.leaf]
  | is p n v g => simp only [tagOf, parensLoop, plain_leaf hf, addLeaf, andThen]
  | rel l s r g h => simp only [tagOf, parensLoop, range_leaf hf, addLeaf, andThen]
  | rel2 l s m s' r g h g' h' => simp only [tagOf, parensLoop, range2_leaf hf, addLeaf, andThen]

/-- What a condition adds to a node. -/
private def addRest (t : Tree) (o : BoolOp) : List Feature → Tree
  | [] => t
  | f :: fs => addRest ((t.addOp o).add f.leaf) o fs

private theorem opText_eq (o : BoolOp) : opText (' ' :: (opName o ++ [' '])) = o := by cases o <;> decide

private theorem loop_rest {rec : Str → Tree → Run Tree} {o : BoolOp} {fs : List Feature} (hfs : ∀ g ∈ fs, g.Ok)
    (t : Tree) : parensLoop rec (restMatches o fs) true t = some (.ok (addRest t o fs)) := by
  induction fs generalizing t with
  | nil => rfl
  | cons f fs ih =>
    have : parensLoop rec (restMatches o (f :: fs)) true t =
        parensLoop rec ((tagOf f, f.text) :: restMatches o fs) true (t.addOp o) := by
      simp only [restMatches, parensLoop, opText_eq, if_true]
    rw [this, loop_feature (hfs f (by simp)), ih (fun g hg => hfs g (by simp [hg]))]
    rfl

private theorem parens_cond {rec : Str → Tree → Run Tree} {o : BoolOp} {f : Feature} {fs : List Feature} (hf : f.Ok)
    (hfs : ∀ g ∈ fs, g.Ok) (t : Tree) :
    parseParens rec (condText o f fs) t = some (.ok (addRest (t.start.add f.leaf) o fs)) := by
  simp only [parseParens, findAll, condText]
  rw [find_cond o f fs hf hfs _ (Nat.lt_succ_self _), loop_feature hf, loop_rest hfs]

/-! ### Queries -/

private theorem body_ne {f : Feature} (hf : f.Ok) : f.body ≠ [] := by
  cases f with
  | has n => exact hf.1
  | is p n v g => simp [Feature.body]
  | rel l s r g h => simp [Feature.body, hf.1.1]
  | rel2 l s m s' r g h g' h' => simp [Feature.body, hf.1.1]

/-- Characters that no text has. -/
private def Clean (x : Char) : Prop := x ≠ '\n' ∧ x ≠ ','

private theorem clean_word {x : Char} (h : wordChar x = true) : Clean x :=
  ⟨wordChar_ne h (by decide), wordChar_ne h (by decide)⟩

private theorem clean_blanks {g : Nat} : ∀ x ∈ blanks g, Clean x := by
  intro x hx
  rw [List.eq_of_mem_replicate hx]
  exact ⟨by decide, by decide⟩

private theorem clean_append {a b : Str} (ha : ∀ x ∈ a, Clean x) (hb : ∀ x ∈ b, Clean x) : ∀ x ∈ a ++ b, Clean x := by
  intro x hx
  rcases List.mem_append.1 hx with h | h
  · exact ha x h
  · exact hb x h

private theorem clean_cons {x : Char} {b : Str} (ha : Clean x) (hb : ∀ x ∈ b, Clean x) : ∀ y ∈ x :: b, Clean y := by
  intro y hy
  rcases List.mem_cons.1 hy with h | h
  · exact h ▸ ha
  · exact hb y h

private theorem clean_nil : ∀ x ∈ ([] : Str), Clean x := by simp

private theorem clean_of {w : Str} (h : Word w) : ∀ x ∈ w, Clean x := fun x hx => clean_word (h.2 x hx)

private theorem clean_sign (s : Sign) : ∀ x ∈ s.text, Clean x := by
  cases s <;> simp [Sign.text, Clean]

private theorem clean_body {f : Feature} (hf : f.Ok) : ∀ x ∈ f.body, Clean x := by
  cases f with
  | has n => exact clean_of hf
  | is p n v g =>
    exact clean_append (clean_of (name_word hf.1)) (clean_cons ⟨by decide, by decide⟩
      (clean_append clean_blanks (clean_of hf.2.1)))
  | rel l s r g h =>
    exact clean_append (clean_append (clean_append (clean_append (clean_of hf.1) clean_blanks) (clean_sign s))
      clean_blanks) (clean_of hf.2)
  | rel2 l s m s' r g h g' h' =>
    exact clean_append (clean_append (clean_append (clean_append (clean_append (clean_append (clean_append
      (clean_append (clean_of hf.1) clean_blanks) (clean_sign s)) clean_blanks) (clean_of hf.2.1)) clean_blanks)
      (clean_sign s')) clean_blanks) (clean_of hf.2.2)

private theorem clean_op (o : BoolOp) : ∀ x ∈ opName o, Clean x := by
  cases o <;> simp [opName, Clean]

/-- A condition begins and ends with parentheses. -/
private theorem cond_shape {o : BoolOp} {f : Feature} {fs : List Feature} (hf : f.Ok) (hfs : ∀ g ∈ fs, g.Ok) :
    ∃ mid, condText o f fs = '(' :: (mid ++ [')']) ∧ mid ≠ [] ∧ ∀ x ∈ mid, Clean x := by
  induction fs generalizing f with
  | nil => exact ⟨f.body, by simp [condText, restText, Feature.text], body_ne hf, clean_body hf⟩
  | cons g gs ih =>
    obtain ⟨mid, h1, h2, h3⟩ := ih (hfs g (by simp)) (fun x hx => hfs x (by simp [hx]))
    refine ⟨f.body ++ (')' :: ' ' :: (opName o ++ (' ' :: '(' :: mid))), ?_, ?_, ?_⟩
    · have : condText o f (g :: gs) = f.text ++ (' ' :: (opName o ++ ' ' :: condText o g gs)) := rfl
      rw [this, h1]
      simp [Feature.text]
    · simp
    · exact clean_append (clean_body hf) (clean_cons ⟨by decide, by decide⟩ (clean_cons ⟨by decide, by decide⟩
        (clean_append (clean_op o) (clean_cons ⟨by decide, by decide⟩ (clean_cons ⟨by decide, by decide⟩ h3)))))

private theorem dot_clean {x : Char} (h : Clean x) : dot x = true := by simp [dot, h.1]

/-- `\(.+\)` takes everything up to the last parenthesis. -/
private theorem parens_m {mid : Str} {c : Caps} {k : Cont} {r : Res} (hne : mid ≠ []) (hm : ∀ x ∈ mid, Clean x)
    (hk : k [] c = some r) : reParens.m ('(' :: (mid ++ [')'])) c k = some r := by
  cases mid with
  | nil => exact absurd rfl hne
  | cons x mid =>
    simp only [reParens, Re.cat, Re.m, Re.c, Re.plus, chrM_cons, beq_self_eq_true, if_true, List.cons_append,
      dot_clean (hm x (by simp))]
    refine starM_back (u := mid) (w := [')']) (v := []) (fun y hy => dot_clean (hm y (by simp [hy]))) (by decide)
      (stops_nil _) ?_ ?_
    · intro a b e ha
      rw [single_split e ha]
      rfl
    · simpa [chrM] using hk

private theorem matchAt_all {r : Re} {s : Str} {c : Caps} (h : r.m s [] (fun s' c => some (s', c)) = some ([], c)) :
    matchAt r s = some (s, c, []) := by
  simp [matchAt, h]

private theorem find_one {s : Str} {tag : Tag} (h : firstAlt mediaQueryRe s = some (tag, s, [])) (hs : s ≠ []) :
    findAll mediaQueryRe s = [(tag, s)] := by
  have hn : firstAlt mediaQueryRe [] = none := rfl
  cases s with
  | nil => exact absurd rfl hs
  | cons x s => simp [findAll, findIter, h, hn]

private theorem find_parens {mid : Str} (hne : mid ≠ []) (hm : ∀ x ∈ mid, Clean x) :
    findAll mediaQueryRe ('(' :: (mid ++ [')'])) = [(.parens, '(' :: (mid ++ [')']))] := by
  refine find_one ?_ (by simp)
  have h1 : matchAt reNot ('(' :: (mid ++ [')'])) = none := rfl
  have h2 : matchAt reParens ('(' :: (mid ++ [')'])) = _ := matchAt_all (parens_m hne hm rfl)
  simp only [mediaQueryRe, firstAlt, h1, h2]

private theorem parse_cond {n : Nat} {o : BoolOp} {f : Feature} {fs : List Feature} (hf : f.Ok)
    (hfs : ∀ g ∈ fs, g.Ok) (t : Tree) :
    parseQuery (n + 1) (condText o f fs) t = some (.ok (addRest (t.start.add f.leaf) o fs)) := by
  obtain ⟨mid, h1, h2, h3⟩ := cond_shape (o := o) hf hfs
  have h := find_parens h2 h3
  rw [← h1] at h
  simp only [parseQuery, h, queryLoop, parens_cond hf hfs, andThen]

private theorem parse_not {n : Nat} {o : BoolOp} {f : Feature} {fs : List Feature} (hf : f.Ok)
    (hfs : ∀ g ∈ fs, g.Ok) (t : Tree) :
    parseQuery (n + 2) ("not ".toList ++ condText o f fs) t =
      some (.ok (addRest (newOperand.add f.leaf) o fs)) := by
  obtain ⟨mid, h1, h2, h3⟩ := cond_shape (o := o) hf hfs
  have key : reNot.m ("not ".toList ++ condText o f fs) [] (fun s' c => some (s', c)) = some ([], []) := by
    have e : "not ".toList ++ condText o f fs = "not".toList ++ (' ' :: condText o f fs) := rfl
    have e2 : reNot = .seq (.lit "not".toList) (.seq (.plus sp) reParens) := rfl
    rw [e, e2, Re.m, lit_ok, h1]
    have hsp : sp ' ' = true := by decide
    simp only [Re.m, Re.plus, chrM_cons, hsp, if_true]
    rw [starM_zero (stops_cons _ _ _ (by decide))]
    exact parens_m h2 h3 rfl
  have h : findAll mediaQueryRe ("not ".toList ++ condText o f fs) =
      [(.mnot, "not ".toList ++ condText o f fs)] := by
    refine find_one ?_ (by simp)
    simp only [mediaQueryRe, firstAlt, matchAt_all key]
  have hcut : cutWs ("not ".toList ++ condText o f fs) = some ("not".toList, condText o f fs) := by
    rw [h1]
    have h4 : ("not ".toList ++ '(' :: (mid ++ [')'])) = 'n' :: 'o' :: 't' :: ' ' :: '(' :: (mid ++ [')']) := rfl
    rw [h4]
    simp only [cutWs]
    have d : List.dropWhile isSpace ('(' :: (mid ++ [')'])) = '(' :: (mid ++ [')']) := by
      rw [List.dropWhile_cons, if_neg (by decide)]
    rw [if_neg (by decide), if_neg (by decide), if_neg (by decide), if_pos (by decide), d]
    rfl
  rw [parseQuery, h]
  simp only [queryLoop, parseNot, hcut]
  rw [parse_cond hf hfs]
  rfl

/-! ### Media types -/

private theorem word_prefix {K ty tail z : Str} {y : Char} (hK : ∀ x ∈ K, nsp x = true) (hty : ∀ x ∈ ty, nsp x = true)
    (ht : Stops nsp tail) (hy : sp y = true) (e : ty ++ tail = K ++ y :: z) : ty = K := by
  have h1 : (ty ++ tail).takeWhile nsp = ty := by
    rw [List.takeWhile_append_of_pos hty]
    cases tail with
    | nil => simp
    | cons x tail =>
      have := ht x rfl
      simp [this]
  have h2 : (K ++ y :: z).takeWhile nsp = K := by
    rw [List.takeWhile_append_of_pos hK]
    have : nsp y = false := by simpa [nsp, sp] using hy
    simp [this]
  rw [← h1, e, h2]

private theorem rest_stops (o : BoolOp) (fs : List Feature) : Stops nsp (restText o fs) := follows_stops (restText_follows o fs)

private theorem type_nsp {ty : Str} (h : TypeWord ty) : ∀ x ∈ ty, nsp x = true := fun x hx => wordChar_nsp (h.1.2 x hx)

/-- A keyword with white space behind it does not begin a media type. -/
private theorem keyword_none {K ty tail : Str} {c : Caps} {k : Cont} (hK : ∀ x ∈ K, nsp x = true) (hty : TypeWord ty)
    (hne : ty ≠ K) (ht : Stops nsp tail) : (Re.seq (.lit K) (.plus sp)).m (ty ++ tail) c k = none := by
  cases h : (Re.seq (.lit K) (.plus sp)).m (ty ++ tail) c k with
  | none => rfl
  | some r =>
    exfalso
    rw [Re.m] at h
    obtain ⟨t, h1, h2⟩ := lit_some _ _ _ _ _ h
    cases t with
    | nil => cases h2
    | cons y z =>
      simp only [Re.plus, Re.m, chrM_cons] at h2
      split at h2
      · rename_i hy
        exact hne (word_prefix hK (type_nsp hty) ht hy h1)
      · cases h2

/-- `and (…)` behind a media type. -/
private def andRe : Re := .cat [.plus sp, .lit "and".toList, .plus sp, .loop reParens]

private theorem and_ok {f : Feature} {fs : List Feature} {c : Caps} (hf : f.Ok) (hfs : ∀ g ∈ fs, g.Ok) :
    andRe.m (restText .and (f :: fs)) c (fun s' c => some (s', c)) = some ([], c) := by
  obtain ⟨mid, h1, h2, h3⟩ := cond_shape (o := .and) hf hfs
  have e : restText .and (f :: fs) = ' ' :: ("and".toList ++ ' ' :: '(' :: (mid ++ [')'])) := by
    rw [← h1]
    rfl
  have hsp : sp ' ' = true := by decide
  have e2 : andRe = .seq (.plus sp) (.seq (.lit "and".toList) (.seq (.plus sp) (.loop reParens))) := rfl
  rw [e, e2]
  simp only [Re.m, Re.plus, chrM_cons, hsp, if_true]
  have hs : Stops sp ("and".toList ++ ' ' :: '(' :: (mid ++ [')'])) := stops_cons _ _ _ (by decide)
  rw [starM_zero hs, lit_ok]
  simp only [chrM_cons, hsp, if_true]
  rw [starM_zero (stops_cons _ _ _ (by decide))]
  rw [loopM]
  refine parens_m h2 h3 ?_
  have hn : ∀ n, loopM reParens.m n [] c (fun s' c => some (s', c)) = none := by
    intro n
    cases n <;> rfl
  rw [hn]
  rfl

/-- The part of the pattern from the media type. -/
private def typeRe : Re := .seq (.plus typeChar) (.opt andRe)

private theorem typeChar_word {z : Char} (hz : wordChar z = true) : typeChar z = true := by
  have h1 := wordChar_ne hz (y := ' ') (by decide)
  have h2 := wordChar_ne hz (y := '\n') (by decide)
  have h3 := wordChar_ne hz (y := '\t') (by decide)
  simp [typeChar, h1, h2, h3]

private theorem type_ok {ty : Str} {fs : List Feature} {c : Caps} (hty : TypeWord ty) (hfs : ∀ g ∈ fs, g.Ok) :
    typeRe.m (ty ++ restText .and fs) c (fun s' c => some (s', c)) = some ([], c) := by
  obtain ⟨x, t, rfl, hx, ht⟩ := word_cons hty.1
  simp only [typeRe, Re.m, Re.plus, Re.opt, List.cons_append, chrM_cons, typeChar_word hx, if_true]
  refine starM_max (fun y hy => typeChar_word (ht y hy)) ?_ ?_
  · cases fs with
    | nil => exact stops_nil _
    | cons f fs => exact stops_cons _ _ _ (by decide)
  · cases fs with
    | nil => rfl
    | cons f fs =>
      rw [and_ok (hfs f (by simp)) (fun g hg => hfs g (by simp [hg]))]
      rfl

/-- What precedes the media type in the pattern. -/
private def modRe : Re := .alt (.seq (.lit "not".toList) (.plus sp)) (.seq (.lit "only".toList) (.plus sp))

private theorem reQuery_eq : reQuery = .seq (.opt modRe) typeRe := rfl

private theorem query_ok {m : Mod} {ty : Str} {fs : List Feature} (hty : TypeWord ty) (hfs : ∀ g ∈ fs, g.Ok) :
    reQuery.m (m.text ++ (ty ++ restText .and fs)) [] (fun s' c => some (s', c)) = some ([], []) := by
  have core := type_ok (c := []) hty hfs
  rw [reQuery_eq]
  have hsp : sp ' ' = true := by decide
  have hz : Stops sp (ty ++ restText .and fs) := by
    obtain ⟨x, t, rfl, hx, ht⟩ := word_cons hty.1
    exact stops_cons _ _ _ (wordChar_sp hx)
  simp only [Re.m, Re.opt]
  cases m with
  | none' =>
    have : modRe.m (Mod.none'.text ++ (ty ++ restText .and fs)) []
        (fun s' c' => typeRe.m s' c' (fun s' c => some (s', c))) = none := by
      simp only [modRe, Mod.text, List.nil_append]
      rw [Re.m, keyword_none (by decide) hty hty.2.1 (rest_stops _ _),
        keyword_none (by decide) hty hty.2.2.1 (rest_stops _ _)]
      rfl
    rw [this]
    exact core
  | not' =>
    have : modRe.m (Mod.not'.text ++ (ty ++ restText .and fs)) []
        (fun s' c' => typeRe.m s' c' (fun s' c => some (s', c))) = some ([], []) := by
      have e : Mod.not'.text ++ (ty ++ restText .and fs) = "not".toList ++ (' ' :: (ty ++ restText .and fs)) := rfl
      rw [e, modRe, Re.m, Re.m, lit_ok]
      simp only [Re.plus, Re.m, chrM_cons, hsp, if_true]
      rw [starM_zero hz, core]
      rfl
    rw [this]
    rfl
  | only' =>
    have : modRe.m (Mod.only'.text ++ (ty ++ restText .and fs)) []
        (fun s' c' => typeRe.m s' c' (fun s' c => some (s', c))) = some ([], []) := by
      have e : Mod.only'.text ++ (ty ++ restText .and fs) = "only".toList ++ (' ' :: (ty ++ restText .and fs)) := rfl
      have e1 : ∀ k, (Re.seq (.lit "not".toList) (.plus sp)).m
          ("only".toList ++ (' ' :: (ty ++ restText .and fs))) [] k = none := fun k => rfl
      rw [e, modRe, Re.m, e1, Re.m, lit_ok]
      simp only [Re.plus, Re.m, chrM_cons, hsp, if_true]
      rw [starM_zero hz, core]
      rfl
    rw [this]
    rfl

private theorem type_not_none {m : Mod} {ty : Str} {fs : List Feature} (hty : TypeWord ty) :
    matchAt reNot (m.text ++ (ty ++ restText .and fs)) = none := by
  have e2 : reNot = .seq (.lit "not".toList) (.seq (.plus sp) reParens) := rfl
  simp only [matchAt, Option.map_eq_none_iff]
  cases m with
  | none' =>
    have := keyword_none (c := []) (k := fun s' c' => reParens.m s' c' (fun s' c => some (s', c)))
      (by decide) hty hty.2.1 (rest_stops .and fs)
    exact this
  | not' =>
    have e : Mod.not'.text ++ (ty ++ restText .and fs) = "not".toList ++ (' ' :: (ty ++ restText .and fs)) := rfl
    obtain ⟨x, t, rfl, hx, ht⟩ := word_cons hty.1
    have hsp : sp ' ' = true := by decide
    rw [e, e2, Re.m, lit_ok]
    simp only [Re.m, Re.plus, chrM_cons, hsp, if_true, List.cons_append]
    rw [sp_zero_word hx]
    have := wordChar_ne hx (y := '(') (by decide)
    simp [reParens, Re.cat, Re.m, Re.c, chrM, this]
  | only' => rfl

private theorem type_parens_none {m : Mod} {ty : Str} {fs : List Feature} (hty : TypeWord ty) :
    matchAt reParens (m.text ++ (ty ++ restText .and fs)) = none := by
  cases m with
  | none' =>
    obtain ⟨x, t, rfl, hx, ht⟩ := word_cons hty.1
    have := wordChar_ne hx (y := '(') (by decide)
    simp [matchAt, reParens, Re.cat, Re.m, Re.c, chrM, this, Mod.text]
  | not' => rfl
  | only' => rfl

private theorem find_type {m : Mod} {ty : Str} {fs : List Feature} (hty : TypeWord ty) (hfs : ∀ g ∈ fs, g.Ok) :
    findAll mediaQueryRe (m.text ++ (ty ++ restText .and fs)) = [(.query, m.text ++ (ty ++ restText .and fs))] := by
  refine find_one ?_ (by simp [hty.1.1])
  simp only [mediaQueryRe, firstAlt, type_not_none hty, type_parens_none hty, matchAt_all (query_ok hty hfs)]

private theorem cutWs_none {u : Str} (hu : ∀ x ∈ u, nsp x = true) : cutWs u = none := by
  induction u with
  | nil => rfl
  | cons x u ih =>
    have hx : isSpace x = false := by simpa [nsp] using hu x (by simp)
    simp [cutWs, hx, ih (fun y hy => hu y (by simp [hy]))]

private theorem cutWs_some {u w : Str} (hu : ∀ x ∈ u, nsp x = true) (hw : Stops sp w) :
    cutWs (u ++ ' ' :: w) = some (u, w) := by
  induction u with
  | nil =>
    have h : isSpace ' ' = true := by decide
    have d : w.dropWhile isSpace = w := by
      cases w with
      | nil => rfl
      | cons x w =>
        have : isSpace x = false := hw x rfl
        simp [this]
    simp [cutWs, h, d]
  | cons x u ih =>
    have hx : isSpace x = false := by simpa [nsp] using hu x (by simp)
    simp [cutWs, hx, ih (fun y hy => hu y (by simp [hy]))]

private theorem segLoop_succ (rec : Str → Tree → Run Tree) (n : Nat) (s : Str) (t : Tree) : segLoop rec (n + 1) s t =
    match cutWs s with
    | none =>
      match s with
      | [] => some (.error .indexError)
      | x :: _ => if x = '(' then rec s t else some (.ok (t.add (.name s)))
    | some (seg, rest) =>
      if seg = "only".toList then segLoop rec n rest t
      else if seg = "not".toList then segLoop rec n rest newOperand
      else
        match opOf seg with
        | some o => segLoop rec n rest (t.segOp seg o)
        | none => if seg.head? = some '(' then rec s t else segLoop rec n rest (t.add (.name seg)) := rfl

private theorem seg_paren {rec : Str → Tree → Run Tree} {n : Nat} {s : Str} {t : Tree} :
    segLoop rec (n + 1) ('(' :: s) t = rec ('(' :: s) t := by
  have hp : isSpace '(' = false := by decide
  simp only [segLoop_succ, cutWs, hp]
  cases cutWs s with
  | none => simp
  | some x =>
    obtain ⟨a, b⟩ := x
    simp [opOf]

private theorem type_opOf {ty : Str} (h : TypeWord ty) : opOf ty = none := by
  simp only [opOf]
  rw [if_neg h.2.2.2.1, if_neg h.2.2.2.2]

private theorem type_head {ty : Str} (h : TypeWord ty) : ty.head? ≠ some '(' := by
  obtain ⟨x, t, rfl, hx, ht⟩ := word_cons h.1
  simpa using wordChar_ne hx (y := '(') (by decide)

private theorem seg_type_nil {rec : Str → Tree → Run Tree} {n : Nat} {ty : Str} {t : Tree} (hty : TypeWord ty) :
    segLoop rec (n + 1) ty t = some (.ok (t.add (.name ty))) := by
  have h2 := type_head hty
  obtain ⟨x, u, rfl, hx, ht⟩ := word_cons hty.1
  simp only [segLoop_succ, cutWs_none (type_nsp hty)]
  have : x ≠ '(' := by simpa using h2
  rw [if_neg this]

private theorem seg_type_cons {rec : Str → Tree → Run Tree} {n : Nat} {ty : Str} {f : Feature} {fs : List Feature}
    {t : Tree} (hty : TypeWord ty) (hf : f.Ok) (hfs : ∀ g ∈ fs, g.Ok) :
    segLoop rec (n + 3) (ty ++ restText .and (f :: fs)) t =
      rec (condText .and f fs) ((t.add (.name ty)).segOp "and".toList .and) := by
  obtain ⟨mid, h1, h2, h3⟩ := cond_shape (o := .and) hf hfs
  have e : restText .and (f :: fs) = ' ' :: ("and".toList ++ ' ' :: condText .and f fs) := rfl
  have c1 : cutWs (ty ++ restText .and (f :: fs)) = some (ty, "and".toList ++ ' ' :: condText .and f fs) :=
    cutWs_some (type_nsp hty) (stops_cons _ _ _ (by decide))
  have c2 : cutWs ("and".toList ++ ' ' :: condText .and f fs) = some ("and".toList, condText .and f fs) := by
    refine cutWs_some (by decide) ?_
    rw [h1]
    exact stops_cons _ _ _ (by decide)
  rw [segLoop_succ, c1]
  simp only []
  rw [if_neg hty.2.2.1, if_neg hty.2.1]
  simp only [type_opOf hty]
  rw [if_neg (type_head hty), segLoop_succ, c2]
  have o1 : opOf "and".toList = some .and := by decide
  simp only [o1]
  rw [if_neg (by decide), if_neg (by decide), h1]
  exact seg_paren

/-! ### The trees -/

/-- The tree of a query. -/
private def treeOf : Query → Tree
  | .cond o f fs => .bool ⟨if fs = [] then none else some o, List.replicate fs.length o, some ((f :: fs).map Feature.leaf)⟩
  | .notCond o f fs =>
    .unary ⟨if fs = [] then none else some o, List.replicate fs.length o, some ((f :: fs).map Feature.leaf)⟩
  | .type .not' ty fs =>
    .unary ⟨if fs = [] then none else some .and, List.replicate fs.length .and, some (.name ty :: fs.map Feature.leaf)⟩
  | .type _ ty fs =>
    .bool ⟨if fs = [] then none else some .and, List.replicate (fs.length - 1) .and,
      some (.name ty :: fs.map Feature.leaf)⟩

private theorem addRest_bool (op : Option BoolOp) (ops : List BoolOp) (vs : List Leaf) (o : BoolOp)
    (fs : List Feature) :
    addRest (.bool ⟨op, ops, some vs⟩) o fs =
      .bool ⟨if fs = [] then op else op.or (some o), ops ++ List.replicate fs.length o,
        some (vs ++ fs.map Feature.leaf)⟩ := by
  induction fs generalizing op ops vs with
  | nil => simp [addRest]
  | cons f fs ih =>
    have : addRest (.bool ⟨op, ops, some vs⟩) o (f :: fs) =
        addRest (.bool ⟨op.or (some o), ops ++ [o], some (vs ++ [f.leaf])⟩) o fs := rfl
    rw [this, ih]
    cases op <;> simp [List.replicate_succ]

private theorem addRest_unary (op : Option BoolOp) (ops : List BoolOp) (vs : List Leaf) (o : BoolOp)
    (fs : List Feature) :
    addRest (.unary ⟨op, ops, some vs⟩) o fs =
      .unary ⟨if fs = [] then op else op.or (some o), ops ++ List.replicate fs.length o,
        some (vs ++ fs.map Feature.leaf)⟩ := by
  induction fs generalizing op ops vs with
  | nil => simp [addRest]
  | cons f fs ih =>
    have : addRest (.unary ⟨op, ops, some vs⟩) o (f :: fs) =
        addRest (.unary ⟨op.or (some o), ops ++ [o], some (vs ++ [f.leaf])⟩) o fs := rfl
    rw [this, ih]
    cases op <;> simp [List.replicate_succ]

private theorem parse_type {n : Nat} {m : Mod} {ty : Str} {fs : List Feature} (hty : TypeWord ty)
    (hfs : ∀ g ∈ fs, g.Ok) :
    parseQuery (n + 2) (m.text ++ (ty ++ restText .and fs)) .empty = some (.ok (treeOf (.type m ty fs))) := by
  rw [parseQuery, find_type hty hfs]
  simp only [queryLoop]
  have inner : ∀ N t, (ty ++ restText .and fs).length ≤ N →
      segLoop (parseQuery (n + 1)) (N + 1) (ty ++ restText .and fs) t = some (.ok (match fs with
        | [] => t.add (.name ty)
        | f :: fs => addRest (((t.add (.name ty)).segOp "and".toList .and).start.add f.leaf) .and fs)) := by
    intro N t hN
    cases fs with
    | nil =>
      simp only [restText, List.append_nil]
      exact seg_type_nil hty
    | cons f fs =>
      have : ∃ M, N + 1 = M + 3 := by
        refine ⟨N - 2, ?_⟩
        have : 2 ≤ (restText .and (f :: fs)).length := by simp [restText]; omega
        rw [List.length_append] at hN
        omega
      obtain ⟨M, hM⟩ := this
      rw [hM, seg_type_cons hty (hfs f (by simp)) (fun g hg => hfs g (by simp [hg]))]
      exact parse_cond (hfs f (by simp)) (fun g hg => hfs g (by simp [hg])) _
  have hz : Stops sp (ty ++ restText .and fs) := by
    obtain ⟨x, t, rfl, hx, ht⟩ := word_cons hty.1
    exact stops_cons _ _ _ (wordChar_sp hx)
  cases m with
  | none' =>
    have e : Mod.none'.text ++ (ty ++ restText .and fs) = ty ++ restText .and fs := rfl
    rw [e, inner _ _ (Nat.le_refl _)]
    cases fs with
    | nil => rfl
    | cons f fs =>
      have : ((Tree.empty.add (.name ty)).segOp "and".toList .and).start.add f.leaf =
        .bool ⟨some .and, [], some [.name ty, f.leaf]⟩ := rfl
      simp only [this, addRest_bool, treeOf]
      simp
  | only' =>
    have e : Mod.only'.text ++ (ty ++ restText .and fs) = "only".toList ++ ' ' :: (ty ++ restText .and fs) := rfl
    have l : ("only".toList ++ ' ' :: (ty ++ restText .and fs)).length = (ty ++ restText .and fs).length + 4 + 1 := by
      simp
    rw [e, l, segLoop_succ, cutWs_some (by decide) hz]
    simp only []
    rw [if_pos trivial, inner _ _ (by omega)]
    cases fs with
    | nil => rfl
    | cons f fs =>
      have : ((Tree.empty.add (.name ty)).segOp "and".toList .and).start.add f.leaf =
        .bool ⟨some .and, [], some [.name ty, f.leaf]⟩ := rfl
      simp only [this, addRest_bool, treeOf]
      simp
  | not' =>
    have e : Mod.not'.text ++ (ty ++ restText .and fs) = "not".toList ++ ' ' :: (ty ++ restText .and fs) := rfl
    have l : ("not".toList ++ ' ' :: (ty ++ restText .and fs)).length = (ty ++ restText .and fs).length + 3 + 1 := by
      simp
    rw [e, l, segLoop_succ, cutWs_some (by decide) hz]
    simp only []
    rw [if_neg (by decide), if_pos trivial, inner _ _ (by omega)]
    cases fs with
    | nil => rfl
    | cons f fs =>
      have : ((newOperand.add (.name ty)).segOp "and".toList .and).start.add f.leaf =
        .unary ⟨some .and, [.and], some [.name ty, f.leaf]⟩ := rfl
      simp only [this, addRest_unary, treeOf]
      simp [List.replicate_succ]

private theorem parse_tree {n : Nat} {q : Query} (h : q.Ok) :
    parseQuery (n + 2) q.text .empty = some (.ok (treeOf q)) := by
  cases q with
  | cond o f fs =>
    have := parse_cond (n := n + 1) (o := o) h.1 h.2 .empty
    rw [Query.text, this]
    have e : Tree.empty.start.add f.leaf = .bool ⟨none, [], some [f.leaf]⟩ := rfl
    rw [e, addRest_bool]
    simp [treeOf]
  | notCond o f fs =>
    have := parse_not (n := n) (o := o) h.1 h.2 .empty
    rw [Query.text, this]
    have e : newOperand.add f.leaf = .unary ⟨none, [], some [f.leaf]⟩ := rfl
    rw [e, addRest_unary]
    simp [treeOf]
  | type m ty fs => exact parse_type h.1 h.2

/-! ### The meaning of the trees -/

private theorem allHold_leaves (ev : Leaf → Bool) (ls : List Leaf) :
    AllHold ev (ls.map Node.leaf) ↔ ls.all ev = true := by
  induction ls with
  | nil => simp [AllHold]
  | cons l ls ih => simp [AllHold, Holds, ih]

private theorem anyHolds_leaves (ev : Leaf → Bool) (ls : List Leaf) :
    AnyHolds ev (ls.map Node.leaf) ↔ ls.any ev = true := by
  induction ls with
  | nil => simp [AnyHolds]
  | cons l ls ih => simp [AnyHolds, Holds, ih]

private theorem validTerms_leaves (ls : List Leaf) : ValidTerms (ls.map Node.leaf) := by
  induction ls with
  | nil => simp [ValidTerms]
  | cons l ls ih => simpa [ValidTerms] using ih

private theorem singleTerms_leaves (ls : List Leaf) : NotOfSingleTerms (ls.map Node.leaf) := by
  induction ls with
  | nil => simp [NotOfSingleTerms]
  | cons l ls ih => simpa [NotOfSingleTerms, NotOfSingle] using ih

/-- The condition with the given terms. -/
private def condOf (o : BoolOp) (k : Nat) (l : Leaf) (ls : List Leaf) : Node Leaf :=
  .boolOp (if ls = [] then none else some o) (List.replicate k o) ((l :: ls).map .leaf)

private theorem condOf_valid {o : BoolOp} {k : Nat} {l : Leaf} {ls : List Leaf} (hk : ls = [] → k = 0) :
    Valid (condOf o k l ls) := by
  refine ⟨by simp, ?_, ?_, validTerms_leaves _⟩
  · intro x hx
    have h1 := List.eq_of_mem_replicate hx
    by_cases h : ls = []
    · rw [hk h] at hx
      simp at hx
    · rw [if_neg h, h1]
  · intro h
    by_cases h2 : ls = []
    · simp [h2]
    · rw [if_neg h2] at h
      cases h

private theorem condOf_holds {o : BoolOp} {k : Nat} {l : Leaf} {ls : List Leaf} (ev : Leaf → Bool) :
    Holds ev (condOf o k l ls) ↔ (match o with
      | .and => (l :: ls).all ev
      | .or => (l :: ls).any ev) = true := by
  by_cases h : ls = []
  · subst h
    simp only [condOf, Holds, if_true]
    rw [anyHolds_leaves]
    cases o <;> simp
  · simp only [condOf, Holds, if_neg h]
    cases o
    · exact allHold_leaves _ _
    · exact anyHolds_leaves _ _

private theorem tree_node (q : Query) :
    ∃ nd, (treeOf q).node = .ok nd ∧ Valid nd ∧ (q.SingleNot → NotOfSingle nd) ∧
      ∀ ev, Holds ev nd ↔ q.meaning ev = true := by
  cases q with
  | cond o f fs =>
    refine ⟨condOf o fs.length f.leaf (fs.map Feature.leaf), ?_, condOf_valid (by simp),
      fun _ => singleTerms_leaves _, fun ev => ?_⟩
    · cases fs <;> rfl
    · rw [condOf_holds]
      cases o <;> simp [Query.meaning]
  | notCond o f fs =>
    refine ⟨.unary (condOf o fs.length f.leaf (fs.map Feature.leaf)), ?_, condOf_valid (by simp),
      fun h => ⟨?_, singleTerms_leaves _⟩, fun ev => ?_⟩
    · cases fs <;> rfl
    · have : fs = [] := h
      simp [condOf, this]
    · rw [Holds, condOf_holds]
      cases o
      · have : ((f.leaf :: fs.map Feature.leaf).all ev) = (f :: fs).all fun g => ev g.leaf := by
          simp [Function.comp_def]
        simp only [Query.meaning, this]
        cases (f :: fs).all fun g => ev g.leaf <;> simp
      · simp [Query.meaning]
  | type m ty fs =>
    have base : ∀ k, (fs = [] → k = 0) → Valid (condOf .and k (.name ty) (fs.map Feature.leaf)) ∧
        ∀ ev, Holds ev (condOf .and k (.name ty) (fs.map Feature.leaf)) ↔
          (ev (.name ty) && fs.all fun g => ev g.leaf) = true := by
      intro k hk
      refine ⟨condOf_valid (by simpa using hk), fun ev => ?_⟩
      rw [condOf_holds]
      simp
    cases m with
    | none' =>
      have b := base (fs.length - 1) (by rintro rfl; rfl)
      refine ⟨_, ?_, b.1, fun _ => singleTerms_leaves _, b.2⟩
      cases fs <;> rfl
    | only' =>
      have b := base (fs.length - 1) (by rintro rfl; rfl)
      refine ⟨_, ?_, b.1, fun _ => singleTerms_leaves _, b.2⟩
      cases fs <;> rfl
    | not' =>
      have b := base fs.length (by rintro rfl; rfl)
      refine ⟨.unary (condOf .and fs.length (.name ty) (fs.map Feature.leaf)), ?_, b.1,
        fun h => ⟨?_, singleTerms_leaves _⟩, fun ev => ?_⟩
      · cases fs <;> rfl
      · have : fs = [] := h
        simp [condOf, this]
      · rw [Holds, b.2, Query.meaning]
        cases ev (.name ty) && fs.all fun g => ev g.leaf <;> simp

/-! ### Lists of queries -/

private theorem comma_word {w : Str} (h : Word w) : ',' ∉ w := by
  intro hm
  have := h.2 _ hm
  revert this
  decide

private theorem comma_blanks (n : Nat) : ',' ∉ blanks n := by
  intro hm
  have := List.eq_of_mem_replicate hm
  revert this
  decide

private theorem comma_sign (s : Sign) : ',' ∉ s.text := by cases s <;> decide

private theorem comma_body {f : Feature} (h : f.Ok) : ',' ∉ f.body := by
  cases f with
  | has n => exact comma_word h
  | is p n v g =>
    have hp : ',' ∉ p.text := by cases p <;> decide
    have : ',' ≠ ':' := by decide
    simp only [Feature.body, List.mem_append, List.mem_cons, not_or]
    exact ⟨⟨hp, comma_word h.1⟩, this, comma_blanks _, comma_word h.2.1⟩
  | rel l s r g k =>
    simp only [Feature.body, List.mem_append, not_or]
    exact ⟨⟨⟨⟨comma_word h.1, comma_blanks _⟩, comma_sign _⟩, comma_blanks _⟩, comma_word h.2⟩
  | rel2 l s m s' r g k g' k' =>
    simp only [Feature.body, List.mem_append, not_or]
    exact ⟨⟨⟨⟨⟨⟨⟨⟨comma_word h.1, comma_blanks _⟩, comma_sign _⟩, comma_blanks _⟩, comma_word h.2.1⟩, comma_blanks _⟩,
      comma_sign _⟩, comma_blanks _⟩, comma_word h.2.2⟩

private theorem comma_feature {f : Feature} (h : f.Ok) : ',' ∉ f.text := by
  have h1 : ',' ≠ '(' := by decide
  have h2 : ',' ≠ ')' := by decide
  simp only [Feature.text, List.mem_cons, List.mem_append, not_or, List.not_mem_nil, not_false_iff, and_true]
  exact ⟨h1, comma_body h, h2⟩

private theorem comma_rest {o : BoolOp} {fs : List Feature} (h : ∀ g ∈ fs, g.Ok) : ',' ∉ restText o fs := by
  induction fs with
  | nil => simp [restText]
  | cons f fs ih =>
    have h1 : ',' ≠ ' ' := by decide
    have h2 : ',' ∉ opName o := by cases o <;> decide
    simp only [restText, List.mem_cons, List.mem_append, not_or]
    exact ⟨h1, h2, h1, comma_feature (h f (by simp)), ih (fun g hg => h g (by simp [hg]))⟩

private theorem comma_query {q : Query} (h : q.Ok) : ',' ∉ q.text := by
  cases q with
  | cond o f fs =>
    simp only [Query.text, condText, List.mem_append, not_or]
    exact ⟨comma_feature h.1, comma_rest h.2⟩
  | notCond o f fs =>
    simp only [Query.text, condText, List.mem_append, not_or]
    exact ⟨by decide, comma_feature h.1, comma_rest h.2⟩
  | type m ty fs =>
    simp only [Query.text, List.mem_append, not_or]
    exact ⟨by cases m <;> decide, comma_word h.1.1, comma_rest h.2⟩

private theorem trimmed_of {s t u : Str} {x y : Char} (h1 : s = x :: t) (hx : isSpace x = false) (h2 : s = u ++ [y])
    (hy : isSpace y = false) : Trimmed s := by
  refine ⟨?_, ?_⟩
  · rw [h1]
    intro z hz
    cases hz
    exact hx
  · rw [h2]
    intro z hz
    rw [List.getLast?_concat] at hz
    cases hz
    exact hy

private theorem word_last {w : Str} (h : Word w) : ∃ u y, w = u ++ [y] ∧ isSpace y = false := by
  refine ⟨w.dropLast, w.getLast h.1, (List.dropLast_append_getLast h.1).symm, ?_⟩
  exact wordChar_sp (h.2 _ (List.getLast_mem h.1))

private theorem query_trim {q : Query} (h : q.Ok) : Trimmed q.text ∧ q.text ≠ [] := by
  have hp : isSpace '(' = false := by decide
  have hc : isSpace ')' = false := by decide
  cases q with
  | cond o f fs =>
    obtain ⟨mid, h1, h2, h3⟩ := cond_shape (o := o) h.1 h.2
    rw [Query.text, h1]
    exact ⟨trimmed_of rfl hp (u := '(' :: mid) rfl hc, by simp⟩
  | notCond o f fs =>
    obtain ⟨mid, h1, h2, h3⟩ := cond_shape (o := o) h.1 h.2
    rw [Query.text, h1]
    refine ⟨trimmed_of (x := 'n') rfl (by decide) (u := "not ".toList ++ '(' :: mid) (y := ')') ?_ hc, by simp⟩
    simp
  | type m ty fs =>
    obtain ⟨x, t, e, hx, ht⟩ := word_cons h.1.1
    have head : ∃ y u, (Query.type m ty fs).text = y :: u ∧ isSpace y = false := by
      cases m with
      | none' => exact ⟨x, t ++ restText .and fs, by rw [e]; rfl, wordChar_sp hx⟩
      | not' => exact ⟨'n', _, rfl, by decide⟩
      | only' => exact ⟨'o', _, rfl, by decide⟩
    have last : ∃ u y, (Query.type m ty fs).text = u ++ [y] ∧ isSpace y = false := by
      cases fs with
      | nil =>
        obtain ⟨u, y, h1, h2⟩ := word_last h.1.1
        exact ⟨m.text ++ u, y, by rw [h1]; simp [Query.text, restText], h2⟩
      | cons f fs =>
        obtain ⟨mid, h1, h2, h3⟩ := cond_shape (o := .and) (fs := fs) (h.2 f (by simp))
          (fun g hg => h.2 g (by simp [hg]))
        refine ⟨m.text ++ (ty ++ (' ' :: (opName .and ++ ' ' :: '(' :: mid))), ')', ?_, hc⟩
        have : restText .and (f :: fs) = ' ' :: (opName .and ++ ' ' :: condText .and f fs) := rfl
        rw [Query.text, this, h1]
        simp
    obtain ⟨y, u, h1, h2⟩ := head
    obtain ⟨u', y', h3, h4⟩ := last
    exact ⟨trimmed_of h1 h2 h3 h4, by rw [h1]; simp⟩

private theorem parseAll_ok {n : Nat} {qs : List (Nat × Query × Nat)} (h : ∀ q ∈ qs, q.2.1.Ok) :
    parseAll (n + 2) (qs.map fun q => blanks q.1 ++ (q.2.1.text ++ blanks q.2.2)) =
      some (.ok (qs.map fun q => treeOf q.2.1)) := by
  induction qs with
  | nil => rfl
  | cons q qs ih =>
    have hq := h q (by simp)
    have st : strip (blanks q.1 ++ (q.2.1.text ++ blanks q.2.2)) = q.2.1.text :=
      strip_around _ _ _ (blanks_sp _) (blanks_sp _) (query_trim hq).1
    simp only [List.map_cons, parseAll, st, if_neg (query_trim hq).2, parse_tree hq, andThen,
      ih (fun q hq => h q (by simp [hq]))]

private theorem parse_list {low : Str → Str} {n : Nat} {t : Str} {qs : List (Nat × Query × Nat)} (hne : qs ≠ [])
    (h : ∀ q ∈ qs, q.2.1.Ok) (ht : low (strip t) = listText qs) :
    parse low (n + 2) t = some (.ok (qs.map fun q => treeOf q.2.1)) := by
  rw [parse, ht, listText, splitOn_join, parseAll_ok h]
  · simpa using hne
  · intro p hp
    obtain ⟨q, hq, rfl⟩ := List.mem_map.mp hp
    simp only [List.mem_append, not_or]
    exact ⟨comma_blanks _, comma_query (h q hq), comma_blanks _⟩

/-- **C101**, parsing.  The text of a list of media queries is parsed to one tree for each, in order, and
each tree says what its query says: under every assignment of truth to the features and media types,
the tree is true exactly when the query is.  `low` is the conversion to lower case; two levels of
nested calls suffice. -/
theorem parse_meaning (low : Str → Str) (n : Nat) (hn : 2 ≤ n) (t : Str) (qs : List (Nat × Query × Nat))
    (hne : qs ≠ []) (h : ∀ q ∈ qs, q.2.1.Ok) (ht : low (strip t) = listText qs) :
    ∃ trees, parse low n t = some (.ok trees) ∧
      List.Forall₂ (fun tree (q : Nat × Query × Nat) => ∃ nd, tree.node = .ok nd ∧ Valid nd ∧
        ∀ ev, Holds ev nd ↔ q.2.1.meaning ev = true) trees qs := by
  obtain ⟨m, rfl⟩ := Nat.exists_eq_add_of_le' hn
  refine ⟨_, parse_list hne h ht, ?_⟩
  clear hne h ht
  induction qs with
  | nil => exact .nil
  | cons q qs ih =>
    obtain ⟨nd, h1, h2, _, h3⟩ := tree_node q.2.1
    exact .cons ⟨nd, h1, h2, h3⟩ ih

private theorem match_one (ev : Leaf → Bool) {q : Query} (h : q.SingleNot) :
    ∃ nd, (treeOf q).node = .ok nd ∧ matchNode ev false nd = .ok (q.meaning ev) := by
  obtain ⟨nd, h1, h2, h3, h4⟩ := tree_node q
  refine ⟨nd, h1, ?_⟩
  obtain ⟨v, e, hv⟩ := matchList_iff_partial ev [nd] (by simpa using h2) (by simpa using h3 h)
  have hv' : v = q.meaning ev := by
    have : v = true ↔ q.meaning ev = true := by
      rw [hv, ← h4 ev]
      simp
    cases v <;> cases hm : q.meaning ev <;> simp_all
  rw [← hv']
  simp only [matchList] at e
  cases hm : matchNode ev false nd with
  | error x =>
    rw [hm] at e
    cases e
  | ok b =>
    rw [hm] at e
    cases b <;> exact e

/-- **C101**.  A list of media queries matches exactly when one of the queries its text consists of is
true.  Missing from the full statement: negations of several terms (`SingleNot`), where the evaluation
is wrong, see `match_not_violated`; and texts with white space elsewhere, nested parentheses and
conditions after media types joined by `or`, see the theorems below. -/
theorem media_text_meaning_partial (low : Str → Str) (n : Nat) (hn : 2 ≤ n) (t : Str)
    (qs : List (Nat × Query × Nat)) (hne : qs ≠ []) (h : ∀ q ∈ qs, q.2.1.Ok) (hs : ∀ q ∈ qs, q.2.1.SingleNot)
    (ht : low (strip t) = listText qs) (ev : Leaf → Bool) :
    ∃ trees, parse low n t = some (.ok trees) ∧
      matchTrees ev trees = .ok (qs.any fun q => q.2.1.meaning ev) := by
  obtain ⟨m, rfl⟩ := Nat.exists_eq_add_of_le' hn
  refine ⟨_, parse_list hne h ht, ?_⟩
  clear hne h ht
  induction qs with
  | nil => rfl
  | cons q qs ih =>
    obtain ⟨nd, h1, h2⟩ := match_one ev (hs q (by simp))
    simp only [List.map_cons, matchTrees, h1, h2, List.any_cons]
    cases hm : q.2.1.meaning ev with
    | true => simp
    | false => simpa using ih (fun q hq => hs q (by simp [hq]))

/-- Non-trivial instance: `only screen and (min-width: 600px), not (monochrome), (10em < width <= 20em)`. -/
example :
    let qs : List (Nat × Query × Nat) :=
      [(0, .type .only' "screen".toList [.is .min "width".toList "600px".toList 1], 0),
       (1, .notCond .and (.has "monochrome".toList) [], 0),
       (1, .cond .and (.rel2 "10em".toList .lt "width".toList .le "20em".toList 0 1 0 1) [], 0)]
    (∀ q ∈ qs, q.2.1.Ok ∧ q.2.1.SingleNot) ∧
      strip "only screen and (min-width: 600px), not (monochrome), (10em < width <= 20em)".toList = listText qs := by
  refine ⟨?_, by decide +kernel⟩
  intro q hq
  simp only [List.mem_cons, List.not_mem_nil, or_false] at hq
  rcases hq with rfl | rfl | rfl
  · refine ⟨⟨⟨⟨by decide, by decide +kernel⟩, by decide, by decide, by decide, by decide⟩, ?_⟩, trivial⟩
    intro g hg
    simp only [List.mem_singleton] at hg
    subst hg
    exact ⟨⟨by decide, by decide +kernel⟩, ⟨by decide, by decide +kernel⟩, by decide +kernel⟩
  · exact ⟨⟨⟨by decide, by decide +kernel⟩, by simp⟩, rfl⟩
  · exact ⟨⟨⟨⟨by decide, by decide +kernel⟩, ⟨by decide, by decide +kernel⟩, ⟨by decide, by decide +kernel⟩⟩,
      by simp⟩, trivial⟩

/-! ### Violations -/

/-- Only the given names hold. -/
private def only (names : List String) : Leaf → Bool
  | .name n => names.contains (String.ofList n)
  | _ => false

/-- What `matches` gives for a text in lower case; `none` if it nests more than `n` calls. -/
def textMatches (n : Nat) (ev : Leaf → Bool) (t : String) : Run Bool :=
  andThen (parse id n t.toList) fun trees => some (matchTrees ev trees)

/-- **C101** fails: without a space before the sign a comparison is taken for the name of a feature. -/
theorem no_space_violated :
    parse id 2 "(width>=600px)".toList = some (.ok [.bool ⟨none, [], some [.name "width>=600px".toList]⟩]) := by
  rfl

/-- **C101** fails: spaces inside of the parentheses become part of the name. -/
theorem inner_space_violated :
    parse id 2 "( color )".toList = some (.ok [.bool ⟨none, [], some [.name " color ".toList]⟩]) := by
  rfl

/-- **C101** fails: with nested parentheses a true query is false. -/
theorem nested_violated : textMatches 9 (only ["a", "c"]) "((a) or (b)) and (c)" = some (.ok false) := by
  rfl

/-- **C101** fails: `(not (b))` is an error. -/
theorem nested_not_violated : textMatches 9 (only []) "(not (b))" = some (.error .keyError) := by
  rfl

/-- **C101** fails: `(a) and not (b)` forgets `(a)`, and is true although `(a)` is not. -/
theorem and_not_violated : textMatches 9 (only []) "(a) and not (b)" = some (.ok true) := by
  rfl

/-- **C101** fails: without spaces around `and` the conjunction is one name. -/
theorem glued_and_violated :
    parse id 2 "(a)and(b)".toList = some (.ok [.bool ⟨none, [], some [.name "a)and(b".toList]⟩]) := by
  rfl

/-- **C101** fails: with a line break behind `and` a false query is true. -/
theorem newline_violated : textMatches 9 (only ["a"]) "(a) and\n(b)" = some (.ok true) := by
  rfl

/-- **C101** fails: `print and (a) or (b)`, which is not a valid query, is read as a conjunction and can
be true. -/
theorem type_or_violated : textMatches 9 (only ["print", "a", "b"]) "print and (a) or (b)" = some (.ok true) := by
  rfl

/-- **C101** fails: the empty list of media queries, which is always true, never matches. -/
theorem empty_violated (n : Nat) (ev : Leaf → Bool) : textMatches n ev "" = some (.ok false) := by
  rfl

/-- **C101** fails: a parenthesis that is not closed is parsed without end. -/
theorem unclosed_violated (n : Nat) (ev : Leaf → Bool) : textMatches n ev "(abc" = none := by
  have : ∀ n t, parseQuery n "(abc".toList t = none := by
    intro n
    induction n with
    | zero => intro t; rfl
    | succ n ih =>
      intro t
      have h : findAll mediaQueryRe "(abc".toList = [(.query, "(abc".toList)] := by rfl
      rw [parseQuery, h]
      have h2 : queryLoop (parseQuery n) [(.query, "(abc".toList)] t = parseQuery n "(abc".toList t := rfl
      rw [h2, ih]
  have h2 : textMatches n ev "(abc" = andThen (andThen (parseQuery n "(abc".toList .empty) fun t =>
      andThen (parseAll n []) fun ts => some (.ok (t :: ts))) fun trees => some (matchTrees ev trees) := rfl
  rw [h2, this]
  rfl

end SvgPy.MediaParse
