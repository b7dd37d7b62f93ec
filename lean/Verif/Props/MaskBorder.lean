import Verif.Model.MaskBorder
import Verif.Props.FontShorthand

/-!
C115: the `mask-border` shorthand declares its parts and can be read back.
-/

set_option linter.unusedSimpArgs false
set_option linter.unusedVariables false

namespace SvgPy.MaskBorder

open SvgPy.PyStr SvgPy.Decl SvgPy.Shorthand SvgPy.Components
open SvgPy.FontShorthand (parseSolidus nonEmpty found Plain)

/-! ### Specification -/

namespace Spec

/-- The parts of the value. -/
inductive Part
  | source
  | slice
  | width
  | outset
  | rep
  | mode
  deriving DecidableEq

def allParts : List Part := [.source, .slice, .width, .outset, .rep, .mode]

/-- The longhand of a part. -/
def name : Part → Str
  | .source => "mask-border-source".toList
  | .slice => "mask-border-slice".toList
  | .width => "mask-border-width".toList
  | .outset => "mask-border-outset".toList
  | .rep => "mask-border-repeat".toList
  | .mode => "mask-border-mode".toList

def wides : List String := ["default", "inherit", "initial", "revert", "unset"]

/-- The text of a token that is no identifier: no spaces at the ends. -/
def TextOk (s : Str) : Prop := s ≠ [] ∧ Trimmed s ∧ s ∉ wides.map String.toList

/-- A token of one of the kinds. -/
def Of (kind : Str → Kind) (ks : List Kind) (t : Tok) : Prop := ∃ s, t = .other s ∧ kind s ∈ ks ∧ TextOk s

/-- The words of a part (CSS Masking 1, 8). -/
def IsWord (kind : Str → Kind) : Part → Tok → Prop
  | .source, t => t = kw "none" ∨ Of kind [.image] t
  | .slice, t => Of kind [.number, .percentage] t
  | .width, t => t = kw "auto" ∨ Of kind [.number, .length, .percentage, .math] t
  | .outset, t => Of kind [.number, .length] t
  | .rep, t => ∃ w ∈ ["stretch", "repeat", "round", "space"], t = kw w
  | .mode, t => ∃ w ∈ ["luminance", "alpha"], t = kw w

/-- A part has at least one word; slices may end with `fill`. -/
def IsGroup (kind : Str → Kind) (p : Part) (g : List Tok) : Prop :=
  g ≠ [] ∧ ((∀ t ∈ g, IsWord kind p t) ∨
    p = .slice ∧ ∃ g', g' ≠ [] ∧ g = g' ++ [kw "fill"] ∧ ∀ t ∈ g', IsWord kind .slice t)

/-- White space. -/
def Spaces (w : List Tok) : Prop := ∀ t ∈ w, ∃ s, t = .ws s ∧ ∀ x ∈ s, isSpace x = true

/-- Widths and outsets stand behind a solidus. -/
def solid : Part → Bool
  | .width => true
  | .outset => true
  | _ => false

/-- The solidus and white space before a part. -/
def lead (p : Part) (w : List Tok) : List Tok := if solid p then .lit ['/'] :: w else []

/-- The tokens of the parts in this order, with any white space between them. -/
inductive Layout : List (Part × List Tok) → List Tok → Prop
  | nil (w) : Spaces w → Layout [] w
  | cons (p g gs w v l) : Spaces w → Spaces v → Layout gs l →
      Layout ((p, g) :: gs) (w ++ (lead p v ++ (spaced g ++ l)))

/-- Parts of the group `slice / width / outset`. -/
def core : Part → Bool
  | .slice => true
  | .width => true
  | .outset => true
  | _ => false

/-- A value: each part at most once; widths only after slices, outsets only after widths. -/
structure Good (kind : Str → Kind) (gs : List (Part × List Tok)) : Prop where
  once : (gs.map (·.1)).Nodup
  order : (gs.map (·.1)).filter core <+: [.slice, .width, .outset]
  groups : ∀ g ∈ gs, IsGroup kind g.1 g.2

/-- The text of a part. -/
def value (gs : List (Part × List Tok)) (p : Part) : Option Str :=
  (gs.find? (fun g => g.1 = p)).map (fun g => sentence g.2)

/-- The parts one after the other with one space between them. -/
def text (gs : List (Part × List Tok)) : Str :=
  join [' '] (allParts.flatMap fun p =>
    match value gs p with
    | none => []
    | some v => if solid p then [['/'], v] else [v])

/-- The parts in the order of the longhands. -/
def inLine (gs : List (Part × List Tok)) : List (Part × List Tok) :=
  allParts.filterMap fun p => gs.find? (fun g => g.1 = p)

/-- Their tokens with one space between neighbours. -/
def tokens : List (Part × List Tok) → List Tok
  | [] => []
  | [(p, g)] => lead p [.ws [' ']] ++ spaced g
  | (p, g) :: gs => lead p [.ws [' ']] ++ (spaced g ++ .ws [' '] :: tokens gs)

end Spec

open Spec

/-! ### Words -/

/-- The words that may occur in a part. -/
def Word (kind : Str → Kind) (p : Part) (t : Tok) : Prop := IsWord kind p t ∨ (p = .slice ∧ t = kw "fill")

theorem group_words (kind : Str → Kind) (p : Part) (g : List Tok) (h : IsGroup kind p g) :
    g ≠ [] ∧ ∀ t ∈ g, Word kind p t := by
  refine ⟨h.1, fun t ht => ?_⟩
  rcases h.2 with h2 | ⟨rfl, g', -, rfl, h2⟩
  · exact Or.inl (h2 t ht)
  · rcases List.mem_append.1 ht with ht | ht
    · exact Or.inl (h2 t ht)
    · rw [List.mem_singleton] at ht
      exact Or.inr ⟨rfl, ht⟩

/-- The descriptor of a part. -/
def descOf (kind : Str → Kind) : Part → Desc
  | .source => sourceDesc kind
  | .slice => sliceDesc kind
  | .width => widthDesc kind
  | .outset => outsetDesc kind
  | .rep => repeatDesc
  | .mode => modeDesc

theorem ordinary_kw (w : String) (h : w ∉ wides) (h2 : w.toList ≠ []) (h3 : Trimmed w.toList) : Ordinary (kw w) := by
  have hw : w.toList ∉ ["default".toList, "inherit".toList, "initial".toList, "revert".toList, "unset".toList] := by
    intro hm
    apply h
    simp only [List.mem_cons, List.not_mem_nil, or_false, String.toList_inj] at hm
    simp only [wides, List.mem_cons, List.not_mem_nil, or_false]
    exact hm
  refine ⟨by simp [kw], ?_, hw, by simp [kw], by simp [kw], h2, h3⟩
  intro s k he
  simp only [kw, Tok.ident.injEq] at he
  rw [← he.2]
  exact hw

theorem ordinary_of (kind : Str → Kind) (ks : List Kind) (t : Tok) (h : Of kind ks t) : Ordinary t := by
  obtain ⟨s, rfl, -, h1, h2, h3⟩ := h
  exact ⟨by simp, by simp, h3, by simp, by simp, h1, h2⟩

theorem trimmed_dec (s : Str) (h1 : (match s.head? with | some x => isSpace x | none => false) = false)
    (h2 : (match s.getLast? with | some x => isSpace x | none => false) = false) : Trimmed s := by
  constructor
  · intro x hx; rw [hx] at h1; exact h1
  · intro x hx; rw [hx] at h2; exact h2

theorem word_ordinary (kind : Str → Kind) (p : Part) (t : Tok) (h : Word kind p t) : Ordinary t := by
  have key : ∀ w ∈ ["none", "auto", "fill", "stretch", "repeat", "round", "space", "luminance", "alpha"],
      Ordinary (kw w) := by
    intro w hw
    simp only [List.mem_cons, List.not_mem_nil, or_false] at hw
    rcases hw with rfl | rfl | rfl | rfl | rfl | rfl | rfl | rfl | rfl <;>
    exact ordinary_kw _ (by decide) (by decide) (trimmed_dec _ (by decide) (by decide))
  rcases h with h | ⟨-, rfl⟩
  · cases p with
    | source => rcases h with rfl | h; exacts [key _ (by simp), ordinary_of _ _ _ h]
    | slice => exact ordinary_of _ _ _ h
    | width => rcases h with rfl | h; exacts [key _ (by simp), ordinary_of _ _ _ h]
    | outset => exact ordinary_of _ _ _ h
    | rep =>
      obtain ⟨w, hw, rfl⟩ := h
      refine key w ?_
      simp only [List.mem_cons, List.not_mem_nil, or_false] at hw ⊢
      tauto
    | mode =>
      obtain ⟨w, hw, rfl⟩ := h
      refine key w ?_
      simp only [List.mem_cons, List.not_mem_nil, or_false] at hw ⊢
      tauto
  · exact key _ (by simp)

theorem ordinary_wide (t : Tok) (h : Ordinary t) : wideOf t = none := by
  cases t with
  | ident s k => exact if_neg (h.notWide s k rfl)
  | _ => rfl

/-- A part supports its own words. -/
theorem support_own (kind : Str → Kind) (p : Part) (t : Tok) (h : Word kind p t) :
    (descOf kind p).support t = true := by
  rcases h with h | ⟨rfl, rfl⟩
  · cases p with
    | source =>
      rcases h with rfl | ⟨s, rfl, hk, -⟩
      · rfl
      · simp [descOf, sourceDesc, keywords, kinds] at hk ⊢; simp [hk]
    | slice =>
      obtain ⟨s, rfl, hk, -⟩ := h
      simp [descOf, sliceDesc, keywords, kinds] at hk ⊢; tauto
    | width =>
      rcases h with rfl | ⟨s, rfl, hk, -⟩
      · rfl
      · simp [descOf, widthDesc, keywords, kinds] at hk ⊢; tauto
    | outset =>
      obtain ⟨s, rfl, hk, -⟩ := h
      simp [descOf, outsetDesc, keywords, kinds] at hk ⊢; tauto
    | rep =>
      obtain ⟨w, hw, rfl⟩ := h
      simp only [List.mem_cons, List.not_mem_nil, or_false] at hw
      rcases hw with rfl | rfl | rfl | rfl <;> rfl
    | mode =>
      obtain ⟨w, hw, rfl⟩ := h
      simp only [List.mem_cons, List.not_mem_nil, or_false] at hw
      rcases hw with rfl | rfl <;> rfl
  · rfl

/-- A part does not support the words of others, unless both are in the group of slices. -/
theorem support_other (kind : Str → Kind) (p q : Part) (t : Tok) (h : Word kind q t) (hne : q ≠ p)
    (hc : core p = false ∨ core q = false) : (descOf kind p).support t = false := by
  have ho : ∀ (ks : List Kind) (s : Str), kind s ∈ ks → (descOf kind p).support (.other s) = true →
      (∀ k ∈ ks, k = Kind.image) ∨ (∀ k ∈ ks, k ≠ Kind.image) →
      (p = .source ∧ ∀ k ∈ ks, k = Kind.image) ∨ (core p = true ∧ ∀ k ∈ ks, k ≠ Kind.image) := by
    intro ks s hk hs hks
    cases p <;>
      simp [descOf, sourceDesc, sliceDesc, widthDesc, outsetDesc, repeatDesc, modeDesc, keywords, kinds, nothing] at hs <;>
      simp only [core] <;> rcases hks with hks | hks <;> have := hks _ hk <;> simp_all
  by_contra hs
  rw [Bool.not_eq_false] at hs
  rcases h with h | ⟨rfl, rfl⟩
  · cases q with
    | source =>
      rcases h with rfl | ⟨s, rfl, hk, -⟩
      · cases p <;> first | exact hne rfl | exact absurd hs (by decide) | (revert hs; simp [descOf, sliceDesc, widthDesc, outsetDesc, repeatDesc, modeDesc, nothing, keywords, kinds, kw])
      · rcases ho _ s hk hs (Or.inl (by simp)) with ⟨rfl, -⟩ | ⟨-, h2⟩
        · exact hne rfl
        · exact absurd rfl (h2 Kind.image (by simp))
    | slice =>
      obtain ⟨s, rfl, hk, -⟩ := h
      rcases ho _ s hk hs (Or.inr (by simp)) with ⟨rfl, h2⟩ | ⟨h1, h2⟩
      · simp at h2
      · rcases hc with hc | hc; exacts [by simp [h1] at hc, by simp [core] at hc]
    | width =>
      rcases h with rfl | ⟨s, rfl, hk, -⟩
      · simp [core] at hc
        cases p <;> first | exact hne rfl | exact absurd hc (by decide) | (revert hs; simp [descOf, sourceDesc, repeatDesc, modeDesc, nothing, keywords, kinds, kw])
      · rcases ho _ s hk hs (Or.inr (by simp)) with ⟨rfl, h2⟩ | ⟨h1, h2⟩
        · simp at h2
        · rcases hc with hc | hc; exacts [by simp [h1] at hc, by simp [core] at hc]
    | outset =>
      obtain ⟨s, rfl, hk, -⟩ := h
      rcases ho _ s hk hs (Or.inr (by simp)) with ⟨rfl, h2⟩ | ⟨h1, h2⟩
      · simp at h2
      · rcases hc with hc | hc; exacts [by simp [h1] at hc, by simp [core] at hc]
    | rep =>
      obtain ⟨w, hw, rfl⟩ := h
      simp only [List.mem_cons, List.not_mem_nil, or_false] at hw
      rcases hw with rfl | rfl | rfl | rfl <;>
      cases p <;> first | exact hne rfl | (revert hs; simp [descOf, sourceDesc, sliceDesc, widthDesc, outsetDesc, modeDesc, nothing, keywords, kinds, kw])
    | mode =>
      obtain ⟨w, hw, rfl⟩ := h
      simp only [List.mem_cons, List.not_mem_nil, or_false] at hw
      rcases hw with rfl | rfl <;>
      cases p <;> first | exact hne rfl | (revert hs; simp [descOf, sourceDesc, sliceDesc, widthDesc, outsetDesc, repeatDesc, nothing, keywords, kinds, kw])
  · simp [core] at hc
    cases p <;> first | exact hne rfl | exact absurd hc (by decide) | (revert hs; simp [descOf, sourceDesc, repeatDesc, modeDesc, nothing, keywords, kinds, kw])

/-! ### One step of reading -/

/-- How a part is read. -/
def readPart (kind : Str → Kind) : Part → Option (List Tok) → List Tok → Parsed
  | .slice => parseSlice (sliceDesc kind)
  | .width => parseSolidus (widthDesc kind)
  | .outset => parseSolidus (outsetDesc kind)
  | .source => parseList (sourceDesc kind)
  | .rep => parseList repeatDesc
  | .mode => parseList modeDesc

theorem sl_ws (d : Desc) (tg : Option (List Tok)) (s : Str) (l : List Tok) :
    parseSlice d tg (.ws s :: l) =
      if tg.isSome then parseSlice d (some (tg.getD [] ++ [.ws s])) l else (parseSlice d tg l).keep (.ws s) := by
  rw [parseSlice]

theorem sl_step (d : Desc) (tg : Option (List Tok)) (t : Tok) (l : List Tok) (hn : ∀ s, t ≠ .ws s)
    (hw : wideOf t = none) :
    parseSlice d tg (t :: l) =
      if t = .lit [','] then
        if d.list then (if tg.isSome then parseSlice d (some (tg.getD [] ++ [t])) l else (parseSlice d tg l).keep t)
        else ⟨none, [], t :: l⟩
      else if t = .lit ['/'] then (if tg.isSome then ⟨tg, [], t :: l⟩ else (parseSlice d tg l).keep t)
      else if d.support t then
        (if isIdent t then ⟨some (tg.getD [] ++ [t]), [], l⟩ else parseSlice d (some (tg.getD [] ++ [t])) l)
      else if tg.isSome then ⟨tg, [], t :: l⟩ else (parseSlice d tg l).keep t := by
  cases t with
  | ws s => exact absurd rfl (hn s)
  | ident s k => rw [parseSlice]; simp only [hw]; simp
  | lit s => rw [parseSlice]; simp only [hw]; simp
  | other s => rw [parseSlice]; simp only [hw]; simp

theorem r_nil (kind : Str → Kind) (p : Part) (tg : Option (List Tok)) : readPart kind p tg [] = ⟨tg, [], []⟩ := by
  cases p <;> simp only [readPart] <;> first | rw [parseList] | rw [parseSlice] | rw [parseSolidus]

theorem r_ws (kind : Str → Kind) (p : Part) (tg : Option (List Tok)) (s : Str) (l : List Tok) :
    readPart kind p tg (.ws s :: l) =
      if tg.isSome then readPart kind p (some (tg.getD [] ++ [.ws s])) l
      else (readPart kind p tg l).keep (.ws s) := by
  cases p <;> simp only [readPart] <;>
    first | exact FontShorthand.pl_ws _ _ _ _ | exact sl_ws _ _ _ _ | exact FontShorthand.ps_ws _ _ _ _

theorem r_skip (kind : Str → Kind) (p : Part) (t : Tok) (l : List Tok) (ho : Ordinary t)
    (hs : (descOf kind p).support t = false) : readPart kind p none (t :: l) = (readPart kind p none l).keep t := by
  have hw := ordinary_wide t ho
  cases p <;> simp only [readPart, descOf] at hs ⊢ <;>
    first
    | rw [FontShorthand.pl_step _ _ _ _ ho.notWs hw, if_neg ho.notComma, if_neg ho.notSlash, hs]; rfl
    | rw [sl_step _ _ _ _ ho.notWs hw, if_neg ho.notComma, if_neg ho.notSlash, hs]; rfl
    | rw [FontShorthand.ps_step _ _ _ _ ho.notWs hw, if_neg ho.notComma, if_neg ho.notSlash]; rfl

theorem r_slash_skip (kind : Str → Kind) (p : Part) (l : List Tok) (h : solid p = false) :
    readPart kind p none (.lit ['/'] :: l) = (readPart kind p none l).keep (.lit ['/']) := by
  cases p <;> simp only [readPart, solid] at h ⊢ <;>
    first
    | exact absurd h (by decide)
    | rw [FontShorthand.pl_step _ _ _ _ (by simp) rfl]; rfl
    | rw [sl_step _ _ _ _ (by simp) rfl]; rfl

theorem r_slash_open (kind : Str → Kind) (p : Part) (l : List Tok) (h : solid p = true) :
    readPart kind p none (.lit ['/'] :: l) = readPart kind p (some []) l := by
  cases p <;> simp only [readPart, solid] at h ⊢ <;>
    first
    | exact absurd h (by decide)
    | rw [FontShorthand.ps_step _ _ _ _ (by simp) rfl]; rfl

theorem r_first (kind : Str → Kind) (p : Part) (t : Tok) (l : List Tok) (ho : Ordinary t)
    (hs : (descOf kind p).support t = true) (h : solid p = false) (hi : p = .slice → isIdent t = false) :
    readPart kind p none (t :: l) = readPart kind p (some [t]) l := by
  have hw := ordinary_wide t ho
  cases p <;> simp only [readPart, descOf, solid] at h hs ⊢ <;>
    first
    | exact absurd h (by decide)
    | rw [FontShorthand.pl_step _ _ _ _ ho.notWs hw, if_neg ho.notComma, if_neg ho.notSlash, hs]; rfl
    | rw [sl_step _ _ _ _ ho.notWs hw, if_neg ho.notComma, if_neg ho.notSlash, hs, hi rfl]; rfl

theorem r_take (kind : Str → Kind) (p : Part) (acc : List Tok) (t : Tok) (l : List Tok) (ho : Ordinary t)
    (hs : (descOf kind p).support t = true) (hi : p = .slice → isIdent t = false) :
    readPart kind p (some acc) (t :: l) = readPart kind p (some (acc ++ [t])) l := by
  have hw := ordinary_wide t ho
  cases p <;> simp only [readPart, descOf, solid] at hs ⊢ <;>
    first
    | rw [FontShorthand.pl_step _ _ _ _ ho.notWs hw, if_neg ho.notComma, if_neg ho.notSlash, hs]; rfl
    | rw [sl_step _ _ _ _ ho.notWs hw, if_neg ho.notComma, if_neg ho.notSlash, hs, hi rfl]; rfl
    | rw [FontShorthand.ps_step _ _ _ _ ho.notWs hw, if_neg ho.notComma, if_neg ho.notSlash, hs]; rfl

theorem r_fill (kind : Str → Kind) (acc l : List Tok) :
    readPart kind .slice (some acc) (kw "fill" :: l) = ⟨some (acc ++ [kw "fill"]), [], l⟩ := by
  simp only [readPart]
  rw [sl_step _ _ _ _ (by simp [kw]) (by rfl)]
  rfl

theorem r_stop (kind : Str → Kind) (p : Part) (acc : List Tok) (t : Tok) (l : List Tok)
    (h : t = .lit ['/'] ∨ (Ordinary t ∧ (descOf kind p).support t = false)) :
    readPart kind p (some acc) (t :: l) = ⟨some acc, [], t :: l⟩ := by
  rcases h with rfl | ⟨ho, hs⟩
  · cases p <;> simp only [readPart] <;>
      first
      | rw [FontShorthand.pl_step _ _ _ _ (by simp) rfl]; rfl
      | rw [sl_step _ _ _ _ (by simp) rfl]; rfl
      | rw [FontShorthand.ps_step _ _ _ _ (by simp) rfl]; rfl
  · have hw := ordinary_wide t ho
    cases p <;> simp only [readPart, descOf] at hs ⊢ <;>
    first
    | rw [FontShorthand.pl_step _ _ _ _ ho.notWs hw, if_neg ho.notComma, if_neg ho.notSlash, hs]; rfl
    | rw [sl_step _ _ _ _ ho.notWs hw, if_neg ho.notComma, if_neg ho.notSlash, hs]; rfl
    | rw [FontShorthand.ps_step _ _ _ _ ho.notWs hw, if_neg ho.notComma, if_neg ho.notSlash, hs]; rfl

/-! ### Runs of tokens -/

/-- Tokens that are passed over. -/
def Over (kind : Str → Kind) (p : Part) (t : Tok) : Prop :=
  (∃ s, t = .ws s) ∨ (Ordinary t ∧ (descOf kind p).support t = false) ∨ (t = .lit ['/'] ∧ solid p = false)

theorem run_skip (kind : Str → Kind) (p : Part) (a b : List Tok) (h : ∀ t ∈ a, Over kind p t) :
    readPart kind p none (a ++ b) =
      ⟨(readPart kind p none b).found, (readPart kind p none b).wides, a ++ (readPart kind p none b).rest⟩ := by
  induction a with
  | nil => rfl
  | cons t a ih =>
    have ih := ih (fun x hx => h x (List.mem_cons_of_mem _ hx))
    rw [List.cons_append]
    rcases h t List.mem_cons_self with ⟨s, rfl⟩ | ⟨ho, hs⟩ | ⟨rfl, hs⟩
    · rw [r_ws, ih]; rfl
    · rw [r_skip _ _ _ _ ho hs, ih]; rfl
    · rw [r_slash_skip _ _ _ hs, ih]; rfl

theorem run_spaces (kind : Str → Kind) (p : Part) (acc w b : List Tok) (h : Spaces w) :
    readPart kind p (some acc) (w ++ b) = readPart kind p (some (acc ++ w)) b := by
  induction w generalizing acc with
  | nil => simp
  | cons t w ih =>
    obtain ⟨s, rfl, -⟩ := h t List.mem_cons_self
    rw [List.cons_append, r_ws]
    simp only [Option.isSome_some, if_true, Option.getD_some]
    rw [ih _ (fun x hx => h x (List.mem_cons_of_mem _ hx)), List.append_assoc]
    rfl

/-- Tokens that go on with a part. -/
def On (kind : Str → Kind) (p : Part) (t : Tok) : Prop :=
  (∃ s, t = .ws s) ∨ (Ordinary t ∧ (descOf kind p).support t = true ∧ (p = .slice → isIdent t = false))

theorem run_take (kind : Str → Kind) (p : Part) (acc a b : List Tok) (h : ∀ t ∈ a, On kind p t) :
    readPart kind p (some acc) (a ++ b) = readPart kind p (some (acc ++ a)) b := by
  induction a generalizing acc with
  | nil => simp
  | cons t a ih =>
    have ih := ih (acc ++ [t]) (fun x hx => h x (List.mem_cons_of_mem _ hx))
    rw [List.append_assoc] at ih
    rw [List.cons_append]
    rcases h t List.mem_cons_self with ⟨s, rfl⟩ | ⟨ho, hs, hi⟩
    · rw [r_ws]; exact ih
    · rw [r_take _ _ _ _ _ ho hs hi]; exact ih

theorem isWord_on (kind : Str → Kind) (p : Part) (t : Tok) (h : IsWord kind p t) : On kind p t := by
  refine Or.inr ⟨word_ordinary kind p t (Or.inl h), support_own kind p t (Or.inl h), ?_⟩
  rintro rfl
  obtain ⟨s, rfl, -⟩ := h
  rfl

theorem spaced_snoc (g : List Tok) (t : Tok) (h : g ≠ []) : spaced (g ++ [t]) = spaced g ++ [.ws [' '], t] := by
  induction g with
  | nil => exact absurd rfl h
  | cons a g ih =>
    cases g with
    | nil => rfl
    | cons b g =>
      have := ih (by simp)
      show a :: Tok.ws [' '] :: spaced (b :: g ++ [t]) = _
      rw [this]
      rfl

theorem text_spaced (w : List Tok) : (spaced w).flatMap Tok.text = sentence w := by
  induction w with
  | nil => rfl
  | cons t w ih =>
    cases w with
    | nil => simp [spaced, sentence]
    | cons u w =>
      show (t :: Tok.ws [' '] :: spaced (u :: w)).flatMap Tok.text = _
      simp [ih, sentence, Tok.text]

/-- What stands behind a part. -/
def Behind (kind : Str → Kind) (p : Part) (l : List Tok) : Prop :=
  l = [] ∨ ∃ t l', l = t :: l' ∧ (t = .lit ['/'] ∨ (Ordinary t ∧ (descOf kind p).support t = false))

theorem r_behind (kind : Str → Kind) (p : Part) (acc l : List Tok) (h : Behind kind p l) :
    readPart kind p (some acc) l = ⟨some acc, [], l⟩ := by
  rcases h with rfl | ⟨t, l', rfl, h⟩
  · rw [r_nil]
  · exact r_stop kind p acc t l' h

theorem text_spaces (w : List Tok) (h : Spaces w) : ∀ x ∈ w.flatMap Tok.text, isSpace x = true := by
  intro x hx
  obtain ⟨t, ht, hx⟩ := List.mem_flatMap.1 hx
  obtain ⟨s, rfl, hs⟩ := h t ht
  exact hs x hx

theorem valueText_around (v g w : List Tok) (hv : Spaces v) (hw : Spaces w) (hne : g ≠ [])
    (hg : ∀ t ∈ g, Ordinary t) : valueText (v ++ (spaced g ++ w)) = sentence g := by
  obtain ⟨h1, h2⟩ := sentence_ends g hne hg
  unfold valueText
  rw [List.flatMap_append, List.flatMap_append, text_spaced]
  have := strip_around (v.flatMap Tok.text) (sentence g) (w.flatMap Tok.text) (text_spaces v hv) (text_spaces w hw) h2
  simpa using this

/-- Reading a part that is there. -/
theorem hit (kind : Str → Kind) (p : Part) (g : List Tok) (hg : IsGroup kind p g) (v w l : List Tok)
    (hv : Spaces v) (hw : Spaces w) (hb : Behind kind p l) :
    ∃ f r, readPart kind p none (lead p v ++ (spaced g ++ (w ++ l))) = ⟨some f, [], r⟩ ∧ f ≠ [] ∧
      valueText f = sentence g ∧ (r = l ∨ r = w ++ l) := by
  obtain ⟨hne, hwd⟩ := group_words kind p g hg
  have hord : ∀ t ∈ g, Ordinary t := fun t ht => word_ordinary kind p t (hwd t ht)
  have hbegin : ∀ (x : Tok) (xs : List Tok), IsWord kind p x → ∀ b,
      readPart kind p none (lead p v ++ (spaced (x :: xs) ++ b)) =
        readPart kind p (some ((if solid p then v else []) ++ [x])) ((spaced (x :: xs)).tail ++ b) := by
    intro x xs hx b
    obtain ⟨r, hr⟩ := FontShorthand.spaced_head x xs
    have hon := (isWord_on kind p x hx).resolve_left (by
      rintro ⟨s, rfl⟩
      exact (word_ordinary kind p _ (Or.inl hx)).notWs s rfl)
    rw [hr]
    by_cases hs : solid p = true
    · simp only [lead, hs, if_true, List.cons_append]
      rw [r_slash_open _ _ _ hs, run_spaces _ _ _ _ _ hv, r_take _ _ _ _ _ hon.1 hon.2.1 hon.2.2]
      rfl
    · simp only [lead, hs, if_false, List.nil_append, List.cons_append, Bool.false_eq_true]
      rw [r_first _ _ _ _ hon.1 hon.2.1 (by simpa using hs) hon.2.2]
      rfl
  have hvs : Spaces (if solid p then v else []) := by
    split
    · exact hv
    · intro t ht; simp at ht
  have htail : ∀ (x : Tok) (xs : List Tok), (∀ t ∈ x :: xs, IsWord kind p t) →
      ∀ t ∈ (spaced (x :: xs)).tail, On kind p t := by
    intro x xs hx t ht
    rcases FontShorthand.mem_spaced _ t (List.mem_of_mem_tail ht) with rfl | ht
    · exact Or.inl ⟨_, rfl⟩
    · exact isWord_on kind p t (hx t ht)
  have hst : ∀ (x : Tok) (xs : List Tok), [x] ++ (spaced (x :: xs)).tail = spaced (x :: xs) := by
    intro x xs
    obtain ⟨r, hr⟩ := FontShorthand.spaced_head x xs
    rw [hr]; rfl
  rcases hg.2 with h | ⟨rfl, g', hne', rfl, h⟩
  · cases g with
    | nil => exact absurd rfl hne
    | cons x xs =>
      rw [hbegin x xs (h x List.mem_cons_self), run_take _ _ _ _ _ (htail x xs h), List.append_assoc, hst,
        run_spaces _ _ _ _ _ hw, r_behind _ _ _ _ hb, List.append_assoc]
      refine ⟨_, _, rfl, ?_, valueText_around _ _ _ hvs hw hne hord, Or.inl rfl⟩
      obtain ⟨r, hr⟩ := FontShorthand.spaced_head x xs
      rw [hr]
      simp
  · cases g' with
    | nil => exact absurd rfl hne'
    | cons x xs =>
      rw [spaced_snoc _ _ hne', List.append_assoc, hbegin x xs (h x List.mem_cons_self),
        run_take _ _ _ _ _ (htail x xs h), List.append_assoc, hst, List.cons_append, r_ws]
      simp only [Option.isSome_some, if_true, Option.getD_some, List.cons_append, List.nil_append]
      rw [r_fill]
      refine ⟨_, _, rfl, by simp, ?_, Or.inr rfl⟩
      have := valueText_around [] (x :: xs ++ [kw "fill"]) [] (by intro t ht; simp at ht) (by intro t ht; simp at ht) hne hord
      rw [spaced_snoc _ _ hne'] at this
      simpa [solid] using this

/-! ### One part of a value -/

theorem layout_spaces (gs : List (Part × List Tok)) (l w : List Tok) (h : Layout gs l) (hw : Spaces w) :
    Layout gs (w ++ l) := by
  have happ : ∀ a b, Spaces a → Spaces b → Spaces (a ++ b) := by
    intro a b ha hb t ht
    rcases List.mem_append.1 ht with ht | ht
    exacts [ha t ht, hb t ht]
  cases h with
  | nil _ h => exact .nil _ (happ _ _ hw h)
  | cons p g gs w' v l h1 h2 h3 =>
    rw [← List.append_assoc]
    exact .cons p g gs _ v l (happ _ _ hw h1) h2 h3

/-- The spaces before a value, and what follows them. -/
theorem layout_split (kind : Str → Kind) (p : Part) (gs : List (Part × List Tok)) (l : List Tok) (h : Layout gs l)
    (hg : ∀ g ∈ gs, IsGroup kind g.1 g.2)
    (hp : ∀ g ∈ gs, g.1 ≠ p ∧ (core p = false ∨ core g.1 = false ∨ solid g.1 = true)) :
    ∃ w l', l = w ++ l' ∧ Spaces w ∧ Behind kind p l' ∧ Layout gs l' := by
  cases h with
  | nil _ h => exact ⟨l, [], by simp, h, Or.inl rfl, .nil _ (by intro t ht; simp at ht)⟩
  | cons q g gs w v l h1 h2 h3 =>
    refine ⟨w, _, rfl, h1, Or.inr ?_, by simpa using Layout.cons q g gs [] v l (by intro t ht; simp at ht) h2 h3⟩
    obtain ⟨hne, hc⟩ := hp (q, g) List.mem_cons_self
    obtain ⟨hne2, hwd⟩ := group_words kind q g (hg (q, g) List.mem_cons_self)
    by_cases hs : solid q = true
    · exact ⟨.lit ['/'], v ++ (spaced g ++ l), by simp [lead, hs], Or.inl rfl⟩
    · cases g with
      | nil => exact absurd rfl hne2
      | cons x xs =>
        obtain ⟨r, hr⟩ := FontShorthand.spaced_head x xs
        refine ⟨x, _, by simp [lead, hs, hr]; rfl, Or.inr ⟨word_ordinary kind q x (hwd x List.mem_cons_self), ?_⟩⟩
        refine support_other kind p q x (hwd x List.mem_cons_self) hne ?_
        rcases hc with hc | hc | hc
        exacts [Or.inl hc, Or.inr hc, absurd hc hs]

/-- Before the part there is no other of the group of slices, if it is one of them. -/
def Ready (p : Part) (gs : List (Part × List Tok)) : Prop :=
  (gs.map (·.1)).Nodup ∧
    (core p = true → (gs.map (·.1)).filter core = [] ∨
      ∃ r, (gs.map (·.1)).filter core = p :: r ∧ ∀ q ∈ r, solid q = true)

theorem stage (kind : Str → Kind) (p : Part) (gs : List (Part × List Tok)) (l : List Tok) (hl : Layout gs l)
    (hg : ∀ g ∈ gs, IsGroup kind g.1 g.2) (hr : Ready p gs) :
    ∃ f l', readPart kind p none l = ⟨f, [], l'⟩ ∧ f ≠ some [] ∧ f.map valueText = value gs p ∧
      Layout (gs.filter (fun g => g.1 ≠ p)) l' := by
  induction hl with
  | nil w hw =>
    have := run_skip kind p w [] (fun t ht => Or.inl (by obtain ⟨s, rfl, -⟩ := hw t ht; exact ⟨s, rfl⟩))
    rw [List.append_nil, r_nil, List.append_nil] at this
    exact ⟨none, w, this, by simp, rfl, .nil w hw⟩
  | cons q g gs w v l hw hv hl ih =>
    have hnd := hr.1
    rw [List.map_cons, List.nodup_cons] at hnd
    have hspace : ∀ t ∈ w, Over kind p t := fun t ht => Or.inl (by obtain ⟨s, rfl, -⟩ := hw t ht; exact ⟨s, rfl⟩)
    by_cases hq : q = p
    · subst hq
      have hrest : ∀ g' ∈ gs, g'.1 ≠ q ∧ (core q = false ∨ core g'.1 = false ∨ solid g'.1 = true) := by
        intro g' hg'
        refine ⟨fun he => hnd.1 (List.mem_map.2 ⟨g', hg', he⟩), ?_⟩
        by_cases hc : core q = true
        · rcases hr.2 hc with h | ⟨r, h, h2⟩
          · simp [hc] at h
          · rw [List.map_cons, List.filter_cons_of_pos hc, List.cons.injEq] at h
            by_cases hc' : core g'.1 = true
            · refine Or.inr (Or.inr (h2 _ ?_))
              rw [← h.2]
              exact List.mem_filter.2 ⟨List.mem_map_of_mem hg', hc'⟩
            · exact Or.inr (Or.inl (by simpa using hc'))
        · exact Or.inl (by simpa using hc)
      obtain ⟨w2, l2, rfl, hw2, hb, hl2⟩ := layout_split kind q gs l hl
        (fun g' h => hg g' (List.mem_cons_of_mem _ h)) hrest
      obtain ⟨f, r, h1, h2, h3, h4⟩ := hit kind q g (hg (q, g) List.mem_cons_self) v w2 l2 hv hw2 hb
      rw [run_skip kind q w _ hspace, h1]
      refine ⟨some f, w ++ r, rfl, by simpa using h2, by simp [value, h3], ?_⟩
      have hfilter : ((q, g) :: gs).filter (fun g => g.1 ≠ q) = gs := by
        rw [List.filter_cons]
        simp only [ne_eq, not_true_eq_false, decide_false, Bool.false_eq_true, if_false]
        rw [List.filter_eq_self]
        intro g' hgm
        simpa using (hrest g' hgm).1
      rw [hfilter]
      apply layout_spaces _ _ _ _ hw
      rcases h4 with rfl | rfl
      · exact hl2
      · exact hl
    · have hc : core p = false ∨ core q = false := by
        by_cases hc : core p = true
        · rcases hr.2 hc with h | ⟨r, h, -⟩
          · right
            by_contra hcq
            rw [List.map_cons, List.filter_cons_of_pos (by simpa using hcq)] at h
            exact absurd h (by simp)
          · right
            by_contra hcq
            rw [List.map_cons, List.filter_cons_of_pos (by simpa using hcq), List.cons.injEq] at h
            exact hq h.1
        · exact Or.inl (by simpa using hc)
      have hready : Ready p gs := by
        refine ⟨hnd.2, fun hcp => ?_⟩
        have hcq : core q = false := by rcases hc with h | h; exacts [absurd hcp (by simp [h]), h]
        have := hr.2 hcp
        rw [List.map_cons, List.filter_cons_of_neg (by simp [hcq])] at this
        exact this
      obtain ⟨f, l', h1, h2, h3, h4⟩ := ih (fun g' h => hg g' (List.mem_cons_of_mem _ h)) hready
      have hover : ∀ t ∈ w ++ (lead q v ++ spaced g), Over kind p t := by
        intro t ht
        rcases List.mem_append.1 ht with ht | ht
        · exact hspace t ht
        · rcases List.mem_append.1 ht with ht | ht
          · unfold lead at ht
            split at ht
            · rename_i hsq
              rcases List.mem_cons.1 ht with rfl | ht
              · refine Or.inr (Or.inr ⟨rfl, ?_⟩)
                have : core q = true := by cases q <;> simp_all [solid, core]
                rw [this] at hc
                have hcp : core p = false := by simpa using hc
                cases p <;> simp_all [solid, core]
              · obtain ⟨s, rfl, -⟩ := hv t ht
                exact Or.inl ⟨s, rfl⟩
            · simp at ht
          · rcases FontShorthand.mem_spaced _ t ht with rfl | ht
            · exact Or.inl ⟨_, rfl⟩
            · have := (group_words kind q g (hg (q, g) List.mem_cons_self)).2 t ht
              exact Or.inr (Or.inl ⟨word_ordinary kind q t this, support_other kind p q t this hq hc⟩)
      have happ : w ++ (lead q v ++ (spaced g ++ l)) = (w ++ (lead q v ++ spaced g)) ++ l := by
        simp [List.append_assoc]
      rw [happ, run_skip kind p _ _ hover, h1]
      refine ⟨f, _, rfl, h2, ?_, ?_⟩
      · rw [h3]
        simp [value, hq]
      · have hfilter : ((q, g) :: gs).filter (fun g => g.1 ≠ p) = (q, g) :: gs.filter (fun g => g.1 ≠ p) := by
          rw [List.filter_cons]
          simp [hq]
        rw [hfilter]
        simpa [List.append_assoc] using Layout.cons q g _ w v l' hw hv h4

/-! ### All parts -/

theorem value_none (gs : List (Part × List Tok)) (p : Part) : value gs p = none ↔ p ∉ gs.map (·.1) := by
  unfold value
  rw [Option.map_eq_none_iff, List.find?_eq_none]
  constructor
  · intro h hm
    obtain ⟨g, hg, he⟩ := List.mem_map.1 hm
    exact h g hg (by simpa using he)
  · intro h g hg he
    exact h (List.mem_map.2 ⟨g, hg, by simpa using he⟩)

theorem value_filter (gs : List (Part × List Tok)) (p q : Part) (h : q ≠ p) :
    value (gs.filter (fun g => g.1 ≠ p)) q = value gs q := by
  induction gs with
  | nil => rfl
  | cons g gs ih =>
    unfold value at ih ⊢
    rw [List.filter_cons]
    by_cases hg : g.1 = p
    · have hq : ¬ g.1 = q := fun he => h (he ▸ hg)
      simp only [hg, ne_eq, not_true_eq_false, decide_false, Bool.false_eq_true, if_false]
      rw [ih, List.find?_cons_of_neg (by simpa using hq)]
    · simp only [hg, ne_eq, not_false_eq_true, decide_true, if_true]
      by_cases hq : g.1 = q
      · rw [List.find?_cons_of_pos (by simpa using hq), List.find?_cons_of_pos (by simpa using hq)]
      · rw [List.find?_cons_of_neg (by simpa using hq), List.find?_cons_of_neg (by simpa using hq), ih]

theorem parts_filter (gs : List (Part × List Tok)) (p : Part) :
    (gs.filter (fun g => g.1 ≠ p)).map (·.1) = (gs.map (·.1)).filter (fun q => q ≠ p) := by
  rw [List.filter_map]
  rfl

theorem order_cases (c : List Part) (h : c <+: [.slice, .width, .outset]) :
    c = [] ∨ c = [.slice] ∨ c = [.slice, .width] ∨ c = [.slice, .width, .outset] := by
  rcases c with _ | ⟨a, c⟩
  · simp
  · rw [List.cons_prefix_cons] at h
    obtain ⟨rfl, h⟩ := h
    rcases c with _ | ⟨a, c⟩
    · simp
    · rw [List.cons_prefix_cons] at h
      obtain ⟨rfl, h⟩ := h
      rcases c with _ | ⟨a, c⟩
      · simp
      · rw [List.cons_prefix_cons] at h
        obtain ⟨rfl, h⟩ := h
        simp [List.prefix_nil.1 h]

theorem core_filter (ps : List Part) (p : Part) :
    (ps.filter (fun q => q ≠ p)).filter core = (ps.filter core).filter (fun q => q ≠ p) := by
  rw [List.filter_filter, List.filter_filter]
  apply List.filter_congr
  intro x hx
  rw [Bool.and_comm]

theorem core_mem (ps : List Part) (p : Part) (h : core p = true) : p ∈ ps ↔ p ∈ ps.filter core := by
  simp [List.mem_filter, h]

theorem nonEmpty_eq (f : Option (List Tok)) (h : f ≠ some []) : nonEmpty f = f := by
  rcases f with _ | ⟨_ | ⟨a, l⟩⟩
  · rfl
  · exact absurd rfl h
  · rfl

/-- The six results. -/
def pick {α : Type} (a b c e f g : α) : Part → α
  | .source => a
  | .slice => b
  | .width => c
  | .outset => e
  | .rep => f
  | .mode => g

theorem flat_parts (f : Part → List (Str × List Tok)) :
    allParts.flatMap f = f .source ++ f .slice ++ f .width ++ f .outset ++ f .rep ++ f .mode := by
  simp [allParts, List.flatMap_cons]

theorem assemble (kind : Str → Kind) (l la lb lc le lf lg : List Tok) (fa fb fc fe ff fg : Option (List Tok))
    (a1 : readPart kind .source none l = ⟨fa, [], la⟩) (b1 : readPart kind .slice none la = ⟨fb, [], lb⟩)
    (x1 : (if fb.isSome then readPart kind .width none lb else idle lb) = ⟨fc, [], lc⟩)
    (e1 : (if fc.isSome then readPart kind .outset none lc else idle lc) = ⟨fe, [], le⟩)
    (f1 : readPart kind .rep none le = ⟨ff, [], lf⟩) (h1 : readPart kind .mode none lf = ⟨fg, [], lg⟩)
    (x2 : fc ≠ some []) (e2 : fe ≠ some []) :
    parseBorder kind l = (allParts.flatMap (fun p => found (name p) (pick fa fb fc fe ff fg p)), []) := by
  simp only [readPart] at a1 b1 x1 e1 f1 h1
  rw [flat_parts]
  unfold parseBorder
  simp only [a1, b1, x1, nonEmpty_eq fc x2, e1, f1, h1, nonEmpty_eq fe e2]
  rfl

/-- What is found for all the parts. -/
theorem parse_spec (kind : Str → Kind) (gs : List (Part × List Tok)) (hg : Good kind gs) (l : List Tok)
    (hl : Layout gs l) :
    ∃ f : Part → Option (List Tok), (∀ p, (f p).map valueText = value gs p) ∧
      parseBorder kind l = (allParts.flatMap (fun p => found (name p) (f p)), []) := by
  have hcases := order_cases _ hg.order
  obtain ⟨fa, la, a1, a2, a3, a4⟩ := stage kind .source gs l hl hg.groups ⟨hg.once, by simp [core]⟩
  generalize hgs1 : gs.filter (fun g => g.1 ≠ .source) = gs1 at a4
  have g1 : ∀ g ∈ gs1, IsGroup kind g.1 g.2 := fun g h => hg.groups g (by rw [← hgs1] at h; exact List.mem_of_mem_filter h)
  have n1 : (gs1.map (·.1)).Nodup := by rw [← hgs1, parts_filter]; exact hg.once.filter _
  have c1 : (gs1.map (·.1)).filter core = (gs.map (·.1)).filter core := by
    rw [← hgs1, parts_filter, core_filter, List.filter_eq_self]
    intro x hx
    have := (List.mem_filter.1 hx).2
    cases x <;> simp_all [core]
  obtain ⟨fb, lb, b1, b2, b3, b4⟩ := stage kind .slice gs1 la a4 g1 ⟨n1, fun _ => by
    rw [c1]
    rcases hcases with h | h | h | h <;> simp [h, solid]⟩
  rw [← hgs1, value_filter _ _ _ (by decide)] at b3
  generalize hgs2 : gs1.filter (fun g => g.1 ≠ .slice) = gs2 at b4
  have g2 : ∀ g ∈ gs2, IsGroup kind g.1 g.2 := fun g h => g1 g (by rw [← hgs2] at h; exact List.mem_of_mem_filter h)
  have n2 : (gs2.map (·.1)).Nodup := by rw [← hgs2, parts_filter]; exact n1.filter _
  have c2 : (gs2.map (·.1)).filter core = ((gs.map (·.1)).filter core).filter (fun q => q ≠ .slice) := by
    rw [← hgs2, parts_filter, core_filter, c1]
  have v2 : ∀ q, q ≠ .source → q ≠ .slice → value gs2 q = value gs q := by
    intro q h1 h2
    rw [← hgs2, value_filter _ _ _ h2, ← hgs1, value_filter _ _ _ h1]
  obtain ⟨fc, lc, x1, x2, x3, x4⟩ : ∃ f l', (if fb.isSome then readPart kind .width none lb else idle lb) = ⟨f, [], l'⟩ ∧
      f ≠ some [] ∧ f.map valueText = value gs .width ∧ Layout (gs2.filter (fun g => g.1 ≠ .width)) l' := by
    by_cases hb : fb.isSome = true
    · rw [if_pos hb]
      have := stage kind .width gs2 lb b4 g2 ⟨n2, fun _ => by
        rw [c2]
        rcases hcases with h | h | h | h <;> simp [h, solid]⟩
      rw [v2 _ (by decide) (by decide)] at this
      exact this
    · rw [if_neg hb]
      have hnone : value gs .slice = none := by
        rw [← b3]
        cases fb with
        | none => rfl
        | some x => exact absurd rfl hb
      rw [value_none, core_mem _ _ (by rfl)] at hnone
      have hno : (gs.map (·.1)).filter core = [] := by
        rcases hcases with h | h | h | h <;> first | exact h | (rw [h] at hnone; simp at hnone)
      have hw : value gs .width = none := by
        rw [value_none, core_mem _ _ (by rfl), hno]
        simp
      refine ⟨none, lb, rfl, by simp, hw.symm, ?_⟩
      have : gs2.filter (fun g => g.1 ≠ .width) = gs2 := by
        rw [List.filter_eq_self]
        intro g hgm
        have h2 := (value_none gs2 .width).1 (by rw [v2 _ (by decide) (by decide)]; exact hw)
        simp only [decide_eq_true_eq]
        intro he
        exact h2 (List.mem_map.2 ⟨g, hgm, he⟩)
      rw [this]
      exact b4
  generalize hgs3 : gs2.filter (fun g => g.1 ≠ .width) = gs3 at x4
  have g3 : ∀ g ∈ gs3, IsGroup kind g.1 g.2 := fun g h => g2 g (by rw [← hgs3] at h; exact List.mem_of_mem_filter h)
  have n3 : (gs3.map (·.1)).Nodup := by rw [← hgs3, parts_filter]; exact n2.filter _
  have c3 : (gs3.map (·.1)).filter core =
      (((gs.map (·.1)).filter core).filter (fun q => q ≠ .slice)).filter (fun q => q ≠ .width) := by
    rw [← hgs3, parts_filter, core_filter, c2]
  have v3 : ∀ q, q ≠ .source → q ≠ .slice → q ≠ .width → value gs3 q = value gs q := by
    intro q h1 h2 h3
    rw [← hgs3, value_filter _ _ _ h3, v2 q h1 h2]
  obtain ⟨fe, le, e1, e2, e3, e4⟩ : ∃ f l', (if fc.isSome then readPart kind .outset none lc else idle lc) = ⟨f, [], l'⟩ ∧
      f ≠ some [] ∧ f.map valueText = value gs .outset ∧ Layout (gs3.filter (fun g => g.1 ≠ .outset)) l' := by
    by_cases hb : fc.isSome = true
    · rw [if_pos hb]
      have := stage kind .outset gs3 lc x4 g3 ⟨n3, fun _ => by
        rw [c3]
        rcases hcases with h | h | h | h <;> simp [h, solid]⟩
      rw [v3 _ (by decide) (by decide) (by decide)] at this
      exact this
    · rw [if_neg hb]
      have hnone : value gs .width = none := by
        rw [← x3]
        cases fc with
        | none => rfl
        | some x => exact absurd rfl hb
      rw [value_none, core_mem _ _ (by rfl)] at hnone
      have hno : Part.outset ∉ (gs.map (·.1)).filter core := by
        rcases hcases with h | h | h | h <;> rw [h] at hnone ⊢ <;> simp at hnone ⊢
      have hw : value gs .outset = none := by
        rw [value_none, core_mem _ _ (by rfl)]
        exact hno
      refine ⟨none, lc, rfl, by simp, hw.symm, ?_⟩
      have : gs3.filter (fun g => g.1 ≠ .outset) = gs3 := by
        rw [List.filter_eq_self]
        intro g hgm
        have h2 := (value_none gs3 .outset).1 (by rw [v3 _ (by decide) (by decide) (by decide)]; exact hw)
        simp only [decide_eq_true_eq]
        intro he
        exact h2 (List.mem_map.2 ⟨g, hgm, he⟩)
      rw [this]
      exact x4
  generalize hgs4 : gs3.filter (fun g => g.1 ≠ .outset) = gs4 at e4
  have g4 : ∀ g ∈ gs4, IsGroup kind g.1 g.2 := fun g h => g3 g (by rw [← hgs4] at h; exact List.mem_of_mem_filter h)
  have n4 : (gs4.map (·.1)).Nodup := by rw [← hgs4, parts_filter]; exact n3.filter _
  obtain ⟨ff, lf, f1, f2, f3, f4⟩ := stage kind .rep gs4 le e4 g4 ⟨n4, by simp [core]⟩
  obtain ⟨fg, lg, h1, h2, h3, h4⟩ := stage kind .mode _ lf f4 (fun g h => g4 g (List.mem_of_mem_filter h))
    ⟨by rw [parts_filter]; exact n4.filter _, by simp [core]⟩
  rw [value_filter _ _ _ (by decide)] at h3
  have v4 : ∀ q, q = .rep ∨ q = .mode → value gs4 q = value gs q := by
    rintro q (rfl | rfl) <;> rw [← hgs4, value_filter _ _ _ (by decide), v3 _ (by decide) (by decide) (by decide)]
  rw [v4 _ (Or.inr rfl)] at h3
  rw [v4 _ (Or.inl rfl)] at f3
  refine ⟨pick fa fb fc fe ff fg, fun p => ?_, ?_⟩
  · cases p
    exacts [a3, b3, x3, e3, f3, h3]
  · exact assemble kind l la lb lc le lf lg fa fb fc fe ff fg a1 b1 x1 e1 f1 h1 x2 e2

/-! ### Declarations -/

theorem get_found (f : Part → Option (List Tok)) (ps : List Part) (hps : ps.Nodup) (p : Part) (hp : p ∈ ps) :
    Dict.get? (texts (ps.flatMap fun q => found (name q) (f q))) (name p) = (f p).map valueText := by
  have hinj : ∀ a b, name a = name b → a = b := by
    intro a b; cases a <;> cases b <;> decide
  induction ps with
  | nil => simp at hp
  | cons q ps ih =>
    rw [List.nodup_cons] at hps
    have hskip : ∀ ps : List Part, p ∉ ps →
        Dict.get? (texts (ps.flatMap fun q => found (name q) (f q))) (name p) = none := by
      intro ps h
      rw [Dict.get?_eq_none_iff]
      intro hm
      simp only [texts, Dict.keys, List.map_map, List.mem_map, List.mem_flatMap] at hm
      obtain ⟨x, ⟨a, ha, hx⟩, he⟩ := hm
      unfold found at hx
      split at hx
      · simp at hx
      · rw [List.mem_singleton] at hx
        subst hx
        exact h (hinj _ _ he ▸ ha)
    rw [List.flatMap_cons]
    by_cases hq : q = p
    · subst hq
      cases hf : f q with
      | none => simpa [found, texts, hf] using hskip ps hps.1
      | some v => simp [found, texts, hf, Dict.get?]
    · have hne : name q ≠ name p := fun h => hq (hinj _ _ h)
      have hm := (List.mem_cons.1 hp).resolve_left (Ne.symm hq)
      rw [← ih hps.2 hm]
      cases hf : f q with
      | none => simp [found, texts, hf]
      | some v => simp [found, texts, hf, Dict.get?, hne]

theorem longhands_names : longhands = allParts.map name := rfl

theorem name_mem (p : Part) : name p ∈ longhands := by cases p <;> decide

theorem mem_name (n : Str) (h : n ∈ longhands) : ∃ p, n = name p := by
  rw [longhands_names] at h
  obtain ⟨p, -, rfl⟩ := List.mem_map.1 h
  exact ⟨p, rfl⟩

theorem get_map_const (v : Str) (ls : List Str) (n : Str) :
    Dict.get? (ls.map fun n => (n, v)) n = if n ∈ ls then some v else none := by
  induction ls with
  | nil => rfl
  | cons a ls ih =>
    rw [List.map_cons, Dict.get?, ih]
    by_cases h : a = n
    · simp [h]
    · simp [h, Ne.symm h]

theorem get_fill (v : Str) (m : List (Str × Str)) (n : Str) (h : n ∈ longhands) :
    Dict.get? (fillWith v m) n = some ((Dict.get? m n).getD v) := by
  unfold fillWith
  rw [Dict.get?_append, get_map_const]
  cases hm : Dict.get? m n with
  | some x => rfl
  | none =>
    have : Dict.contains m n = false := by
      by_contra hc
      rw [Bool.not_eq_false, Dict.contains_iff] at hc
      exact (Dict.get?_eq_none_iff m n).1 hm hc
    simp [h, this]

theorem keys_fill (v : Str) (m : List (Str × Str)) :
    Dict.keys (fillWith v m) = Dict.keys m ++ longhands.filter (fun n => n ∉ Dict.keys m) := by
  unfold fillWith Dict.keys
  rw [List.map_append, List.map_map]
  congr 1
  have : (Prod.fst ∘ fun n => (n, v)) = (id : Str → Str) := rfl
  rw [this, List.map_id]
  apply List.filter_congr
  intro n hn
  have := Dict.contains_iff m n
  by_cases h : n ∈ Dict.keys m
  · rw [this.2 h]; simpa [Dict.keys] using h
  · have h2 : Dict.contains m n = false := by
      by_contra hc
      exact h (this.1 (by simpa using hc))
    rw [h2]; simpa [Dict.keys] using h

theorem nodup_fill (v : Str) (m : List (Str × Str)) (h : (Dict.keys m).Nodup) : (Dict.keys (fillWith v m)).Nodup := by
  rw [keys_fill]
  refine List.Nodup.append h ((by decide : longhands.Nodup).filter _) ?_
  intro x h1 h2
  simpa [h1] using (List.mem_filter.1 h2).2

theorem mem_fill (v : Str) (m : List (Str × Str)) (h : ∀ n ∈ Dict.keys m, n ∈ longhands) (n : Str) :
    n ∈ Dict.keys (fillWith v m) ↔ n ∈ longhands := by
  rw [keys_fill, List.mem_append, List.mem_filter]
  constructor
  · rintro (h1 | h1)
    exacts [h n h1, h1.1]
  · intro h1
    by_cases h2 : n ∈ Dict.keys m
    · exact Or.inl h2
    · exact Or.inr ⟨h1, by simpa using h2⟩

theorem keys_found (f : Part → Option (List Tok)) (ps : List Part) :
    Dict.keys (texts (ps.flatMap fun q => found (name q) (f q))) = (ps.filter (fun q => (f q).isSome)).map name := by
  induction ps with
  | nil => rfl
  | cons q ps ih =>
    rw [List.flatMap_cons]
    cases hf : f q with
    | none => simpa [found, hf, List.filter_cons] using ih
    | some v =>
      rw [List.filter_cons_of_pos (by simp [hf]), List.map_cons, ← ih]
      rfl

/-- The declarations that are added. -/
def Adds (m : List (Str × Str)) : Prop := (Dict.keys m).Nodup ∧ ∀ n, n ∈ Dict.keys m ↔ n ∈ longhands

theorem bounds (k : Nat) (idx : List Nat) (hne : idx ≠ []) (h : ∀ x ∈ idx, k ≤ x) :
    k ≤ idx.foldl max 0 ∧ k ≤ idx.foldl min (idx.foldl max 0) := by
  have hmax : ∀ (l : List Nat) (a : Nat), (k ≤ a ∨ ∃ x ∈ l, k ≤ x) → k ≤ l.foldl max a := by
    intro l
    induction l with
    | nil => intro a ha; simpa using ha
    | cons x l ih =>
      intro a ha
      apply ih
      rcases ha with ha | ⟨y, hy, hk⟩
      · exact Or.inl (le_trans ha (Nat.le_max_left _ _))
      · rcases List.mem_cons.1 hy with rfl | hy
        · exact Or.inl (le_trans hk (Nat.le_max_right _ _))
        · exact Or.inr ⟨y, hy, hk⟩
  have hmin : ∀ (l : List Nat) (a : Nat), (∀ x ∈ l, k ≤ x) → k ≤ a → k ≤ l.foldl min a := by
    intro l
    induction l with
    | nil => intro a _ ha; exact ha
    | cons x l ih =>
      intro a hl ha
      exact ih _ (fun y hy => hl y (List.mem_cons_of_mem _ hy)) (Nat.le_min.2 ⟨ha, hl x List.mem_cons_self⟩)
  have h1 : k ≤ idx.foldl max 0 := by
    apply hmax
    cases idx with
    | nil => exact absurd rfl hne
    | cons x l => exact Or.inr ⟨x, List.mem_cons_self, h x List.mem_cons_self⟩
  exact ⟨h1, hmin idx _ h h1⟩

theorem adds_order (d : Decls) (hd : (Dict.keys d).Nodup) (p : Str) (m : List (Str × Str)) (hm : Adds m) :
    inOrder (setAll d p m) = true := by
  have hk := FontShorthand.keys_setAll d hd p m hm.1
  generalize hA : (Dict.keys d).filter (fun k => k ∉ Dict.keys m) = A at hk
  have hAm : ∀ n ∈ longhands, n ∉ A := by
    intro n hn h
    rw [← hA, List.mem_filter] at h
    simpa [(hm.2 n).2 hn] using h.2
  have hidx : ∀ n ∈ longhands, A.length ≤ (Dict.keys (setAll d p m)).idxOf n := by
    intro n hn
    rw [hk, List.idxOf_append_of_notMem (hAm n hn)]
    omega
  unfold inOrder
  simp only [Bool.and_eq_true, List.all_eq_true]
  constructor
  · intro n hn
    rw [hk]
    simp [(hm.2 n).2 hn]
  · intro n hn
    by_cases hc : n ∈ Dict.keys (setAll d p m)
    · have hnl : n ∉ longhands := by
        revert hn
        simp only [maskLonghands, List.mem_cons, List.not_mem_nil, or_false]
        rintro (rfl | rfl | rfl | rfl | rfl | rfl | rfl | rfl) <;> decide
      have hnA : n ∈ A := by
        rw [hk, List.mem_append] at hc
        exact hc.resolve_right (fun h => hnl ((hm.2 n).1 h))
      have hlt : (Dict.keys (setAll d p m)).idxOf n < A.length := by
        rw [hk, List.idxOf_append_of_mem hnA]
        exact List.idxOf_lt_length_iff.2 hnA
      obtain ⟨hmax, hmin⟩ := bounds A.length (longhands.map fun n => (Dict.keys (setAll d p m)).idxOf n)
        (by rw [longhands_names]; exact List.cons_ne_nil _ _)
        (fun x hx => by obtain ⟨n, hn, rfl⟩ := List.mem_map.1 hx; exact hidx n hn)
      generalize hI : (longhands.map fun n => (Dict.keys (setAll d p m)).idxOf n) = idx at hmax hmin
      generalize idx.foldl max 0 = hi at hmax hmin
      generalize idx.foldl min hi = lo at hmin
      have e1 : ¬ lo < (Dict.keys (setAll d p m)).idxOf n := by omega
      have e2 : ¬ hi < (Dict.keys (setAll d p m)).idxOf n := by omega
      simp [e1, e2]
    · simp [hc]

/-! ### The theorems -/

/-- The value of a longhand. -/
def val (gs : List (Part × List Tok)) (q : Part) : Str := (value gs q).getD "initial".toList

theorem set_full (kind : Str → Kind) (d : Decls) (hd : (Dict.keys d).Nodup) (gs : List (Part × List Tok))
    (hg : Good kind gs) (l : List Tok) (hl : Layout gs l) (pr : Str) :
    ∃ d', borderSet kind d l pr = some d' ∧ (∀ q, Dict.get? d' (name q) = some (val gs q, pr)) ∧
      (∀ n, (∀ q, n ≠ name q) → Dict.get? d' n = Dict.get? d n) ∧ inOrder d' = true := by
  obtain ⟨f, hf, hp⟩ := parse_spec kind gs hg l hl
  generalize hm : texts (allParts.flatMap fun p => found (name p) (f p)) = m
  have hk : Dict.keys m = (allParts.filter (fun q => (f q).isSome)).map name := by rw [← hm, keys_found]
  have hnames : (allParts.map name).Nodup := by decide
  have hkn : (Dict.keys m).Nodup := by
    rw [hk]
    exact hnames.sublist (List.filter_sublist.map _)
  have hsub : ∀ n ∈ Dict.keys m, n ∈ longhands := by
    intro n hn
    rw [hk] at hn
    obtain ⟨q, -, rfl⟩ := List.mem_map.1 hn
    exact name_mem q
  have hadds : Adds (fillWith "initial".toList m) := ⟨nodup_fill _ _ hkn, mem_fill _ _ hsub⟩
  have hset : borderSet kind d l pr = some (setAll d pr (fillWith "initial".toList m)) := by
    unfold borderSet
    rw [hp, ← hm]
    rfl
  refine ⟨_, hset, ?_, ?_, adds_order d hd pr _ hadds⟩
  · intro q
    rw [FontShorthand.get_setAll d hd pr _ hadds.1, get_fill _ _ _ (name_mem q), ← hm,
      get_found f allParts (by decide) q (by cases q <;> decide), hf q]
    rfl
  · intro n hn
    rw [FontShorthand.get_setAll d hd pr _ hadds.1]
    have : Dict.get? (fillWith "initial".toList m) n = none := by
      rw [Dict.get?_eq_none_iff, hadds.2]
      intro h
      obtain ⟨q, rfl⟩ := mem_name n h
      exact hn q rfl
    rw [this]

/-- **C115** (setting).  A value that gives the parts in any order, each at most once, widths behind a solidus after the
slices and outsets behind a solidus after the widths, gives each longhand its part and `initial` to the others; other
declarations stay. -/
theorem set_spec (kind : Str → Kind) (d : Decls) (hd : (Dict.keys d).Nodup) (gs : List (Part × List Tok))
    (hg : Good kind gs) (l : List Tok) (hl : Layout gs l) (pr : Str) :
    ∃ d', borderSet kind d l pr = some d' ∧
      (∀ q, Dict.get? d' (name q) = some ((value gs q).getD "initial".toList, pr)) ∧
      ∀ n, (∀ q, n ≠ name q) → Dict.get? d' n = Dict.get? d n := by
  obtain ⟨d', h1, h2, h3, -⟩ := set_full kind d hd gs hg l hl pr
  exact ⟨d', h1, h2, h3⟩

theorem sentence_not_wide (g : List Tok) (hne : g ≠ []) (h : ∀ t ∈ g, Ordinary t) : sentence g ∉ wideKeywords := by
  cases g with
  | nil => exact absurd rfl hne
  | cons t g =>
    cases g with
    | nil => exact (h t List.mem_cons_self).notWideText
    | cons u g =>
      have hsp : ' ' ∈ sentence (t :: u :: g) := by
        show ' ' ∈ t.text ++ ' ' :: sentence (u :: g)
        simp
      have hno : ∀ k ∈ wideKeywords, ' ' ∉ k := by decide
      exact fun hm => hno _ hm hsp

theorem value_facts (kind : Str → Kind) (gs : List (Part × List Tok)) (hg : ∀ g ∈ gs, IsGroup kind g.1 g.2) (q : Part)
    (v : Str) (h : value gs q = some v) : v ≠ [] ∧ v ∉ wideKeywords := by
  unfold value at h
  rw [Option.map_eq_some_iff] at h
  obtain ⟨g, hf, rfl⟩ := h
  obtain ⟨hne, hw⟩ := group_words kind _ _ (hg g (List.mem_of_find?_eq_some hf))
  have ho : ∀ t ∈ g.2, Ordinary t := fun t ht => word_ordinary kind _ t (hw t ht)
  exact ⟨(sentence_ends g.2 hne ho).1, sentence_not_wide g.2 hne ho⟩

theorem collect_all (supports : Str → Str → Bool) (d : Decls) (ps : List Part) (v : Part → Str) (pr : Str)
    (h : ∀ q, Dict.get? d (name q) = some (v q, pr)) (hs : ∀ q, v q ≠ [] ∧ supports (name q) (v q) = true) :
    Shorthand.collect supports d (ps.map name) = some (ps.map fun q => (name q, (v q, pr))) := by
  induction ps with
  | nil => rfl
  | cons q ps ih =>
    rw [List.map_cons, Shorthand.collect, h q]
    simp only
    rw [if_neg (by simp [(hs q).1, (hs q).2]), ih]
    rfl

theorem get_names (v : Part → Str) (q : Part) : Dict.get? (allParts.map fun q => (name q, v q)) (name q) = some (v q) := by
  have hinj : ∀ a b, name a = name b → a = b := by
    intro a b; cases a <;> cases b <;> decide
  have : ∀ ps : List Part, q ∈ ps → Dict.get? (ps.map fun q => (name q, v q)) (name q) = some (v q) := by
    intro ps
    induction ps with
    | nil => intro h; simp at h
    | cons p ps ih =>
      intro h
      rw [List.map_cons, Dict.get?]
      by_cases hp : name p = name q
      · rw [if_pos hp, hinj _ _ hp]
      · rw [if_neg hp]
        exact ih ((List.mem_cons.1 h).resolve_left (fun he => hp (by rw [he])))
  exact this _ (by cases q <;> decide)

/-- How the longhands are written. -/
def render (v : Part → Str) : Str :=
  if ([v .source, v .slice, v .width, v .outset, v .rep, v .mode].all fun x => wideKeywords.contains x) &&
      ([v .source, v .slice, v .width, v .outset, v .rep, v .mode].all fun x => x == v .source) then v .source
  else if [v .source, v .slice, v .width, v .outset, v .rep, v .mode].any
      fun x => wideKeywords.contains x && x != "initial".toList then []
  else if (v .slice = "initial".toList ∧ v .width ≠ "initial".toList) ∨
      ((v .slice = "initial".toList ∨ v .width = "initial".toList) ∧ v .outset ≠ "initial".toList) then []
  else join [' '] (written false (v .source) ++ written false (v .slice) ++ written true (v .width) ++
    written true (v .outset) ++ written false (v .rep) ++ written false (v .mode))

theorem get_full (supports : Str → Str → Bool) (d : Decls) (v : Part → Str) (pr : Str)
    (h : ∀ q, Dict.get? d (name q) = some (v q, pr)) (hs : ∀ q, v q ≠ [] ∧ supports (name q) (v q) = true)
    (ho : inOrder d = true) : borderGet supports d = render v := by
  unfold borderGet Shorthand.getValue
  rw [longhands_names, collect_all supports d allParts v pr h hs]
  have ha : agree ((allParts.map fun q => (name q, (v q, pr))).map fun x => x.2.2) = true := by
    simp [allParts, agree]
  simp only [ha, if_true]
  have hm : ((allParts.map fun q => (name q, (v q, pr))).map fun x => (x.1, x.2.1)) =
      allParts.map fun q => (name q, v q) := by
    rw [List.map_map]; rfl
  rw [hm]
  unfold borderToString
  rw [ho, longhands_names]
  have hl : (allParts.map name).map (Dict.get? (allParts.map fun q => (name q, v q))) =
      [some (v .source), some (v .slice), some (v .width), some (v .outset), some (v .rep), some (v .mode)] := by
    rw [List.map_map]
    have : (Dict.get? (allParts.map fun q => (name q, v q))) ∘ name = fun q => some (v q) := by
      funext q
      exact get_names v q
    rw [this]
    rfl
  rw [hl]
  rfl

theorem text_parts (gs : List (Part × List Tok)) (hw : ∀ q v, value gs q = some v → v ∉ wideKeywords) :
    join [' '] (written false (val gs .source) ++ written false (val gs .slice) ++ written true (val gs .width) ++
      written true (val gs .outset) ++ written false (val gs .rep) ++ written false (val gs .mode)) = text gs := by
  have key : ∀ q, written (solid q) (val gs q) = (match value gs q with
      | none => []
      | some v => if solid q then [['/'], v] else [v]) := by
    intro q
    unfold val
    cases hv : value gs q with
    | none => simp [written]
    | some v =>
      have : v ≠ "initial".toList := fun he => hw q v hv (by rw [he]; decide)
      simp only [Option.getD_some, written, if_neg this]
  unfold text
  have hflat : ∀ f : Part → List Str,
      allParts.flatMap f = f .source ++ f .slice ++ f .width ++ f .outset ++ f .rep ++ f .mode := by
    intro f
    simp [allParts, List.flatMap_cons]
  rw [hflat, ← key, ← key, ← key, ← key, ← key, ← key]
  rfl

theorem render_spec (kind : Str → Kind) (gs : List (Part × List Tok)) (hg : Good kind gs) (hne : gs ≠ []) :
    render (val gs) = text gs := by
  have hw : ∀ q v, value gs q = some v → v ∉ wideKeywords := fun q v h => (value_facts kind gs hg.groups q v h).2
  have hval : ∀ q, val gs q = "initial".toList ∨ val gs q ∉ wideKeywords := by
    intro q
    unfold val
    cases hv : value gs q with
    | none => exact Or.inl rfl
    | some v => exact Or.inr (hw q v hv)
  have hini : ∀ q, val gs q = "initial".toList ↔ q ∉ gs.map (·.1) := by
    intro q
    rw [← value_none]
    unfold val
    cases hv : value gs q with
    | none => simp
    | some v =>
      simp only [Option.getD_some, reduceCtorEq, iff_false]
      exact fun he => hw q v hv (by rw [he]; decide)
  unfold render
  rw [if_neg, if_neg, if_neg, text_parts gs hw]
  · rw [hini, hini, ne_eq, ne_eq, hini, hini, core_mem _ Part.slice rfl, core_mem _ Part.width rfl, core_mem _ Part.outset rfl]
    rcases order_cases _ hg.order with h | h | h | h <;> rw [h] <;> decide
  · rw [Bool.not_eq_true, List.any_eq_false]
    intro x hx
    have : ∃ q, x = val gs q := by
      simp only [List.mem_cons, List.not_mem_nil, or_false] at hx
      rcases hx with rfl | rfl | rfl | rfl | rfl | rfl <;> exact ⟨_, rfl⟩
    obtain ⟨q, rfl⟩ := this
    rcases hval q with h | h
    · rw [h]; decide
    · simp [h]
  · intro h
    obtain ⟨g, hgm⟩ := List.exists_mem_of_ne_nil gs hne
    have h1 : val gs g.1 ∉ wideKeywords := by
      rcases hval g.1 with h2 | h2
      · exact absurd (List.mem_map.2 ⟨g, hgm, rfl⟩) ((hini g.1).1 h2)
      · exact h2
    simp only [Bool.and_eq_true, List.all_eq_true] at h
    have := h.1 (val gs g.1) (by cases g.1 <;> simp)
    exact h1 (by simpa using this)

/-- **C115** (reading).  What was set is read as one text: the parts that were given in the order source, slices, widths and
outsets behind solidi, repetition, mode. -/
theorem get_spec (kind : Str → Kind) (supports : Str → Str → Bool) (d : Decls) (hd : (Dict.keys d).Nodup)
    (gs : List (Part × List Tok)) (hg : Good kind gs) (hne : gs ≠ []) (l : List Tok) (hl : Layout gs l) (pr : Str)
    (hs : ∀ q, supports (name q) ((value gs q).getD "initial".toList) = true) :
    ∃ d', borderSet kind d l pr = some d' ∧ borderGet supports d' = text gs := by
  obtain ⟨d', h1, h2, -, h4⟩ := set_full kind d hd gs hg l hl pr
  refine ⟨d', h1, ?_⟩
  rw [get_full supports d' (val gs) pr h2 (fun q => ⟨?_, hs q⟩) h4, render_spec kind gs hg hne]
  unfold val
  cases hv : value gs q with
  | none => decide
  | some v => exact (value_facts kind gs hg.groups q v hv).1

/-! ### Setting what was read -/

theorem layout_tokens (gs : List (Part × List Tok)) : Layout gs (tokens gs) := by
  have hsp : Spaces [.ws [' ']] := by
    intro t ht
    rw [List.mem_singleton] at ht
    exact ⟨_, ht, by decide⟩
  have hnil : Spaces [] := by intro t ht; simp at ht
  induction gs with
  | nil => exact .nil [] hnil
  | cons x gs ih =>
    obtain ⟨p, g⟩ := x
    cases gs with
    | nil => simpa [tokens] using Layout.cons p g [] [] [.ws [' ']] [] hnil hsp (.nil [] hnil)
    | cons y gs =>
      have := Layout.cons p g (y :: gs) [] [.ws [' ']] _ hnil hsp (layout_spaces _ _ _ ih hsp)
      simpa [tokens] using this

theorem text_lead (p : Part) (s : Str) : (lead p [.ws [' ']]).flatMap Tok.text ++ s =
    if solid p then '/' :: ' ' :: s else s := by
  unfold lead
  split <;> simp [Tok.text]

theorem text_tokens (gs : List (Part × List Tok)) :
    (tokens gs).flatMap Tok.text =
      join [' '] (gs.flatMap fun g => if solid g.1 then [['/'], sentence g.2] else [sentence g.2]) := by
  induction gs with
  | nil => rfl
  | cons x gs ih =>
    obtain ⟨p, g⟩ := x
    cases gs with
    | nil =>
      simp only [tokens, List.flatMap_append, text_spaced, text_lead, List.flatMap_cons, List.flatMap_nil, List.append_nil]
      split <;> simp [join]
    | cons y gs =>
      have he : tokens ((p, g) :: y :: gs) = lead p [.ws [' ']] ++ (spaced g ++ .ws [' '] :: tokens (y :: gs)) := rfl
      have hj : ∀ (a : Str) (b : List Str), b ≠ [] → join [' '] (a :: b) = a ++ ' ' :: join [' '] b := by
        intro a b hb
        cases b with
        | nil => exact absurd rfl hb
        | cons c b => simp [join]
      have hne : ((y :: gs).flatMap fun g => if solid g.1 then [['/'], sentence g.2] else [sentence g.2]) ≠ [] := by
        rw [List.flatMap_cons]
        split <;> simp
      rw [he, List.flatMap_append, text_lead, List.flatMap_append, text_spaced, List.flatMap_cons (x := Tok.ws [' ']), ih,
        List.flatMap_cons (x := (p, g))]
      split
      · rw [List.cons_append, List.cons_append, List.nil_append, hj _ _ (by simp), hj _ _ hne]
        simp [Tok.text]
      · rw [List.cons_append, List.nil_append, hj _ _ hne]
        simp [Tok.text]

theorem find_part (gs : List (Part × List Tok)) (p : Part) (x : Part × List Tok)
    (h : gs.find? (fun g => g.1 = p) = some x) : x.1 = p := by
  simpa using List.find?_some h

theorem inLine_text (gs : List (Part × List Tok)) : (tokens (inLine gs)).flatMap Tok.text = text gs := by
  rw [text_tokens, text, inLine]
  congr 1
  generalize allParts = ps
  induction ps with
  | nil => rfl
  | cons p ps ih =>
    rw [List.flatMap_cons, ← ih]
    cases hf : gs.find? (fun g => g.1 = p) with
    | none =>
      rw [List.filterMap_cons_none (by simpa using hf)]
      have : value gs p = none := by unfold value; rw [hf]; rfl
      simp [this]
    | some x =>
      have hx := find_part gs p x hf
      rw [List.filterMap_cons_some (f := fun p => gs.find? (fun g => g.1 = p)) hf, List.flatMap_cons]
      have : value gs p = some (sentence x.2) := by unfold value; rw [hf]; rfl
      simp [this, hx]

theorem inLine_parts (gs : List (Part × List Tok)) :
    (inLine gs).map (·.1) = allParts.filter (fun p => p ∈ gs.map (·.1)) := by
  unfold inLine
  generalize allParts = ps
  induction ps with
  | nil => rfl
  | cons p ps ih =>
    cases hf : gs.find? (fun g => g.1 = p) with
    | none =>
      have : p ∉ gs.map (·.1) := (value_none gs p).1 (by unfold value; rw [hf]; rfl)
      rw [List.filterMap_cons_none (by simpa using hf), List.filter_cons_of_neg (by simpa using this), ih]
    | some x =>
      have : p ∈ gs.map (·.1) := List.mem_map.2 ⟨x, List.mem_of_find?_eq_some hf, find_part gs p x hf⟩
      rw [List.filterMap_cons_some (f := fun p => gs.find? (fun g => g.1 = p)) hf, List.filter_cons_of_pos (by simpa using this), List.map_cons, ih, find_part gs p x hf]

theorem inLine_value (gs : List (Part × List Tok)) (q : Part) : value (inLine gs) q = value gs q := by
  have : ∀ ps : List Part, q ∈ ps →
      (ps.filterMap fun p => gs.find? (fun g => g.1 = p)).find? (fun g => g.1 = q) = gs.find? (fun g => g.1 = q) := by
    intro ps
    induction ps with
    | nil => intro h; simp at h
    | cons p ps ih =>
      intro h
      cases hf : gs.find? (fun g => g.1 = p) with
      | none =>
        rw [List.filterMap_cons_none (by simpa using hf)]
        by_cases hq : q ∈ ps
        · exact ih hq
        · have hpq := (List.mem_cons.1 h).resolve_right hq
          subst hpq
          rw [hf, List.find?_eq_none]
          intro x hx
          obtain ⟨p, hp, hfx⟩ := List.mem_filterMap.1 hx
          have := find_part gs p x hfx
          simp only [decide_eq_true_eq]
          intro he
          exact hq (by rw [← he, this]; exact hp)
      | some x =>
        have hx := find_part gs p x hf
        rw [List.filterMap_cons_some (f := fun p => gs.find? (fun g => g.1 = p)) hf]
        by_cases hpq : p = q
        · subst hpq
          rw [List.find?_cons_of_pos (by simpa using hx), hf]
        · rw [List.find?_cons_of_neg (by simpa [hx] using hpq)]
          exact ih ((List.mem_cons.1 h).resolve_left (Ne.symm hpq))
  unfold value inLine
  rw [this allParts (by cases q <;> decide)]

theorem inLine_good (kind : Str → Kind) (gs : List (Part × List Tok)) (hg : Good kind gs) : Good kind (inLine gs) := by
  refine ⟨?_, ?_, ?_⟩
  · rw [inLine_parts]
    exact (by decide : allParts.Nodup).filter _
  · rw [inLine_parts, List.filter_filter]
    have e : (allParts.filter fun p => core p && decide (p ∈ gs.map (·.1))) =
        [Part.slice, .width, .outset].filter (fun p => p ∈ (gs.map (·.1)).filter core) := by
      have e2 : ∀ p, core p = true → (decide (p ∈ gs.map (·.1))) = decide (p ∈ (gs.map (·.1)).filter core) := by
        intro p hp
        rw [decide_eq_decide]
        exact core_mem _ p hp
      have e3 : [Part.slice, .width, .outset] = allParts.filter core := by decide
      rw [e3, List.filter_filter]
      apply List.filter_congr
      intro p _
      by_cases hp : core p = true
      · rw [e2 p hp, Bool.and_comm]
      · simp [hp]
    rw [e]
    rcases order_cases _ hg.order with h | h | h | h <;> rw [h] <;> decide
  · intro g h
    obtain ⟨p, -, hf⟩ := List.mem_filterMap.1 h
    exact hg.groups g (List.mem_of_find?_eq_some hf)

/-- **C115** (round trip).  Setting the text that was read gives every longhand its value again, in any block. -/
theorem round_trip (kind : Str → Kind) (supports : Str → Str → Bool) (d : Decls) (hd : (Dict.keys d).Nodup)
    (gs : List (Part × List Tok)) (hg : Good kind gs) (hne : gs ≠ []) (l : List Tok) (hl : Layout gs l) (pr : Str)
    (hs : ∀ q, supports (name q) ((value gs q).getD "initial".toList) = true)
    (d2 : Decls) (hd2 : (Dict.keys d2).Nodup) (pr2 : Str) :
    ∃ d' d3 l2, borderSet kind d l pr = some d' ∧ l2.flatMap Tok.text = borderGet supports d' ∧
      borderSet kind d2 l2 pr2 = some d3 ∧
      ∀ q, (Dict.get? d3 (name q)).map Prod.fst = (Dict.get? d' (name q)).map Prod.fst ∧
        (Dict.get? d3 (name q)).isSome = true := by
  obtain ⟨d', h1, h2, -, h4⟩ := set_full kind d hd gs hg l hl pr
  obtain ⟨d'', h1', h5⟩ := get_spec kind supports d hd gs hg hne l hl pr hs
  rw [h1, Option.some.injEq] at h1'
  subst h1'
  obtain ⟨d3, k1, k2, -⟩ := set_full kind d2 hd2 (inLine gs) (inLine_good kind gs hg) _ (layout_tokens _) pr2
  refine ⟨d', d3, tokens (inLine gs), h1, by rw [h5, inLine_text], k1, fun q => ?_⟩
  rw [h2, k2]
  unfold val
  rw [inLine_value]
  exact ⟨rfl, rfl⟩

theorem idle_nil (kind : Str → Kind) (l : List Tok) (ks : List Str)
    (h : parseList (sourceDesc kind) none l = ⟨none, ks, []⟩) : parseBorder kind l = ([], ks) := by
  unfold parseBorder
  simp only [h]
  simp [parseSlice, parseList, idle, nonEmpty, found]

theorem wide_mem (k : Str) (h : Wide k) : k ∈ wideKeywords ∧ k ≠ [] := by
  cases h <;> exact ⟨by decide, by decide⟩

theorem wide_step (d : Desc) (t k : Str) (hk : Wide k) (tg : Option (List Tok)) (l : List Tok) :
    parseList d tg (.ident t k :: l) = (parseList d tg l).wide k := by
  have : wideOf (.ident t k) = some k := if_pos (wide_mem k hk).1
  rw [parseList]
  · simp only [this]
  · simp

/-- **C115** (CSS-wide keywords).  A CSS-wide keyword in any letter case is given to all longhands and is read back. -/
theorem wide_spec (kind : Str → Kind) (supports : Str → Str → Bool) (d : Decls) (hd : (Dict.keys d).Nodup) (t k pr : Str)
    (hk : Wide k) (hs : ∀ q, supports (name q) k = true) :
    ∃ d', borderSet kind d [.ident t k] pr = some d' ∧ (∀ q, Dict.get? d' (name q) = some (k, pr)) ∧
      (∀ n, (∀ q, n ≠ name q) → Dict.get? d' n = Dict.get? d n) ∧ borderGet supports d' = k := by
  have hp : parseBorder kind [.ident t k] = ([], [k]) := by
    apply idle_nil kind
    rw [wide_step _ _ _ hk]
    rfl
  have hadds : Adds (fillWith k []) := ⟨nodup_fill _ _ (by simp [Dict.keys]), mem_fill _ _ (by simp [Dict.keys])⟩
  have hset : borderSet kind d [.ident t k] pr = some (setAll d pr (fillWith k [])) := by
    unfold borderSet
    rw [hp]
    rfl
  have hget : ∀ q, Dict.get? (setAll d pr (fillWith k [])) (name q) = some (k, pr) := by
    intro q
    rw [FontShorthand.get_setAll d hd pr _ hadds.1, get_fill _ _ _ (name_mem q)]
    rfl
  refine ⟨_, hset, hget, ?_, ?_⟩
  · intro n hn
    rw [FontShorthand.get_setAll d hd pr _ hadds.1]
    have : Dict.get? (fillWith k []) n = none := by
      rw [Dict.get?_eq_none_iff, hadds.2]
      intro h
      obtain ⟨q, rfl⟩ := mem_name n h
      exact hn q rfl
    rw [this]
  · rw [get_full supports _ (fun _ => k) pr hget (fun q => ⟨(wide_mem k hk).2, hs q⟩) (adds_order d hd pr _ hadds)]
    unfold render
    have := (wide_mem k hk).1
    simp [this]

/-- **C115** (invalid values).  Two CSS-wide keywords are refused. -/
theorem two_wides (kind : Str → Kind) (d : Decls) (t k s t' k' pr : Str) (hk : Wide k) (hk' : Wide k') :
    borderSet kind d [.ident t k, .ws s, .ident t' k'] pr = none := by
  have hp : (parseBorder kind [.ident t k, .ws s, .ident t' k']).2.length > 1 := by
    have : parseList (sourceDesc kind) none [.ident t k, .ws s, .ident t' k'] = ⟨none, [k, k'], [.ws s]⟩ := by
      rw [wide_step _ _ _ hk, FontShorthand.pl_ws, if_neg (by simp), wide_step _ _ _ hk']
      rfl
    unfold parseBorder
    simp only [this]
    simp
  unfold borderSet
  rw [if_pos hp]

theorem wide_slice (d : Desc) (t k : Str) (hk : Wide k) (tg : Option (List Tok)) (l : List Tok) :
    parseSlice d tg (.ident t k :: l) = (parseSlice d tg l).wide k := by
  have : wideOf (.ident t k) = some k := if_pos (wide_mem k hk).1
  rw [parseSlice]
  · simp only [this]
  · simp

/-- **C115** (invalid values).  They are also refused behind a source and a slice. -/
theorem two_wides_after (kind : Str → Kind) (d : Decls) (x y : Tok) (hx : IsWord kind .source x)
    (hy : IsWord kind .slice y) (t k t' k' pr : Str) (hk : Wide k) (hk' : Wide k') :
    borderSet kind d [x, .ws [' '], y, .ws [' '], .ident t k, .ws [' '], .ident t' k'] pr = none := by
  have ox := word_ordinary kind _ x (Or.inl hx)
  have oy := word_ordinary kind _ y (Or.inl hy)
  have a : parseList (sourceDesc kind) none [x, .ws [' '], y, .ws [' '], .ident t k, .ws [' '], .ident t' k'] =
      ⟨some [x, .ws [' ']], [], [y, .ws [' '], .ident t k, .ws [' '], .ident t' k']⟩ := by
    have h1 := r_first kind .source x [.ws [' '], y, .ws [' '], .ident t k, .ws [' '], .ident t' k'] ox
      (support_own kind _ x (Or.inl hx)) rfl (by simp)
    rw [r_ws, if_pos (by simp)] at h1
    simp only [Option.getD_some, List.cons_append, List.nil_append] at h1
    rw [r_stop kind .source _ y _ (Or.inr ⟨oy, support_other kind _ _ y (Or.inl hy) (by decide) (Or.inl rfl)⟩)] at h1
    exact h1
  have b : (parseSlice (sliceDesc kind) none [y, .ws [' '], .ident t k, .ws [' '], .ident t' k']).wides = [k, k'] := by
    have hi : isIdent y = false := by obtain ⟨s, rfl, -⟩ := hy; rfl
    have h1 := r_first kind .slice y [.ws [' '], .ident t k, .ws [' '], .ident t' k'] oy
      (support_own kind _ y (Or.inl hy)) rfl (fun _ => hi)
    simp only [readPart] at h1
    rw [h1, sl_ws, if_pos (by simp), wide_slice _ _ _ hk, sl_ws, if_pos (by simp), wide_slice _ _ _ hk', parseSlice]
    rfl
  have hp : (parseBorder kind [x, .ws [' '], y, .ws [' '], .ident t k, .ws [' '], .ident t' k']).2.length > 1 := by
    unfold parseBorder
    simp only [a, b]
    simp
  unfold borderSet
  rw [if_pos hp]

/-! ### What the code does not do -/

/-- An example of tokens. -/
def exKind (s : Str) : Kind :=
  if s.getLast? = some '%' then .percentage
  else if s.all Char.isDigit then .number
  else if s.take 4 = "url(".toList then .image
  else if s.drop (s.length - 2) = "px".toList then .length
  else .another

def num (s : String) : Tok := .other s.toList

/-- **C115** is violated for unknown words: the declaration should be ignored, but sets all the longhands. -/
theorem unknown_violated : borderSet exKind [] [kw "foo"] [] =
    some (allParts.map fun q => (name q, ("initial".toList, []))) := by decide +kernel

/-- **C115** is violated for commas, which are no part of the syntax. -/
theorem comma_violated : (borderSet exKind [] [num "10", .lit [','], .ws [' '], num "20"] []).map
    (fun d => Dict.get? d (name .slice)) = some (some ("10, 20".toList, [])) := by decide +kernel

/-- **C115** is violated for values without widths: the outsets of `10//2` are lost; for `10 / / 2` an empty text is declared
for the widths, and the shorthand cannot be read. -/
theorem no_width_violated :
    (borderSet exKind [] [num "10", .lit ['/'], .lit ['/'], num "2"] []).map
      (fun d => (Dict.get? d (name .width), Dict.get? d (name .outset))) =
        some (some ("initial".toList, []), some ("initial".toList, [])) ∧
    (borderSet exKind [] [num "10", .ws [' '], .lit ['/'], .ws [' '], .lit ['/'], .ws [' '], num "2"] []).map
      (fun d => (Dict.get? d (name .width), borderGet (fun _ _ => true) d)) = some (some ([], []), []) :=
  ⟨by decide +kernel, by decide +kernel⟩

/-- **C115** is violated for `fill` before the slices: `fill 10` has no numbers. -/
theorem fill_first_violated : (borderSet exKind [] [kw "fill", .ws [' '], num "10"] []).map
    (fun d => Dict.get? d (name .slice)) = some (some ("fill".toList, [])) := by decide +kernel

/-- **C115** is violated for a CSS-wide keyword among other words, which is invalid: `inherit 10` is taken as `inherit`. -/
theorem wide_mixed_violated : borderSet exKind [] [kw "inherit", .ws [' '], num "10"] [] =
    some (allParts.map fun q => (name q, ("inherit".toList, []))) := by decide +kernel

/-- **C115** is violated after a longhand of `mask` was declared: all longhands are there, and the shorthand is empty. -/
theorem mask_after_violated :
    (borderSet exKind [] [num "10"] []).map (fun d =>
      (borderGet (fun _ _ => true) d,
       borderGet (fun _ _ => true) (Dict.setEnd d "mask-mode".toList ("alpha".toList, [])))) =
    some ("10".toList, []) := by decide +kernel

/-! ### An example -/

def exGroups : List (Part × List Tok) :=
  [(.mode, [kw "alpha"]), (.slice, [num "10", num "20%", kw "fill"]), (.width, [kw "auto", num "3px"]),
   (.source, [num "url(a.png)"])]

theorem exGood : Good exKind exGroups := by
  have hok : ∀ s : String, s ∈ ["10", "20%", "3px", "url(a.png)"] → TextOk s.toList := by
    intro s hs
    simp only [List.mem_cons, List.not_mem_nil, or_false] at hs
    rcases hs with rfl | rfl | rfl | rfl <;>
    exact ⟨by decide, trimmed_dec _ (by decide) (by decide), by decide⟩
  refine ⟨by decide, by decide, ?_⟩
  intro g hg
  simp only [exGroups, List.mem_cons, List.not_mem_nil, or_false] at hg
  rcases hg with rfl | rfl | rfl | rfl
  · refine ⟨by simp, Or.inl ?_⟩
    intro t ht
    rw [List.mem_singleton] at ht
    exact ⟨"alpha", by simp, ht⟩
  · refine ⟨by simp, Or.inr ⟨rfl, [num "10", num "20%"], by simp, rfl, ?_⟩⟩
    intro t ht
    simp only [List.mem_cons, List.not_mem_nil, or_false] at ht
    rcases ht with rfl | rfl
    · exact ⟨_, rfl, by decide, hok _ (by simp)⟩
    · exact ⟨_, rfl, by decide, hok _ (by simp)⟩
  · refine ⟨by simp, Or.inl ?_⟩
    intro t ht
    simp only [List.mem_cons, List.not_mem_nil, or_false] at ht
    rcases ht with rfl | rfl
    · exact Or.inl rfl
    · exact Or.inr ⟨_, rfl, by decide, hok _ (by simp)⟩
  · refine ⟨by simp, Or.inl ?_⟩
    intro t ht
    rw [List.mem_singleton] at ht
    subst ht
    exact Or.inr ⟨_, rfl, by decide, hok _ (by simp)⟩

example : Good exKind exGroups ∧ Layout exGroups (tokens exGroups) ∧ exGroups ≠ [] ∧
    (tokens exGroups).flatMap Tok.text = "alpha 10 20% fill / auto 3px url(a.png)".toList ∧
    text exGroups = "url(a.png) 10 20% fill / auto 3px alpha".toList :=
  ⟨exGood, layout_tokens _, by simp [exGroups], by decide +kernel, by decide +kernel⟩

example : (borderSet exKind [("color".toList, ("red".toList, []))] (tokens exGroups) []).map (borderGet fun _ _ => true) =
    some "url(a.png) 10 20% fill / auto 3px alpha".toList := by decide +kernel

example : Wide "inherit".toList := .inherit

end SvgPy.MaskBorder
