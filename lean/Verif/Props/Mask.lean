import Verif.Model.Mask
import Verif.Props.MaskBorder

/-!
C128: the `mask` shorthand declares its parts and can be read back.
-/

set_option linter.unusedSimpArgs false
set_option linter.unusedVariables false

namespace SvgPy.Mask

open SvgPy.PyStr SvgPy.Decl SvgPy.Shorthand SvgPy.Components
open SvgPy.FontShorthand (found Skips Takes Ends)
open SvgPy.MaskBorder (Kind kinds)
open SvgPy.MaskBorder.Spec (Of TextOk Spaces)

/-! ### Specification -/

namespace Spec

/-- The parts of the value. -/
inductive Part
  | image
  | position
  | size
  | rep
  | origin
  | clip
  | composite
  | mode
  deriving DecidableEq

def allParts : List Part := [.image, .position, .size, .rep, .origin, .clip, .composite, .mode]

/-- The longhand of a part. -/
def name : Part → Str
  | .image => "mask-image".toList
  | .position => "mask-position".toList
  | .size => "mask-size".toList
  | .rep => "mask-repeat".toList
  | .origin => "mask-origin".toList
  | .clip => "mask-clip".toList
  | .composite => "mask-composite".toList
  | .mode => "mask-mode".toList

/-- The keywords of a part (CSS Masking 1, 7.1-7.9). -/
def terms : Part → List String
  | .image => ["none"]
  | .position => ["left", "right", "top", "bottom", "center"]
  | .size => ["contain", "cover", "auto"]
  | .rep => ["repeat-x", "repeat-y", "repeat", "space", "round", "no-repeat"]
  | .origin => ["content-box", "padding-box", "border-box", "margin-box", "fill-box", "stroke-box", "view-box"]
  | .clip => ["content-box", "padding-box", "border-box", "margin-box", "fill-box", "stroke-box", "view-box", "no-clip"]
  | .composite => ["add", "subtract", "intersect", "exclude"]
  | .mode => ["alpha", "luminance", "match-source"]

/-- The other tokens of a part. -/
def others : Part → List Kind
  | .image => [.image]
  | .position => [.number, .length, .percentage, .math]
  | .size => [.number, .length, .percentage, .math]
  | _ => []

/-- The words of a part. -/
def IsWord (kind : Str → Kind) (p : Part) (t : Tok) : Prop := (∃ w ∈ terms p, t = kw w) ∨ Of kind (others p) t

/-- A part has at least one word; boxes have exactly one. -/
def IsGroup (kind : Str → Kind) (p : Part) (g : List Tok) : Prop :=
  g ≠ [] ∧ (∀ t ∈ g, IsWord kind p t) ∧ (p = .origin ∨ p = .clip → g.length = 1)

/-- The size stands behind a solidus. -/
def lead (p : Part) (v : List Tok) : List Tok := if p = .size then .lit ['/'] :: v else []

/-- The tokens of the parts in this order, with any white space between them. -/
inductive Layout : List (Part × List Tok) → List Tok → Prop
  | nil (w) : Spaces w → Layout [] w
  | cons (p g gs w v l) : Spaces w → Spaces v → Layout gs l →
      Layout ((p, g) :: gs) (w ++ (lead p v ++ (spaced g ++ l)))

/-- A value: each part at most once; a size only after a position.  The box for clipping stands after that for the origin;
`no-clip` may stand anywhere. -/
structure Good (kind : Str → Kind) (gs : List (Part × List Tok)) : Prop where
  once : (gs.map (·.1)).Nodup
  groups : ∀ g ∈ gs, IsGroup kind g.1 g.2
  size : ∀ a g b, gs = a ++ (.size, g) :: b → .position ∈ a.map (·.1)
  clip : ∀ a g b, gs = a ++ (.clip, g) :: b → g = [kw "no-clip"] ∨ .origin ∈ a.map (·.1)

/-- The text of a part. -/
def value (gs : List (Part × List Tok)) (p : Part) : Option Str :=
  (gs.find? (fun g => g.1 = p)).map (fun g => sentence g.2)

/-- The text for a longhand: one box is for both the origin and clipping; parts that are not given are `initial`. -/
def declared (gs : List (Part × List Tok)) : Part → Str
  | .clip => ((value gs .clip).or (value gs .origin)).getD "initial".toList
  | p => (value gs p).getD "initial".toList

/-- The parts in the order of the longhands, without a box for clipping that is the same as that for the origin. -/
def inLine (gs : List (Part × List Tok)) : List (Part × List Tok) :=
  allParts.filterMap fun p =>
    if p = .clip ∧ value gs .clip = value gs .origin then none else gs.find? (fun g => g.1 = p)

/-- Their tokens with one space between neighbours. -/
def tokens : List (Part × List Tok) → List Tok
  | [] => []
  | [(p, g)] => lead p [.ws [' ']] ++ spaced g
  | (p, g) :: gs => lead p [.ws [' ']] ++ (spaced g ++ .ws [' '] :: tokens gs)

/-- The text of a value. -/
def text (gs : List (Part × List Tok)) : Str := (tokens (inLine gs)).flatMap Tok.text

end Spec

open Spec

/-! ### Words -/

/-- The descriptor of a part. -/
def descOf (kind : Str → Kind) : Part → Desc
  | .image => imageDesc kind
  | .position => positionDesc kind
  | .size => sizeDesc kind
  | .rep => repeatDesc
  | .origin => originDesc
  | .clip => clipDesc
  | .composite => compositeDesc
  | .mode => modeDesc

theorem descs_parts (kind : Str → Kind) : descs kind = allParts.map fun p => (name p, descOf kind p) := rfl

theorem word_ordinary (kind : Str → Kind) (p : Part) (t : Tok) (h : IsWord kind p t) : Ordinary t := by
  have key : ∀ p : Part, ∀ w ∈ terms p, w ∉ MaskBorder.Spec.wides ∧ w.toList ≠ [] ∧
      (match w.toList.head? with | some x => isSpace x | none => false) = false ∧
      (match w.toList.getLast? with | some x => isSpace x | none => false) = false := by
    intro p; cases p <;> decide
  rcases h with ⟨w, hw, rfl⟩ | h
  · obtain ⟨h1, h2, h3, h4⟩ := key p w hw
    exact MaskBorder.ordinary_kw _ h1 h2 (MaskBorder.trimmed_dec _ h3 h4)
  · exact MaskBorder.ordinary_of kind _ t h

/-- The keywords of the descriptors. -/
theorem support_kw (kind : Str → Kind) (p : Part) (w : String) : (descOf kind p).support (kw w) = (terms p).any (fun k => w == k) := by
  have e : ∀ a b : String, (a.toList == b.toList) = (a == b) := by
    intro a b
    rw [Bool.eq_iff_iff]
    simp [String.toList_inj]
  cases p <;>
    simp only [descOf, imageDesc, positionDesc, sizeDesc, repeatDesc, originDesc, clipDesc, compositeDesc, modeDesc,
      keywords, kw, kinds, nothing, Bool.or_false, terms, List.any_cons, List.any_nil, e] <;>
    rw [Bool.eq_iff_iff] <;> simp only [Bool.or_eq_true, beq_iff_eq] <;> tauto

theorem support_other (kind : Str → Kind) (p : Part) (s : Str) :
    (descOf kind p).support (.other s) = (others p).contains (kind s) := by
  cases p <;> rfl

/-- A part supports its own words. -/
theorem support_own (kind : Str → Kind) (p : Part) (t : Tok) (h : IsWord kind p t) : (descOf kind p).support t = true := by
  rcases h with ⟨w, hw, rfl⟩ | ⟨s, rfl, hk, -⟩
  · rw [support_kw, List.any_eq_true]
    exact ⟨w, hw, by simp⟩
  · rw [support_other]
    simpa using hk

/-- Parts that have words in common. -/
def near : Part → Part → Bool
  | .position, .size => true
  | .size, .position => true
  | .origin, .clip => true
  | .clip, .origin => true
  | _, _ => false

theorem support_else (kind : Str → Kind) (p q : Part) (t : Tok) (h : IsWord kind q t) (hne : q ≠ p)
    (hn : near p q = false) : (descOf kind p).support t = false := by
  rcases h with ⟨w, hw, rfl⟩ | ⟨s, rfl, hk, -⟩
  · rw [support_kw, List.any_eq_false]
    intro k hk he
    rw [beq_iff_eq] at he
    subst he
    have : ∀ p q : Part, q ≠ p → near p q = false → ∀ k ∈ terms q, k ∉ terms p := by
      intro p q
      cases p <;> cases q <;> first | (intro h; exact absurd rfl h) | (intro _ h; exact absurd h (by decide)) | (intro _ _; decide)
    exact this p q hne hn _ hw hk
  · rw [support_other]
    rw [Bool.eq_false_iff]
    intro hc
    have hc : kind s ∈ others p := by simpa using hc
    revert hk hc hne hn
    generalize kind s = k
    cases p <;> cases q <;> simp [others, near] <;> (intro h; try simp [h]) <;> rcases h with rfl | rfl | rfl | rfl <;> simp

theorem no_clip_origin (kind : Str → Kind) : (descOf kind .origin).support (kw "no-clip") = false := by
  rw [support_kw]; decide

/-! ### One step of reading -/

theorem hit (d : Desc) (a : List Tok) (t : Tok) (run b : List Tok) (ha : ∀ x ∈ a, Skips d x) (ho : Ordinary t)
    (ht : d.support t = true) (hr : ∀ x ∈ run, Takes d x) (hb : b = [] ∨ ∃ y r, b = y :: r ∧ Ends d y) :
    parseList d none (a ++ (t :: run ++ b)) = ⟨some (t :: run), [], a ++ b⟩ := by
  rw [FontShorthand.skip d a _ ha, List.cons_append,
    FontShorthand.first d t _ ho.notWs (MaskBorder.ordinary_wide t ho) ho.notComma ho.notSlash ht,
    FontShorthand.take d [t] run b hr]
  rcases hb with rfl | ⟨y, r, rfl, hy⟩
  · rw [parseList]; rfl
  · rw [FontShorthand.stop d _ y r hy]; rfl

theorem miss (d : Desc) (a : List Tok) (ha : ∀ x ∈ a, Skips d x) : parseList d none a = ⟨none, [], a⟩ := by
  have := FontShorthand.skip d a [] ha
  rw [List.append_nil] at this
  rw [this, parseList]
  simp

/-- A part, or a solidus, with white space behind it. -/
abbrev Seg := Option Part × List Tok

/-- The solidus before a part. -/
def pre (p : Part) (v : List Tok) : List Seg := if p = .size then [(none, .lit ['/'] :: v)] else []

/-- The parts and solidi of a value. -/
inductive Cut : List (Part × List Tok) → List Seg → Prop
  | nil : Cut [] []
  | cons (p g gs v w S) : Spaces v → Spaces w → Cut gs S →
      Cut ((p, g) :: gs) (pre p v ++ (some p, spaced g ++ w) :: S)

theorem pre_lead (p : Part) (v : List Tok) : (pre p v).flatMap (·.2) = lead p v := by
  unfold pre lead
  split <;> simp

theorem cut_layout (gs : List (Part × List Tok)) (l : List Tok) (h : Layout gs l) :
    ∃ w S, Spaces w ∧ Cut gs S ∧ l = w ++ S.flatMap (·.2) := by
  induction h with
  | nil w hw => exact ⟨w, [], hw, .nil, by simp⟩
  | cons p g gs w v l hw hv _ ih =>
    obtain ⟨w', S, hw', hc, rfl⟩ := ih
    exact ⟨w, _, hw, .cons p g gs v w' S hv hw' hc, by simp [pre_lead]⟩

theorem cut_split (a : List (Part × List Tok)) (p : Part) (g : List Tok) (b : List (Part × List Tok)) (S : List Seg)
    (h : Cut (a ++ (p, g) :: b) S) :
    ∃ A v w B, Spaces v ∧ Spaces w ∧ Cut a A ∧ Cut b B ∧ S = A ++ (pre p v ++ (some p, spaced g ++ w) :: B) := by
  induction a generalizing S with
  | nil =>
    cases h with
    | cons _ _ _ v w B hv hw hc => exact ⟨[], v, w, B, hv, hw, .nil, hc, rfl⟩
  | cons x a ih =>
    cases h with
    | cons p' g' _ v' w' B' hv' hw' hc =>
      obtain ⟨A, v, w, B, hv, hw, h1, h2, rfl⟩ := ih _ hc
      exact ⟨_, v, w, B, hv, hw, .cons p' g' a v' w' A hv' hw' h1, h2, by simp⟩

/-- What the segments are. -/
theorem cut_mem (gs : List (Part × List Tok)) (S : List Seg) (h : Cut gs S) (x : Seg) (hx : x ∈ S) :
    (∃ v, Spaces v ∧ x = (none, .lit ['/'] :: v)) ∨ ∃ p g w, (p, g) ∈ gs ∧ Spaces w ∧ x = (some p, spaced g ++ w) := by
  induction h with
  | nil => simp at hx
  | cons p g gs v w S hv hw _ ih =>
    rw [List.mem_append, List.mem_cons] at hx
    rcases hx with hx | rfl | hx
    · unfold pre at hx
      split at hx
      · rw [List.mem_singleton] at hx
        exact Or.inl ⟨v, hv, hx⟩
      · simp at hx
    · exact Or.inr ⟨p, g, w, by simp, hw, rfl⟩
    · rcases ih hx with h | ⟨p', g', w', h1, h2, h3⟩
      · exact Or.inl h
      · exact Or.inr ⟨p', g', w', by simp [h1], h2, h3⟩

/-- Nothing in the segment is for the longhand. -/
def Quiet (d : Desc) (x : Seg) : Prop := (∀ t ∈ x.2, Skips d t) ∧ ∃ y r, x.2 = y :: r ∧ Ends d y

theorem skips_ws (d : Desc) (w : List Tok) (hw : Spaces w) (t : Tok) (ht : t ∈ w) : Skips d t := by
  obtain ⟨s, rfl, -⟩ := hw t ht
  exact Or.inl ⟨s, rfl⟩

theorem takes_ws (d : Desc) (w : List Tok) (hw : Spaces w) (t : Tok) (ht : t ∈ w) : Takes d t := by
  obtain ⟨s, rfl, -⟩ := hw t ht
  exact Or.inl ⟨s, rfl⟩

theorem quiet_slash (d : Desc) (v : List Tok) (hv : Spaces v) : Quiet d (none, .lit ['/'] :: v) := by
  refine ⟨?_, _, _, rfl, by simp, rfl, by simp, Or.inl rfl⟩
  intro t ht
  rcases List.mem_cons.1 ht with rfl | ht
  · exact Or.inr ⟨by simp, rfl, by simp, Or.inl rfl⟩
  · exact skips_ws d v hv t ht

theorem quiet_words (d : Desc) (o : Option Part) (g w : List Tok) (hne : g ≠ []) (hw : Spaces w)
    (h : ∀ t ∈ g, Ordinary t ∧ d.support t = false) : Quiet d (o, spaced g ++ w) := by
  have key : ∀ t ∈ g, Ends d t := by
    intro t ht
    obtain ⟨ho, hs⟩ := h t ht
    exact ⟨ho.notWs, MaskBorder.ordinary_wide t ho, ho.notComma, Or.inr hs⟩
  constructor
  · intro t ht
    rcases List.mem_append.1 ht with ht | ht
    · rcases FontShorthand.mem_spaced g t ht with rfl | ht
      · exact Or.inl ⟨_, rfl⟩
      · exact Or.inr (key t ht)
    · exact skips_ws d w hw t ht
  · cases g with
    | nil => exact absurd rfl hne
    | cons a g =>
      obtain ⟨l, hl⟩ := FontShorthand.spaced_head a g
      exact ⟨a, l ++ w, by simp [hl], key a (by simp)⟩

theorem quiet_other (kind : Str → Kind) (gs : List (Part × List Tok)) (hg : ∀ g ∈ gs, IsGroup kind g.1 g.2)
    (S : List Seg) (hc : Cut gs S) (p : Part) (x : Seg) (hx : x ∈ S)
    (h : ∀ q, x.1 = some q → q ≠ p ∧ near p q = false) : Quiet (descOf kind p) x := by
  rcases cut_mem gs S hc x hx with ⟨v, hv, rfl⟩ | ⟨q, g, w, hm, hw, rfl⟩
  · exact quiet_slash _ v hv
  · obtain ⟨h1, h2⟩ := h q rfl
    obtain ⟨h3, h4, -⟩ := hg _ hm
    exact quiet_words _ _ g w h3 hw
      (fun t ht => ⟨word_ordinary kind q t (h4 t ht), support_else kind p q t (h4 t ht) h1 h2⟩)

/-- The parts that are left. -/
def kept (K : Part → Bool) (S : List Seg) : List Seg :=
  S.filter fun x => match x.1 with | none => true | some q => K q

/-- Without a part. -/
def minus (K : Part → Bool) (p : Part) : Part → Bool := fun q => K q && decide (q ≠ p)

theorem kept_append (K : Part → Bool) (A B : List Seg) : kept K (A ++ B) = kept K A ++ kept K B := List.filter_append ..

theorem mem_kept (K : Part → Bool) (S : List Seg) (x : Seg) (h : x ∈ kept K S) :
    x ∈ S ∧ ∀ q, x.1 = some q → K q = true := by
  unfold kept at h
  rw [List.mem_filter] at h
  refine ⟨h.1, fun q hq => ?_⟩
  have := h.2
  rw [hq] at this
  exact this

theorem kept_minus (K : Part → Bool) (p : Part) (S : List Seg) (h : ∀ x ∈ S, x.1 ≠ some p) :
    kept (minus K p) S = kept K S := by
  unfold kept
  apply List.filter_congr
  intro x hx
  have := h x hx
  cases hq : x.1 with
  | none => rfl
  | some q =>
    have : q ≠ p := fun he => this (by rw [hq, he])
    simp [minus, this]

theorem tags_cut (gs : List (Part × List Tok)) (S : List Seg) (h : Cut gs S) (p : Part) (hp : p ∉ gs.map (·.1)) :
    ∀ x ∈ S, x.1 ≠ some p := by
  intro x hx he
  rcases cut_mem gs S h x hx with ⟨v, -, rfl⟩ | ⟨q, g, w, hm, -, rfl⟩
  · simp at he
  · simp only [Option.some.injEq] at he
    exact hp (List.mem_map.2 ⟨_, hm, he⟩)

/-- What is found for a part. -/
def Got (gs : List (Part × List Tok)) (p : Part) (f : Option (List Tok)) : Prop :=
  (p ∉ gs.map (·.1) ∧ f = none) ∨ ∃ g w, (p, g) ∈ gs ∧ Spaces w ∧ f = some (spaced g ++ w)

theorem group_run (kind : Str → Kind) (p : Part) (g w : List Tok) (hg : IsGroup kind p g) (hw : Spaces w) :
    ∃ t run, spaced g ++ w = t :: run ∧ Ordinary t ∧ (descOf kind p).support t = true ∧
      ∀ x ∈ run, Takes (descOf kind p) x := by
  obtain ⟨hne, hws, -⟩ := hg
  cases g with
  | nil => exact absurd rfl hne
  | cons a g =>
    obtain ⟨l, hl⟩ := FontShorthand.spaced_head a g
    refine ⟨a, l ++ w, by rw [hl]; rfl, word_ordinary kind p a (hws a (by simp)), support_own kind p a (hws a (by simp)), ?_⟩
    intro x hx
    rcases List.mem_append.1 hx with hx | hx
    · rcases FontShorthand.mem_spaced (a :: g) x (by rw [hl]; exact List.mem_cons_of_mem _ hx) with rfl | hx
      · exact Or.inl ⟨_, rfl⟩
      · have ho := word_ordinary kind p x (hws x hx)
        exact Or.inr ⟨ho.notWs, MaskBorder.ordinary_wide x ho, ho.notSlash,
          Or.inl ⟨ho.notComma, support_own kind p x (hws x hx)⟩⟩
    · exact takes_ws _ w hw x hx

theorem flat_ends (d : Desc) (B : List Seg) (h : ∀ y r, B = y :: r → Quiet d y) :
    B.flatMap (·.2) = [] ∨ ∃ y r, B.flatMap (·.2) = y :: r ∧ Ends d y := by
  cases B with
  | nil => exact Or.inl rfl
  | cons x B =>
    obtain ⟨-, y, r, h1, h2⟩ := h x B rfl
    exact Or.inr ⟨y, r ++ B.flatMap (·.2), by simp [h1], h2⟩

theorem flat_skips (d : Desc) (w : List Tok) (hw : Spaces w) (A : List Seg) (h : ∀ x ∈ A, Quiet d x) :
    ∀ t ∈ w ++ A.flatMap (·.2), Skips d t := by
  intro t ht
  rcases List.mem_append.1 ht with ht | ht
  · exact skips_ws d w hw t ht
  · obtain ⟨x, hx, ht⟩ := List.mem_flatMap.1 ht
    exact (h x hx).1 t ht

/-- A part that is there is read when nothing before it is for the longhand. -/
theorem step_split (kind : Str → Kind) (K : Part → Bool) (p : Part) (hK : K p = true) (g w v : List Tok)
    (hg : IsGroup kind p g) (hw : Spaces w) (hv : Spaces v) (A B : List Seg)
    (hA : ∀ x ∈ A, x.1 ≠ some p) (hB : ∀ x ∈ B, x.1 ≠ some p)
    (qA : ∀ x ∈ kept K A, Quiet (descOf kind p) x) (qB : ∀ y r, kept K B = y :: r → Quiet (descOf kind p) y) :
    parseList (descOf kind p) none (v ++ (kept K (A ++ (some p, spaced g ++ w) :: B)).flatMap (·.2)) =
      ⟨some (spaced g ++ w), [], v ++ (kept (minus K p) (A ++ (some p, spaced g ++ w) :: B)).flatMap (·.2)⟩ := by
  obtain ⟨t, run, hr, ho, hs, ht⟩ := group_run kind p g w hg hw
  have e1 : kept K (A ++ (some p, spaced g ++ w) :: B) = kept K A ++ (some p, spaced g ++ w) :: kept K B := by
    rw [kept_append]
    unfold kept
    rw [List.filter_cons_of_pos (by simpa using hK)]
  have e2 : kept (minus K p) (A ++ (some p, spaced g ++ w) :: B) = kept K A ++ kept K B := by
    rw [kept_append, kept_minus K p A hA]
    have : kept (minus K p) ((some p, spaced g ++ w) :: B) = kept (minus K p) B := by
      unfold kept
      rw [List.filter_cons_of_neg (by simp [minus])]
    rw [this, kept_minus K p B hB]
  rw [e1, e2, List.flatMap_append, List.flatMap_cons, List.flatMap_append, hr]
  have := hit (descOf kind p) (v ++ (kept K A).flatMap (·.2)) t run ((kept K B).flatMap (·.2))
    (flat_skips _ v hv _ qA) ho hs ht (flat_ends _ _ qB)
  simpa [List.append_assoc] using this

theorem nodup_split (a : List (Part × List Tok)) (p : Part) (g : List Tok) (b : List (Part × List Tok))
    (h : ((a ++ (p, g) :: b).map (·.1)).Nodup) : p ∉ a.map (·.1) ∧ p ∉ b.map (·.1) := by
  rw [List.map_append, List.map_cons, List.nodup_append] at h
  obtain ⟨-, h2, h3⟩ := h
  refine ⟨fun hm => h3 p hm p (by simp) rfl, (List.nodup_cons.1 h2).1⟩

theorem pre_ne (p q : Part) (v : List Tok) : ∀ x ∈ pre p v, x.1 ≠ some q := by
  intro x hx
  unfold pre at hx
  split at hx
  · rw [List.mem_singleton] at hx
    simp [hx]
  · simp at hx

/-- A part is read when nothing else is for the longhand. -/
theorem step_plain (kind : Str → Kind) (gs : List (Part × List Tok)) (hg : Good kind gs) (S : List Seg) (hc : Cut gs S)
    (v : List Tok) (hv : Spaces v) (K : Part → Bool) (p : Part) (hK : K p = true)
    (hq : ∀ x ∈ kept K S, x.1 ≠ some p → Quiet (descOf kind p) x) :
    ∃ f, parseList (descOf kind p) none (v ++ (kept K S).flatMap (·.2)) =
      ⟨f, [], v ++ (kept (minus K p) S).flatMap (·.2)⟩ ∧ Got gs p f := by
  by_cases hp : p ∈ gs.map (·.1)
  · obtain ⟨⟨q, g⟩, hm, rfl⟩ := List.mem_map.1 hp
    obtain ⟨a, b, rfl⟩ := List.append_of_mem hm
    obtain ⟨na, nb⟩ := nodup_split a q g b hg.once
    obtain ⟨A, v', w, B, hv', hw, hca, hcb, rfl⟩ := cut_split a q g b S hc
    have hA : ∀ x ∈ A ++ pre q v', x.1 ≠ some q := by
      intro x hx
      rcases List.mem_append.1 hx with hx | hx
      · exact tags_cut a A hca q na x hx
      · exact pre_ne q q v' x hx
    have hB := tags_cut b B hcb q nb
    rw [← List.append_assoc] at hq ⊢
    refine ⟨_, step_split kind K q hK g w v (hg.groups _ hm) hw hv (A ++ pre q v') B hA hB ?_ ?_,
      Or.inr ⟨g, w, hm, hw, rfl⟩⟩
    · intro x hx
      exact hq x (by rw [kept_append]; exact List.mem_append_left _ hx) (hA x (mem_kept K _ x hx).1)
    · intro y r hy
      have hy' : y ∈ kept K B := by rw [hy]; simp
      refine hq y ?_ (hB y (mem_kept K B y hy').1)
      rw [kept_append]
      refine List.mem_append_right _ ?_
      unfold kept
      rw [List.filter_cons_of_pos (by simpa using hK)]
      exact List.mem_cons_of_mem _ hy'
  · have ht := tags_cut gs S hc p hp
    refine ⟨none, ?_, Or.inl ⟨hp, rfl⟩⟩
    rw [kept_minus K p S ht]
    exact miss _ _ (flat_skips _ v hv _ (fun x hx => hq x hx (ht x (mem_kept K S x hx).1)))

theorem quiet_in (kind : Str → Kind) (gs : List (Part × List Tok)) (hg : ∀ g ∈ gs, IsGroup kind g.1 g.2)
    (S : List Seg) (hc : Cut gs S) (K : Part → Bool) (p : Part)
    (h : ∀ q ∈ gs.map (·.1), K q = true → q ≠ p → near p q = false) (x : Seg) (hx : x ∈ kept K S) (hp : x.1 ≠ some p) :
    Quiet (descOf kind p) x := by
  obtain ⟨h1, h2⟩ := mem_kept K S x hx
  apply quiet_other kind gs hg S hc p x h1
  intro q hq
  have hne : q ≠ p := fun he => hp (by rw [hq, he])
  refine ⟨hne, h q ?_ (h2 q hq) hne⟩
  by_contra hn
  exact tags_cut gs S hc q hn x h1 hq

theorem near_position (q : Part) (h : q ≠ .size) : near .position q = false := by cases q <;> first | rfl | exact absurd rfl h
theorem near_size (q : Part) (h : q ≠ .position) : near .size q = false := by cases q <;> first | rfl | exact absurd rfl h
theorem near_origin (q : Part) (h : q ≠ .clip) : near .origin q = false := by cases q <;> first | rfl | exact absurd rfl h
theorem near_clip (q : Part) (h : q ≠ .origin) : near .clip q = false := by cases q <;> first | rfl | exact absurd rfl h

/-- Reading the position, which stands before the size. -/
theorem step_position (kind : Str → Kind) (gs : List (Part × List Tok)) (hg : Good kind gs) (S : List Seg) (hc : Cut gs S)
    (v : List Tok) (hv : Spaces v) (K : Part → Bool) (hK : K .position = true) :
    ∃ f, parseList (descOf kind .position) none (v ++ (kept K S).flatMap (·.2)) =
      ⟨f, [], v ++ (kept (minus K .position) S).flatMap (·.2)⟩ ∧ Got gs .position f := by
  by_cases hz : Part.size ∈ gs.map (·.1)
  · obtain ⟨⟨q, gz⟩, hm, hq⟩ := List.mem_map.1 hz
    simp only at hq
    subst hq
    obtain ⟨a, b, rfl⟩ := List.append_of_mem hm
    have hpos := hg.size a gz b rfl
    obtain ⟨⟨q, gp⟩, hmp, hq⟩ := List.mem_map.1 hpos
    simp only at hq
    subst hq
    obtain ⟨a1, a2, rfl⟩ := List.append_of_mem hmp
    obtain ⟨A, vz, wz, B, hvz, hwz, hca, hcb, rfl⟩ := cut_split _ _ gz b S hc
    obtain ⟨A1, vp, wp, A2, hvp, hwp, hc1, hc2, rfl⟩ := cut_split a1 _ gp a2 A hca
    have hs : Part.size ∉ a1.map (·.1) ∧ Part.size ∉ a2.map (·.1) ∧ Part.position ∉ a1.map (·.1) ∧
        Part.position ∉ a2.map (·.1) ∧ Part.position ∉ b.map (·.1) := by
      obtain ⟨n1, n2⟩ := nodup_split _ _ _ _ hg.once
      have n3 := nodup_split a1 .position gp (a2 ++ (.size, gz) :: b) (by simpa using hg.once)
      simp only [List.map_append, List.map_cons, List.mem_append, List.mem_cons, not_or] at n1 n3
      exact ⟨n1.1, n1.2.2, n3.1, n3.2.1, n3.2.2.2⟩
    obtain ⟨s1, s2, p1, p2, p3⟩ := hs
    have hgr := hg.groups
    have e : A1 ++ (pre .position vp ++ (some .position, spaced gp ++ wp) :: A2) ++
        (pre .size vz ++ (some .size, spaced gz ++ wz) :: B) =
        A1 ++ (some .position, spaced gp ++ wp) :: (A2 ++ ((none, .lit ['/'] :: vz) :: (some .size, spaced gz ++ wz) :: B)) := by
      simp [pre]
    rw [e]
    refine ⟨_, step_split kind K .position hK gp wp v (hgr (.position, gp) (by simp)) hwp hv A1 _
      (tags_cut a1 A1 hc1 _ p1) ?_ ?_ ?_, Or.inr ⟨gp, wp, by simp, hwp, rfl⟩⟩
    · intro x hx
      simp only [List.mem_append, List.mem_cons] at hx
      rcases hx with hx | rfl | rfl | hx
      · exact tags_cut a2 A2 hc2 _ p2 x hx
      · simp
      · simp
      · exact tags_cut b B hcb _ p3 x hx
    · intro x hx
      refine quiet_in kind a1 (fun g h => hgr g (by simp [h])) A1 hc1 K _ ?_ x hx (tags_cut a1 A1 hc1 _ p1 x (mem_kept _ _ _ hx).1)
      intro q hq _ _
      exact near_position q (fun he => s1 (by rw [← he]; exact hq))
    · intro y r hy
      rw [kept_append] at hy
      cases hk : kept K A2 with
      | nil =>
        rw [hk, List.nil_append] at hy
        unfold kept at hy
        rw [List.filter_cons_of_pos (by simp)] at hy
        rw [← (List.cons.inj hy).1]
        exact quiet_slash _ vz hvz
      | cons z zs =>
        rw [hk, List.cons_append] at hy
        have hz : y ∈ kept K A2 := by rw [hk, (List.cons.inj hy).1]; simp
        refine quiet_in kind a2 (fun g h => hgr g (by simp [h])) A2 hc2 K _ ?_ y hz (tags_cut a2 A2 hc2 _ p2 y (mem_kept _ _ _ hz).1)
        intro q hq _ _
        exact near_position q (fun he => s2 (by rw [← he]; exact hq))
  · apply step_plain kind gs hg S hc v hv K _ hK
    intro x hx hne
    refine quiet_in kind gs hg.groups S hc K _ ?_ x hx hne
    intro q hq _ _
    exact near_position q (fun he => hz (by rw [← he]; exact hq))

/-- What is found for the boxes: each one, or both for the origin. -/
def GotBoxes (gs : List (Part × List Tok)) (fo fc : Option (List Tok)) : Prop :=
  (Got gs .origin fo ∧ Got gs .clip fc) ∨
    ∃ a b w1 w2, (.origin, [a]) ∈ gs ∧ (.clip, [b]) ∈ gs ∧ Spaces w1 ∧ Spaces w2 ∧ fo = some (a :: w1 ++ b :: w2) ∧ fc = none

theorem single (kind : Str → Kind) (p : Part) (g : List Tok) (h : IsGroup kind p g) (hp : p = .origin ∨ p = .clip) :
    ∃ a, g = [a] ∧ IsWord kind p a := by
  obtain ⟨-, h1, h2⟩ := h
  obtain ⟨a, rfl⟩ := List.length_eq_one_iff.1 (h2 hp)
  exact ⟨a, rfl, h1 a (by simp)⟩

/-- Reading the boxes. -/
theorem step_boxes (kind : Str → Kind) (gs : List (Part × List Tok)) (hg : Good kind gs) (S : List Seg) (hc : Cut gs S)
    (v : List Tok) (hv : Spaces v) (K : Part → Bool) (hKo : K .origin = true) (hKc : K .clip = true) :
    ∃ fo l fc, parseList (descOf kind .origin) none (v ++ (kept K S).flatMap (·.2)) = ⟨fo, [], l⟩ ∧
      parseList (descOf kind .clip) none l =
        ⟨fc, [], v ++ (kept (minus (minus K .origin) .clip) S).flatMap (·.2)⟩ ∧ GotBoxes gs fo fc := by
  have hK2 : minus K .origin .clip = true := by simp [minus, hKc]
  have hclip : ∃ fc, parseList (descOf kind .clip) none (v ++ (kept (minus K .origin) S).flatMap (·.2)) =
      ⟨fc, [], v ++ (kept (minus (minus K .origin) .clip) S).flatMap (·.2)⟩ ∧ Got gs .clip fc := by
    apply step_plain kind gs hg S hc v hv _ _ hK2
    intro x hx hne
    refine quiet_in kind gs hg.groups S hc _ _ ?_ x hx hne
    intro q hq hk _
    apply near_clip q
    rintro rfl
    simp [minus] at hk
  have apart : (∀ x ∈ kept K S, x.1 ≠ some .origin → Quiet (descOf kind .origin) x) →
      ∃ fo l fc, parseList (descOf kind .origin) none (v ++ (kept K S).flatMap (·.2)) = ⟨fo, [], l⟩ ∧
      parseList (descOf kind .clip) none l =
        ⟨fc, [], v ++ (kept (minus (minus K .origin) .clip) S).flatMap (·.2)⟩ ∧ GotBoxes gs fo fc := by
    intro h
    obtain ⟨fo, h1, h2⟩ := step_plain kind gs hg S hc v hv K _ hKo h
    obtain ⟨fc, h3, h4⟩ := hclip
    exact ⟨fo, _, fc, h1, h3, Or.inl ⟨h2, h4⟩⟩
  by_cases hcl : Part.clip ∈ gs.map (·.1)
  · obtain ⟨⟨q, gc⟩, hm, hq⟩ := List.mem_map.1 hcl
    simp only at hq
    subst hq
    obtain ⟨a, b, hab⟩ := List.append_of_mem hm
    have hgood := hg
    rcases hg.clip a gc b hab with rfl | ho
    · apply apart
      intro x hx hne
      obtain ⟨h1, h2⟩ := mem_kept K S x hx
      rcases cut_mem gs S hc x h1 with ⟨v', hv', rfl⟩ | ⟨q, g, w, hmq, hw, rfl⟩
      · exact quiet_slash _ v' hv'
      · by_cases hqc : q = .clip
        · subst hqc
          have hu : g = [kw "no-clip"] := by
            rw [hab] at hmq
            obtain ⟨n1, n2⟩ := nodup_split a .clip [kw "no-clip"] b (by rw [← hab]; exact hg.once)
            simp only [List.mem_append, List.mem_cons, Prod.mk.injEq, true_and] at hmq
            rcases hmq with h | h | h
            · exact absurd (List.mem_map.2 ⟨_, h, rfl⟩) n1
            · exact h
            · exact absurd (List.mem_map.2 ⟨_, h, rfl⟩) n2
          subst hu
          refine quiet_words _ _ _ w (by simp) hw ?_
          intro t ht
          rw [List.mem_singleton] at ht
          subst ht
          exact ⟨word_ordinary kind .clip _ (Or.inl ⟨"no-clip", by decide, rfl⟩), no_clip_origin kind⟩
        · have hqo : q ≠ .origin := fun he => hne (by rw [he])
          obtain ⟨h3, h4, -⟩ := hg.groups _ hmq
          exact quiet_words _ _ g w h3 hw (fun t ht => ⟨word_ordinary kind q t (h4 t ht),
            support_else kind .origin q t (h4 t ht) hqo (near_origin q hqc)⟩)
    · subst hab
      obtain ⟨⟨q, go⟩, hmo, hq⟩ := List.mem_map.1 ho
      simp only at hq
      subst hq
      obtain ⟨a1, a2, rfl⟩ := List.append_of_mem hmo
      obtain ⟨A, vz, wz, B, hvz, hwz, hca, hcb, rfl⟩ := cut_split _ _ gc b S hc
      obtain ⟨A1, vp, wp, A2, hvp, hwp, hc1, hc2, rfl⟩ := cut_split a1 _ go a2 A hca
      obtain ⟨s1, s2, s3, p1, p2, p3⟩ : Part.clip ∉ a1.map (·.1) ∧ Part.clip ∉ a2.map (·.1) ∧ Part.clip ∉ b.map (·.1) ∧
          Part.origin ∉ a1.map (·.1) ∧ Part.origin ∉ a2.map (·.1) ∧ Part.origin ∉ b.map (·.1) := by
        obtain ⟨n1, n2⟩ := nodup_split _ _ _ _ hg.once
        have n3 := nodup_split a1 .origin go (a2 ++ (.clip, gc) :: b) (by simpa using hg.once)
        simp only [List.map_append, List.map_cons, List.mem_append, List.mem_cons, not_or] at n1 n3
        exact ⟨n1.1, n1.2.2, n2, n3.1, n3.2.1, n3.2.2.2⟩
      have hgr := hg.groups
      have e : A1 ++ (pre .origin vp ++ (some .origin, spaced go ++ wp) :: A2) ++
          (pre .clip vz ++ (some .clip, spaced gc ++ wz) :: B) =
          A1 ++ (some .origin, spaced go ++ wp) :: (A2 ++ (some .clip, spaced gc ++ wz) :: B) := by
        simp [pre]
      rw [e] at hclip ⊢
      have q1 : ∀ x ∈ kept K A1, Quiet (descOf kind .origin) x := by
        intro x hx
        refine quiet_in kind a1 (fun g h => hgr g (by simp [h])) A1 hc1 K _ ?_ x hx (tags_cut a1 A1 hc1 _ p1 x (mem_kept _ _ _ hx).1)
        intro q hq _ _
        exact near_origin q (fun he => s1 (by rw [← he]; exact hq))
      have q2 : ∀ x ∈ kept K A2, Quiet (descOf kind .origin) x := by
        intro x hx
        refine quiet_in kind a2 (fun g h => hgr g (by simp [h])) A2 hc2 K _ ?_ x hx (tags_cut a2 A2 hc2 _ p2 x (mem_kept _ _ _ hx).1)
        intro q hq _ _
        exact near_origin q (fun he => s2 (by rw [← he]; exact hq))
      have q3 : ∀ x ∈ kept K B, Quiet (descOf kind .origin) x := by
        intro x hx
        refine quiet_in kind b (fun g h => hgr g (by simp [h])) B hcb K _ ?_ x hx (tags_cut b B hcb _ p3 x (mem_kept _ _ _ hx).1)
        intro q hq _ _
        exact near_origin q (fun he => s3 (by rw [← he]; exact hq))
      have hgo : IsGroup kind .origin go := hgr (.origin, go) (by simp)
      have hgc : IsGroup kind .clip gc := hgr (.clip, gc) (by simp)
      by_cases hcase : kept K A2 = [] ∧ (descOf kind .origin).support (gc.headD (kw "no-clip")) = true
      · obtain ⟨hk, hsup⟩ := hcase
        obtain ⟨x, rfl, hx⟩ := single kind _ go hgo (Or.inl rfl)
        obtain ⟨y, rfl, hy⟩ := single kind _ gc hgc (Or.inr rfl)
        have e1 : kept K (A1 ++ (some .origin, spaced [x] ++ wp) :: (A2 ++ (some .clip, spaced [y] ++ wz) :: B)) =
            kept K A1 ++ (some .origin, x :: wp) :: (some .clip, y :: wz) :: kept K B := by
          rw [kept_append]
          congr 1
          have : kept K ((some Part.origin, spaced [x] ++ wp) :: (A2 ++ (some .clip, spaced [y] ++ wz) :: B)) =
              (some Part.origin, spaced [x] ++ wp) :: kept K (A2 ++ (some .clip, spaced [y] ++ wz) :: B) :=
            List.filter_cons_of_pos (by simpa using hKo)
          rw [this, kept_append, hk]
          have : kept K ((some Part.clip, spaced [y] ++ wz) :: B) = (some Part.clip, spaced [y] ++ wz) :: kept K B :=
            List.filter_cons_of_pos (by simpa using hKc)
          rw [this]
          rfl
        have hyo := word_ordinary kind _ y hy
        have h1 := hit (descOf kind .origin) (v ++ (kept K A1).flatMap (·.2)) x (wp ++ y :: wz) ((kept K B).flatMap (·.2))
          (flat_skips _ v hv _ q1) (word_ordinary kind _ x hx) (support_own kind _ x hx)
          (by
            intro t ht
            simp only [List.mem_append, List.mem_cons] at ht
            rcases ht with ht | rfl | ht
            · exact takes_ws _ wp hwp t ht
            · exact Or.inr ⟨hyo.notWs, MaskBorder.ordinary_wide _ hyo, hyo.notSlash, Or.inl ⟨hyo.notComma, hsup⟩⟩
            · exact takes_ws _ wz hwz t ht)
          (flat_ends _ _ (fun z r hz => q3 z (by rw [hz]; simp)))
        refine ⟨_, _, none, by rw [e1]; simpa using h1, ?_, Or.inr ⟨x, y, wp, wz, by simp, by simp, hwp, hwz, by simp, rfl⟩⟩
        have e2 : kept (minus (minus K .origin) .clip)
            (A1 ++ (some .origin, spaced [x] ++ wp) :: (A2 ++ (some .clip, spaced [y] ++ wz) :: B)) =
            kept K A1 ++ kept K B := by
          have r : ∀ (c : List (Part × List Tok)) (C : List Seg), Cut c C → Part.clip ∉ c.map (·.1) →
              Part.origin ∉ c.map (·.1) → kept (minus (minus K .origin) .clip) C = kept K C := by
            intro c C hC hn1 hn2
            rw [kept_minus _ _ C (tags_cut c C hC _ hn1), kept_minus _ _ C (tags_cut c C hC _ hn2)]
          rw [kept_append, r a1 A1 hc1 s1 p1]
          congr 1
          have : kept (minus (minus K .origin) .clip)
              ((some Part.origin, spaced [x] ++ wp) :: (A2 ++ (some .clip, spaced [y] ++ wz) :: B)) =
              kept (minus (minus K .origin) .clip) (A2 ++ (some .clip, spaced [y] ++ wz) :: B) :=
            List.filter_cons_of_neg (by simp [minus])
          rw [this, kept_append, r a2 A2 hc2 s2 p2, hk]
          have : kept (minus (minus K .origin) .clip) ((some Part.clip, spaced [y] ++ wz) :: B) =
              kept (minus (minus K .origin) .clip) B := List.filter_cons_of_neg (by simp [minus])
          rw [this, r b B hcb s3 p3]
          rfl
        rw [e2, List.flatMap_append, ← List.append_assoc]
        apply miss
        rw [List.append_assoc, ← List.flatMap_append]
        apply flat_skips _ v hv
        intro z hz
        rcases List.mem_append.1 hz with hz | hz
        · refine quiet_in kind a1 (fun g h => hgr g (by simp [h])) A1 hc1 K _ ?_ z hz (tags_cut a1 A1 hc1 _ s1 z (mem_kept _ _ _ hz).1)
          intro q hq _ _
          exact near_clip q (fun he => p1 (by rw [← he]; exact hq))
        · refine quiet_in kind b (fun g h => hgr g (by simp [h])) B hcb K _ ?_ z hz (tags_cut b B hcb _ s3 z (mem_kept _ _ _ hz).1)
          intro q hq _ _
          exact near_clip q (fun he => p3 (by rw [← he]; exact hq))
      · obtain ⟨fc, h3, h4⟩ := hclip
        refine ⟨_, _, fc, step_split kind K .origin hKo go wp v hgo hwp hv A1 _ (tags_cut a1 A1 hc1 _ p1) ?_ q1 ?_, h3,
          Or.inl ⟨Or.inr ⟨go, wp, by simp, hwp, rfl⟩, h4⟩⟩
        · intro x hx
          simp only [List.mem_append, List.mem_cons] at hx
          rcases hx with hx | rfl | hx
          · exact tags_cut a2 A2 hc2 _ p2 x hx
          · simp
          · exact tags_cut b B hcb _ p3 x hx
        · intro y r hy
          rw [kept_append] at hy
          cases hk : kept K A2 with
          | nil =>
            have hsup : (descOf kind .origin).support (gc.headD (kw "no-clip")) = false := by
              rw [Bool.eq_false_iff]
              exact fun h => hcase ⟨hk, h⟩
            rw [hk, List.nil_append] at hy
            unfold kept at hy
            rw [List.filter_cons_of_pos (by simpa using hKc)] at hy
            rw [← (List.cons.inj hy).1]
            obtain ⟨z, rfl, hz⟩ := single kind _ gc hgc (Or.inr rfl)
            refine quiet_words _ _ _ wz (by simp) hwz ?_
            intro t ht
            rw [List.mem_singleton] at ht
            subst ht
            exact ⟨word_ordinary kind _ _ hz, hsup⟩
          | cons z zs =>
            rw [hk, List.cons_append] at hy
            exact q2 y (by rw [hk, (List.cons.inj hy).1]; simp)
  · apply apart
    intro x hx hne
    refine quiet_in kind gs hg.groups S hc K _ ?_ x hx hne
    intro q hq _ _
    exact near_origin q (fun he => hcl (by rw [← he]; exact hq))

/-! ### Reading a value -/

theorem kept_all (S : List Seg) : kept (fun _ => true) S = S := by
  unfold kept
  rw [List.filter_eq_self]
  intro x _
  cases x.1 <;> rfl

theorem parseAll_nil (l : List Tok) : parseAll [] l = ([], []) := rfl

theorem chain (n : Str) (d : Desc) (l : List Tok) {f : Option (List Tok)} {l' : List Tok} {ds : List (Str × Desc)}
    {m : List (Str × List Tok)} (h : parseList d none l = ⟨f, [], l'⟩) (hr : parseAll ds l' = (m, [])) :
    parseAll ((n, d) :: ds) l = (found n f ++ m, []) := by
  rw [parseAll]
  simp only [h, hr]
  cases f <;> rfl

/-- What is found in a value. -/
theorem parse_spec (kind : Str → Kind) (gs : List (Part × List Tok)) (hg : Good kind gs) (l : List Tok) (hl : Layout gs l) :
    ∃ f : Part → Option (List Tok), parseAll (descs kind) l = (allParts.flatMap (fun p => found (name p) (f p)), []) ∧
      (∀ p, p ≠ .origin → p ≠ .clip → Got gs p (f p)) ∧ GotBoxes gs (f .origin) (f .clip) := by
  obtain ⟨v, S, hv, hc, rfl⟩ := cut_layout gs l hl
  have plain : ∀ (K : Part → Bool) (p : Part), K p = true → (∀ q, K q = true → q ≠ p → near p q = false) →
      ∃ f, parseList (descOf kind p) none (v ++ (kept K S).flatMap (·.2)) =
        ⟨f, [], v ++ (kept (minus K p) S).flatMap (·.2)⟩ ∧ Got gs p f := by
    intro K p hK hn
    apply step_plain kind gs hg S hc v hv K p hK
    intro x hx hne
    exact quiet_in kind gs hg.groups S hc K p (fun q _ h1 h2 => hn q h1 h2) x hx hne
  obtain ⟨f1, h1, g1⟩ := plain (fun _ => true) .image rfl (by intro q; cases q <;> simp [near])
  obtain ⟨f2, h2, g2⟩ := step_position kind gs hg S hc v hv (minus (fun _ => true) .image) rfl
  obtain ⟨f3, h3, g3⟩ := plain (minus (minus (fun _ => true) .image) .position) .size rfl
    (by intro q; cases q <;> simp [near, minus])
  obtain ⟨f4, h4, g4⟩ := plain (minus (minus (minus (fun _ => true) .image) .position) .size) .rep rfl
    (by intro q; cases q <;> simp [near, minus])
  obtain ⟨f5, l5, f6, h5, h6, g56⟩ := step_boxes kind gs hg S hc v hv
    (minus (minus (minus (minus (fun _ => true) .image) .position) .size) .rep) rfl rfl
  obtain ⟨f7, h7, g7⟩ := plain (minus (minus (minus (minus (minus (minus (fun _ => true) .image) .position) .size) .rep)
    .origin) .clip) .composite rfl (by intro q; cases q <;> simp [near, minus])
  obtain ⟨f8, h8, g8⟩ := plain (minus (minus (minus (minus (minus (minus (minus (fun _ => true) .image) .position) .size) .rep)
    .origin) .clip) .composite) .mode rfl (by intro q; cases q <;> simp [near, minus])
  rw [kept_all] at h1
  refine ⟨fun p => match p with
    | .image => f1 | .position => f2 | .size => f3 | .rep => f4 | .origin => f5 | .clip => f6 | .composite => f7 | .mode => f8,
    ?_, ?_, g56⟩
  · have r := chain (name .image) _ _ h1 (chain (name .position) _ _ h2 (chain (name .size) _ _ h3 (chain (name .rep) _ _ h4
      (chain (name .origin) _ _ h5 (chain (name .clip) _ _ h6 (chain (name .composite) _ _ h7 (chain (name .mode) _ _ h8
        (parseAll_nil _))))))))
    rw [descs_parts]
    simp only [allParts, List.map_cons, List.map_nil, List.flatMap_cons, List.flatMap_nil]
    exact r
  · intro p hp1 hp2
    cases p <;> first | assumption | exact absurd rfl hp1 | exact absurd rfl hp2

theorem find_of_mem (gs : List (Part × List Tok)) (h : (gs.map (·.1)).Nodup) (p : Part) (g : List Tok) (hm : (p, g) ∈ gs) :
    gs.find? (fun x => x.1 = p) = some (p, g) := by
  obtain ⟨a, b, rfl⟩ := List.append_of_mem hm
  obtain ⟨n1, -⟩ := nodup_split a p g b h
  rw [List.find?_append, List.find?_eq_none.2, List.find?_cons_of_pos (by simp)]
  · rfl
  · intro x hx he
    exact n1 (List.mem_map.2 ⟨x, hx, by simpa using he⟩)

theorem value_mem (gs : List (Part × List Tok)) (h : (gs.map (·.1)).Nodup) (p : Part) (g : List Tok) (hm : (p, g) ∈ gs) :
    value gs p = some (sentence g) := by
  unfold value
  rw [find_of_mem gs h p g hm]
  rfl

theorem value_none (gs : List (Part × List Tok)) (p : Part) : value gs p = none ↔ p ∉ gs.map (·.1) := by
  unfold value
  rw [Option.map_eq_none_iff, List.find?_eq_none]
  constructor
  · intro h hm
    obtain ⟨g, hg, he⟩ := List.mem_map.1 hm
    exact h g hg (by simpa using he)
  · intro h g hg he
    exact h (List.mem_map.2 ⟨g, hg, by simpa using he⟩)

theorem group_text (kind : Str → Kind) (p : Part) (g w : List Tok) (hg : IsGroup kind p g) (hw : Spaces w) :
    valueText (spaced g ++ w) = sentence g := by
  have := MaskBorder.valueText_around [] g w (by intro t ht; simp at ht) hw hg.1
    (fun t ht => word_ordinary kind p t (hg.2.1 t ht))
  simpa using this

theorem got_value (kind : Str → Kind) (gs : List (Part × List Tok)) (hg : Good kind gs) (p : Part) (f : Option (List Tok))
    (h : Got gs p f) : f.map valueText = value gs p := by
  rcases h with ⟨h1, rfl⟩ | ⟨g, w, h1, h2, rfl⟩
  · rw [(value_none gs p).2 h1]; rfl
  · rw [value_mem gs hg.once p g h1, Option.map_some, group_text kind p g w (hg.groups _ h1) h2]

theorem name_inj (p q : Part) (h : name p = name q) : p = q := by
  revert h; cases p <;> cases q <;> decide

theorem get_parts (f : Part → Option (List Tok)) (p : Part) :
    Dict.get? (allParts.flatMap fun q => found (name q) (f q)) (name p) = f p := by
  have key : ∀ ps : List Part, ps.Nodup → Dict.get? (ps.flatMap fun q => found (name q) (f q)) (name p) =
      if p ∈ ps then f p else none := by
    intro ps
    induction ps with
    | nil => intro _; rfl
    | cons q ps ih =>
      intro hn
      rw [List.nodup_cons] at hn
      rw [List.flatMap_cons, Dict.get?_append, ih hn.2, FontShorthand.get_found]
      by_cases hq : q = p
      · subst hq
        simp [hn.1]
      · have : name q ≠ name p := fun he => hq (name_inj q p he)
        simp [this, Ne.symm hq, Ne.symm this]
  rw [key allParts (by decide), if_pos (by cases p <;> decide)]

theorem filter_spaces (w : List Tok) (hw : Spaces w) : w.filter notSpace = [] := by
  rw [List.filter_eq_nil_iff]
  intro t ht
  obtain ⟨s, rfl, -⟩ := hw t ht
  simp [notSpace]

theorem notSpace_word (t : Tok) (h : Ordinary t) : notSpace t = true := by
  cases t with
  | ws s => exact absurd rfl (h.notWs s)
  | _ => rfl

theorem word_text (t : Tok) (h : Ordinary t) : valueText [t] = t.text := by
  have := MaskBorder.valueText_around [] [t] [] (by intro t ht; simp at ht) (by intro t ht; simp at ht) (by simp)
    (by intro x hx; rw [List.mem_singleton] at hx; rw [hx]; exact h)
  simpa [spaced, sentence] using this

/-- What is declared. -/
theorem boxes_spec (kind : Str → Kind) (gs : List (Part × List Tok)) (hg : Good kind gs) (f : Part → Option (List Tok))
    (h1 : ∀ p, p ≠ .origin → p ≠ .clip → Got gs p (f p)) (h2 : GotBoxes gs (f .origin) (f .clip)) (p : Part) :
    (Dict.get? (texts (boxes (allParts.flatMap fun q => found (name q) (f q)))) (name p)).getD "initial".toList =
      declared gs p := by
  rw [FontShorthand.get_texts]
  generalize hM : (allParts.flatMap fun q => found (name q) (f q)) = M
  have hget : ∀ q, Dict.get? M (name q) = f q := by intro q; rw [← hM, get_parts]
  have ho : Dict.get? M "mask-origin".toList = f .origin := hget .origin
  have hcl : Dict.get? M "mask-clip".toList = f .clip := hget .clip
  have other : ∀ q, q ≠ .origin → q ≠ .clip → ((f q).map valueText).getD "initial".toList = declared gs q := by
    intro q hq1 hq2
    rw [got_value kind gs hg q _ (h1 q hq1 hq2)]
    cases q <;> first | rfl | exact absurd rfl hq2
  have setget : ∀ (m : Dict Str (List Tok)) (q r : Part) (x : List Tok),
      Dict.get? (Dict.set m (name q) x) (name r) = if r = q then some x else Dict.get? m (name r) := by
    intro m q r x
    rw [Dict.get?_set]
    by_cases hrq : r = q
    · subst hrq; simp
    · have : name r ≠ name q := fun he => hrq (name_inj r q he)
      simp [hrq, this, Ne.symm this]
  rcases h2 with ⟨g1, g2⟩ | ⟨a, b, w1, w2, m1, m2, hw1, hw2, e1, e2⟩
  · rcases g1 with ⟨n1, e1⟩ | ⟨g, w, m1, hw, e1⟩
    · have hb : boxes M = M := by unfold boxes; rw [ho, e1]
      rw [hb, hget]
      by_cases hp : p = .origin
      · subst hp
        rw [e1]
        show _ = (value gs .origin).getD _
        rw [(value_none gs _).2 n1]
        rfl
      · by_cases hp2 : p = .clip
        · subst hp2
          rw [got_value kind gs hg _ _ g2]
          show _ = ((value gs .clip).or (value gs .origin)).getD _
          rw [(value_none gs .origin).2 n1]
          simp
        · exact other p hp hp2
    · obtain ⟨a, rfl, ha⟩ := single kind _ g (hg.groups _ m1) (Or.inl rfl)
      have hao := word_ordinary kind _ a ha
      have hbox : (spaced [a] ++ w).filter notSpace = [a] := by
        show (a :: w).filter notSpace = [a]
        rw [List.filter_cons_of_pos (notSpace_word a hao), filter_spaces w hw]
      have hvo : value gs .origin = some a.text := value_mem gs hg.once _ _ m1
      have hto : valueText (spaced [a] ++ w) = a.text := group_text kind _ [a] w (hg.groups _ m1) hw
      rcases g2 with ⟨n2, e2⟩ | ⟨g', w', m2, hw', e2⟩
      · have hb : boxes M = Dict.set M (name .clip) [a] := by
          unfold boxes
          rw [ho, e1, hcl, e2]
          simp only [hbox]
          rfl
        rw [hb, setget]
        by_cases hp : p = .clip
        · subst hp
          rw [if_pos rfl]
          show _ = ((value gs .clip).or (value gs .origin)).getD _
          rw [(value_none gs .clip).2 n2, hvo]
          simp [word_text a hao]
        · rw [if_neg hp, hget]
          by_cases hp2 : p = .origin
          · subst hp2
            rw [e1]
            show _ = (value gs .origin).getD _
            rw [hvo, Option.map_some, hto]
          · exact other p hp2 hp
      · have hb : boxes M = M := by
          unfold boxes
          rw [ho, e1, hcl, e2]
          simp only [hbox]
        rw [hb, hget]
        by_cases hp : p = .clip
        · subst hp
          rw [got_value kind gs hg .clip _ (Or.inr ⟨g', w', m2, hw', e2⟩)]
          show _ = ((value gs .clip).or (value gs .origin)).getD _
          rw [value_mem gs hg.once _ _ m2]
          rfl
        · by_cases hp2 : p = .origin
          · subst hp2
            rw [e1]
            show _ = (value gs .origin).getD _
            rw [hvo, Option.map_some, hto]
          · exact other p hp2 hp
  · have hao : Ordinary a := word_ordinary kind _ a ((hg.groups _ m1).2.1 a (by simp))
    have hbo : Ordinary b := word_ordinary kind _ b ((hg.groups _ m2).2.1 b (by simp))
    have hbox : (a :: w1 ++ b :: w2).filter notSpace = [a, b] := by
      rw [List.filter_append, List.filter_cons_of_pos (notSpace_word a hao), filter_spaces w1 hw1,
        List.filter_cons_of_pos (notSpace_word b hbo), filter_spaces w2 hw2]
      rfl
    have hb : boxes M = Dict.set (Dict.set M (name .origin) [a]) (name .clip) [b] := by
      unfold boxes
      rw [ho, e1, hcl, e2]
      simp only [hbox]
      rfl
    rw [hb, setget, setget]
    by_cases hp : p = .clip
    · subst hp
      rw [if_pos rfl]
      show _ = ((value gs .clip).or (value gs .origin)).getD _
      rw [value_mem gs hg.once _ _ m2]
      simp [word_text b hbo, sentence]
    · rw [if_neg hp]
      by_cases hp2 : p = .origin
      · subst hp2
        rw [if_pos rfl]
        show _ = (value gs .origin).getD _
        rw [value_mem gs hg.once _ _ m1]
        simp [word_text a hao, sentence]
      · rw [if_neg hp2, hget]
        exact other p hp2 hp

/-! ### Declarations -/

theorem longhands_names : longhands = allParts.map name := rfl

theorem name_mem (p : Part) : name p ∈ longhands := by cases p <;> decide

theorem mem_name (n : Str) (h : n ∈ longhands) : ∃ p, n = name p := by
  rw [longhands_names] at h
  obtain ⟨p, -, rfl⟩ := List.mem_map.1 h
  exact ⟨p, rfl⟩

theorem get_fill (v : Str) (m : List (Str × Str)) (n : Str) (h : n ∈ longhands) :
    Dict.get? (fillWith v m) n = some ((Dict.get? m n).getD v) := by
  unfold fillWith
  rw [Dict.get?_append, MaskBorder.get_map_const]
  cases hm : Dict.get? m n with
  | some x => rfl
  | none =>
    have : Dict.contains m n = false := by
      by_contra hc
      rw [Bool.not_eq_false, Dict.contains_iff] at hc
      exact (Dict.get?_eq_none_iff m n).1 hm hc
    simp [h, this]

theorem keys_fill (v : Str) (m : List (Str × Str)) :
    Dict.keys (fillWith v m) = Dict.keys m ++ longhands.filter (fun n => !(Dict.contains m n)) := by
  unfold fillWith Dict.keys
  rw [List.map_append, List.map_map]
  congr 1
  have : (Prod.fst ∘ fun n => (n, v)) = (id : Str → Str) := rfl
  rw [this, List.map_id]

theorem nodup_fill (v : Str) (m : List (Str × Str)) (h : (Dict.keys m).Nodup) : (Dict.keys (fillWith v m)).Nodup := by
  rw [keys_fill]
  refine List.Nodup.append h ((by decide : longhands.Nodup).filter _) ?_
  intro x h1 h2
  have := (List.mem_filter.1 h2).2
  rw [(Dict.contains_iff m x).2 h1] at this
  simp at this

theorem mem_fill (v : Str) (m : List (Str × Str)) (h : ∀ n ∈ Dict.keys m, n ∈ longhands) (n : Str) :
    n ∈ Dict.keys (fillWith v m) ↔ n ∈ longhands := by
  rw [keys_fill, List.mem_append, List.mem_filter]
  constructor
  · rintro (h1 | h1)
    exacts [h n h1, h1.1]
  · intro h1
    by_cases h2 : n ∈ Dict.keys m
    · exact Or.inl h2
    · refine Or.inr ⟨h1, ?_⟩
      have : Dict.contains m n = false := by
        rw [Bool.eq_false_iff]
        exact fun hc => h2 ((Dict.contains_iff m n).1 hc)
      simp [this]

/-- The keys of longhands that were found. -/
def Fine (m : Dict Str (List Tok)) : Prop := (Dict.keys m).Nodup ∧ ∀ n ∈ Dict.keys m, n ∈ longhands

theorem fine_set (m : Dict Str (List Tok)) (h : Fine m) (k : Str) (hk : k ∈ longhands) (x : List Tok) :
    Fine (Dict.set m k x) := by
  refine ⟨Dict.nodup_set _ _ _ h.1, ?_⟩
  intro n hn
  rw [Dict.keys_set] at hn
  split at hn
  · exact h.2 n hn
  · rcases List.mem_append.1 hn with hn | hn
    · exact h.2 n hn
    · rw [List.mem_singleton] at hn
      rw [hn]; exact hk

theorem fine_del (m : Dict Str (List Tok)) (h : Fine m) (k : Str) : Fine (Dict.del m k) := by
  refine ⟨Dict.nodup_del _ _ h.1, ?_⟩
  intro n hn
  apply h.2
  by_contra hc
  apply (Dict.get?_eq_none_iff (Dict.del m k) n).1 _ hn
  rw [Dict.get?_del _ _ _ h.1, (Dict.get?_eq_none_iff m n).2 hc]
  simp

theorem fine_boxes (m : Dict Str (List Tok)) (h : Fine m) : Fine (boxes m) := by
  have h1 : "mask-clip".toList ∈ longhands := name_mem .clip
  have h2 : "mask-origin".toList ∈ longhands := name_mem .origin
  unfold boxes
  split
  · exact h
  · simp only
    split
    · exact fine_set m h _ h1 _
    · exact fine_set _ (fine_set m h _ h2 _) _ h1 _
    · exact fine_del m h _
    · exact h

theorem fine_found (f : Part → Option (List Tok)) : Fine (allParts.flatMap fun q => found (name q) (f q)) := by
  have key : ∀ ps : List Part, Dict.keys (ps.flatMap fun q => found (name q) (f q)) =
      (ps.filter (fun q => (f q).isSome)).map name := by
    intro ps
    induction ps with
    | nil => rfl
    | cons q ps ih =>
      rw [List.flatMap_cons]
      cases hf : f q with
      | none => simpa [found, hf, List.filter_cons] using ih
      | some v =>
        rw [List.filter_cons_of_pos (by simp [hf]), List.map_cons, ← ih]
        rfl
  refine ⟨?_, ?_⟩
  · rw [key]
    exact (by decide : (allParts.map name).Nodup).sublist (List.filter_sublist.map _)
  · intro n hn
    rw [key] at hn
    obtain ⟨q, -, rfl⟩ := List.mem_map.1 hn
    exact name_mem q

/-- The declarations that are added. -/
def Adds (m : List (Str × Str)) : Prop := (Dict.keys m).Nodup ∧ ∀ n, n ∈ Dict.keys m ↔ n ∈ longhands

theorem adds_fill (v : Str) (m : List (Str × Str)) (h1 : (Dict.keys m).Nodup) (h2 : ∀ n ∈ Dict.keys m, n ∈ longhands) :
    Adds (fillWith v m) := ⟨nodup_fill v m h1, mem_fill v m h2⟩

theorem adds_order (d : Decls) (hd : (Dict.keys d).Nodup) (p : Str) (m : List (Str × Str)) (hm : Adds m) :
    inOrder (setAll d p m) = true := by
  have hk := FontShorthand.keys_setAll d hd p m hm.1
  generalize hA : (Dict.keys d).filter (fun k => k ∉ Dict.keys m) = A at hk
  have hAm : ∀ n ∈ longhands, n ∉ A := by
    intro n hn h
    rw [← hA, List.mem_filter] at h
    simpa [(hm.2 n).2 hn] using h.2
  have hidx : ∀ n ∈ longhands, A.length ≤ (Dict.keys (setAll d p m)).idxOf n := by
    intro n hn
    rw [hk, List.idxOf_append_of_notMem (hAm n hn)]
    omega
  unfold inOrder
  simp only [Bool.and_eq_true, List.all_eq_true]
  constructor
  · intro n hn
    rw [hk]
    simp [(hm.2 n).2 hn]
  · intro n hn
    by_cases hc : n ∈ Dict.keys (setAll d p m)
    · have hnl : n ∉ longhands := by
        have : ∀ n ∈ borderLonghands, n ∉ longhands := by decide
        exact this n hn
      have hnA : n ∈ A := by
        rw [hk, List.mem_append] at hc
        exact hc.resolve_right (fun h => hnl ((hm.2 n).1 h))
      have hlt : (Dict.keys (setAll d p m)).idxOf n < A.length := by
        rw [hk, List.idxOf_append_of_mem hnA]
        exact List.idxOf_lt_length_iff.2 hnA
      obtain ⟨hmax, hmin⟩ := MaskBorder.bounds A.length (longhands.map fun n => (Dict.keys (setAll d p m)).idxOf n)
        (by rw [longhands_names]; exact List.cons_ne_nil _ _)
        (fun x hx => by obtain ⟨n, hn, rfl⟩ := List.mem_map.1 hx; exact hidx n hn)
      generalize hI : (longhands.map fun n => (Dict.keys (setAll d p m)).idxOf n) = idx at hmax hmin
      generalize idx.foldl max 0 = hi at hmax hmin
      generalize idx.foldl min hi = lo at hmin
      have e1 : ¬ lo < (Dict.keys (setAll d p m)).idxOf n := by omega
      have e2 : ¬ hi < (Dict.keys (setAll d p m)).idxOf n := by omega
      simp [e1, e2]
    · simp [hc]

/-! ### Setting -/

theorem set_full (kind : Str → Kind) (d : Decls) (hd : (Dict.keys d).Nodup) (gs : List (Part × List Tok))
    (hg : Good kind gs) (l : List Tok) (hl : Layout gs l) (pr : Str) :
    ∃ d', maskSet kind d l pr = some d' ∧ (∀ q, Dict.get? d' (name q) = some (declared gs q, pr)) ∧
      (∀ n, (∀ q, n ≠ name q) → Dict.get? d' n = Dict.get? d n) ∧ inOrder d' = true := by
  obtain ⟨f, hp, h1, h2⟩ := parse_spec kind gs hg l hl
  have hdecl := boxes_spec kind gs hg f h1 h2
  have hfine := fine_boxes _ (fine_found f)
  generalize hm : texts (boxes (allParts.flatMap fun q => found (name q) (f q))) = m at hdecl
  have hadds : Adds (fillWith "initial".toList m) := by
    apply adds_fill
    · rw [← hm, FontShorthand.keys_texts]; exact hfine.1
    · rw [← hm, FontShorthand.keys_texts]; exact hfine.2
  have hset : maskSet kind d l pr = some (setAll d pr (fillWith "initial".toList m)) := by
    unfold maskSet
    rw [hp, ← hm]
    rfl
  refine ⟨_, hset, ?_, ?_, adds_order d hd pr _ hadds⟩
  · intro q
    rw [FontShorthand.get_setAll d hd pr _ hadds.1, get_fill _ _ _ (name_mem q), hdecl q]
  · intro n hn
    rw [FontShorthand.get_setAll d hd pr _ hadds.1]
    have : Dict.get? (fillWith "initial".toList m) n = none := by
      rw [Dict.get?_eq_none_iff, hadds.2]
      intro h
      obtain ⟨q, rfl⟩ := mem_name n h
      exact hn q rfl
    rw [this]

/-- **C128** (setting).  A value that gives the parts in any order, each at most once, the size behind a solidus after the
position and the box for clipping after that for the origin, gives each longhand its part and `initial` to the others; one box
is for both; other properties stay. -/
theorem set_spec (kind : Str → Kind) (d : Decls) (hd : (Dict.keys d).Nodup) (gs : List (Part × List Tok))
    (hg : Good kind gs) (l : List Tok) (hl : Layout gs l) (pr : Str) :
    ∃ d', maskSet kind d l pr = some d' ∧ (∀ q, Dict.get? d' (name q) = some (declared gs q, pr)) ∧
      (∀ n, (∀ q, n ≠ name q) → Dict.get? d' n = Dict.get? d n) := by
  obtain ⟨d', h1, h2, h3, -⟩ := set_full kind d hd gs hg l hl pr
  exact ⟨d', h1, h2, h3⟩

/-- **C128** (order).  Two values with the same parts, in whatever order and with whatever white space, declare the same. -/
theorem set_order (kind : Str → Kind) (d : Decls) (hd : (Dict.keys d).Nodup) (gs gs' : List (Part × List Tok))
    (hp : gs.Perm gs') (hg : Good kind gs) (hg' : Good kind gs') (l l' : List Tok) (hl : Layout gs l) (hl' : Layout gs' l')
    (pr : Str) : ∃ d1 d2, maskSet kind d l pr = some d1 ∧ maskSet kind d l' pr = some d2 ∧
      ∀ n, Dict.get? d1 n = Dict.get? d2 n := by
  have hval : ∀ q, value gs q = value gs' q := by
    intro q
    by_cases h : q ∈ gs.map (·.1)
    · obtain ⟨⟨q', g⟩, hm, rfl⟩ := List.mem_map.1 h
      rw [value_mem gs hg.once _ g hm, value_mem gs' hg'.once _ g (hp.mem_iff.1 hm)]
    · rw [(value_none gs q).2 h, (value_none gs' q).2 (fun h' => h ((hp.map _).mem_iff.2 h'))]
  have hdec : ∀ q, declared gs q = declared gs' q := by
    intro q
    cases q <;> simp only [declared, hval]
  obtain ⟨d1, h1, h2, h3⟩ := set_spec kind d hd gs hg l hl pr
  obtain ⟨d2, k1, k2, k3⟩ := set_spec kind d hd gs' hg' l' hl' pr
  refine ⟨d1, d2, h1, k1, fun n => ?_⟩
  by_cases hn : ∃ q, n = name q
  · obtain ⟨q, rfl⟩ := hn
    rw [h2, k2, hdec]
  · rw [h3 n (fun q he => hn ⟨q, he⟩), k3 n (fun q he => hn ⟨q, he⟩)]

/-! ### Reading -/

theorem value_facts (kind : Str → Kind) (gs : List (Part × List Tok)) (hg : ∀ g ∈ gs, IsGroup kind g.1 g.2) (q : Part)
    (v : Str) (h : value gs q = some v) : v ≠ [] ∧ v ∉ wideKeywords := by
  unfold value at h
  rw [Option.map_eq_some_iff] at h
  obtain ⟨g, hf, rfl⟩ := h
  obtain ⟨hne, hw, -⟩ := hg g (List.mem_of_find?_eq_some hf)
  have ho : ∀ t ∈ g.2, Ordinary t := fun t ht => word_ordinary kind _ t (hw t ht)
  exact ⟨(Components.sentence_ends g.2 hne ho).1, MaskBorder.sentence_not_wide g.2 hne ho⟩

/-- A longhand is `initial` or no CSS-wide keyword. -/
theorem declared_facts (kind : Str → Kind) (gs : List (Part × List Tok)) (hg : ∀ g ∈ gs, IsGroup kind g.1 g.2) (q : Part) :
    declared gs q ≠ [] ∧ (declared gs q = "initial".toList ∨ declared gs q ∉ wideKeywords) := by
  have key : ∀ o : Option Str, (∀ v, o = some v → v ≠ [] ∧ v ∉ wideKeywords) →
      o.getD "initial".toList ≠ [] ∧ (o.getD "initial".toList = "initial".toList ∨ o.getD "initial".toList ∉ wideKeywords) := by
    intro o ho
    cases o with
    | none => exact ⟨by decide, Or.inl rfl⟩
    | some v => exact ⟨(ho v rfl).1, Or.inr (ho v rfl).2⟩
  cases q <;> simp only [declared] <;> apply key <;> intro v hv
  case clip =>
    rw [Option.or_eq_some_iff] at hv
    rcases hv with hv | ⟨-, hv⟩ <;> exact value_facts kind gs hg _ v hv
  all_goals exact value_facts kind gs hg _ v hv

theorem collect_all (supports : Str → Str → Bool) (d : Decls) (ps : List Part) (v : Part → Str) (pr : Str)
    (h : ∀ q, Dict.get? d (name q) = some (v q, pr)) (hs : ∀ q, v q ≠ [] ∧ supports (name q) (v q) = true) :
    Shorthand.collect supports d (ps.map name) = some (ps.map fun q => (name q, (v q, pr))) := by
  induction ps with
  | nil => rfl
  | cons q ps ih =>
    rw [List.map_cons, Shorthand.collect, h q]
    simp only
    rw [if_neg (by simp [(hs q).1, (hs q).2]), ih]
    rfl

theorem get_names (v : Part → Str) (q : Part) : Dict.get? (allParts.map fun q => (name q, v q)) (name q) = some (v q) := by
  have : ∀ ps : List Part, q ∈ ps → Dict.get? (ps.map fun q => (name q, v q)) (name q) = some (v q) := by
    intro ps
    induction ps with
    | nil => intro h; simp at h
    | cons p ps ih =>
      intro h
      rw [List.map_cons, Dict.get?]
      by_cases hp : name p = name q
      · rw [if_pos hp, name_inj _ _ hp]
      · rw [if_neg hp]
        exact ih ((List.mem_cons.1 h).resolve_left (fun he => hp (by rw [he])))
  exact this _ (by cases q <;> decide)

/-- How the longhands are written. -/
def render (v : Part → Str) : Str :=
  if ([v .image, v .position, v .size, v .rep, v .origin, v .clip, v .composite, v .mode].all fun x => wideKeywords.contains x) &&
      ([v .image, v .position, v .size, v .rep, v .origin, v .clip, v .composite, v .mode].all fun x => x == v .image) then v .image
  else if [v .image, v .position, v .size, v .rep, v .origin, v .clip, v .composite, v .mode].any
      fun x => wideKeywords.contains x && x != "initial".toList then []
  else if v .position = "initial".toList ∧ v .size ≠ "initial".toList then []
  else join [' '] (written false (v .image) ++ written false (v .position) ++ written true (v .size) ++ written false (v .rep) ++
        written false (v .origin) ++ (if v .origin = v .clip then [] else written false (v .clip)) ++
        written false (v .composite) ++ written false (v .mode))

theorem get_full (supports : Str → Str → Bool) (d : Decls) (v : Part → Str) (pr : Str)
    (h : ∀ q, Dict.get? d (name q) = some (v q, pr)) (hs : ∀ q, v q ≠ [] ∧ supports (name q) (v q) = true)
    (ho : inOrder d = true) : maskGet supports d = render v := by
  unfold maskGet Shorthand.getValue
  rw [longhands_names, collect_all supports d allParts v pr h hs]
  have ha : agree ((allParts.map fun q => (name q, (v q, pr))).map fun x => x.2.2) = true := by
    simp [allParts, agree]
  simp only [ha, if_true]
  have hm : ((allParts.map fun q => (name q, (v q, pr))).map fun x => (x.1, x.2.1)) =
      allParts.map fun q => (name q, v q) := by
    rw [List.map_map]; rfl
  rw [hm]
  unfold maskToString
  rw [ho, longhands_names]
  have hl : (allParts.map name).map (Dict.get? (allParts.map fun q => (name q, v q))) =
      [some (v .image), some (v .position), some (v .size), some (v .rep), some (v .origin), some (v .clip),
        some (v .composite), some (v .mode)] := by
    rw [List.map_map]
    have : (Dict.get? (allParts.map fun q => (name q, v q))) ∘ name = fun q => some (v q) := by
      funext q
      exact get_names v q
    rw [this]
    rfl
  rw [hl]
  rfl

theorem text_lead (p : Part) (s : Str) : (lead p [.ws [' ']]).flatMap Tok.text ++ s =
    if p = .size then '/' :: ' ' :: s else s := by
  unfold lead
  split <;> simp [Tok.text]

/-- The words of a part in the text. -/
def pieces (g : Part × List Tok) : List Str := if g.1 = .size then [['/'], sentence g.2] else [sentence g.2]

theorem text_tokens (gs : List (Part × List Tok)) : (tokens gs).flatMap Tok.text = join [' '] (gs.flatMap pieces) := by
  induction gs with
  | nil => rfl
  | cons x gs ih =>
    obtain ⟨p, g⟩ := x
    cases gs with
    | nil =>
      simp only [tokens, List.flatMap_append, FontShorthand.text_spaced, text_lead, List.flatMap_cons, List.flatMap_nil,
        List.append_nil, pieces]
      split <;> simp [join]
    | cons y gs =>
      have he : tokens ((p, g) :: y :: gs) = lead p [.ws [' ']] ++ (spaced g ++ .ws [' '] :: tokens (y :: gs)) := rfl
      have hj : ∀ (a : Str) (b : List Str), b ≠ [] → join [' '] (a :: b) = a ++ ' ' :: join [' '] b := by
        intro a b hb
        cases b with
        | nil => exact absurd rfl hb
        | cons c b => simp [join]
      have hne : ((y :: gs).flatMap pieces) ≠ [] := by
        rw [List.flatMap_cons, pieces]
        split <;> simp
      rw [he, List.flatMap_append, text_lead, List.flatMap_append, FontShorthand.text_spaced,
        List.flatMap_cons (x := Tok.ws [' ']), ih, List.flatMap_cons (x := (p, g)), pieces]
      simp only
      split
      · rw [List.cons_append, List.cons_append, List.nil_append, hj _ _ (by simp), hj _ _ hne]
        simp [Tok.text]
      · rw [List.cons_append, List.nil_append, hj _ _ hne]
        simp [Tok.text]

/-- The pieces of a part that may be missing. -/
def shownBy {β γ : Type} (g : β → List γ) : Option β → List γ
  | none => []
  | some b => g b

theorem shown_some {β γ : Type} (g : β → List γ) (b : β) : shownBy g (some b) = g b := rfl

theorem flat_filterMap {α β γ : Type} (f : α → Option β) (g : β → List γ) (l : List α) :
    (l.filterMap f).flatMap g = l.flatMap fun a => shownBy g (f a) := by
  induction l with
  | nil => rfl
  | cons a l ih =>
    rw [List.flatMap_cons, ← ih]
    cases h : f a with
    | none => rw [List.filterMap_cons_none h]; rfl
    | some b => rw [List.filterMap_cons_some h, List.flatMap_cons]; rfl

theorem find_part (gs : List (Part × List Tok)) (p : Part) (x : Part × List Tok)
    (h : gs.find? (fun g => g.1 = p) = some x) : x.1 = p := by
  simpa using List.find?_some h

/-- The choice of a part for the text. -/
def pick (gs : List (Part × List Tok)) (p : Part) : Option (Part × List Tok) :=
  if p = .clip ∧ value gs .clip = value gs .origin then none else gs.find? (fun g => g.1 = p)

theorem inLine_pick (gs : List (Part × List Tok)) : inLine gs = allParts.filterMap (pick gs) := rfl

theorem pick_written (kind : Str → Kind) (gs : List (Part × List Tok)) (hg : ∀ g ∈ gs, IsGroup kind g.1 g.2) (p : Part)
    (hp : p ≠ .clip) : shownBy pieces (pick gs p) =
      written (decide (p = .size)) (declared gs p) := by
  have e : declared gs p = (value gs p).getD "initial".toList := by cases p <;> first | rfl | exact absurd rfl hp
  unfold pick
  rw [if_neg (by simp [hp]), e]
  unfold value
  cases hf : gs.find? (fun g => g.1 = p) with
  | none => simp [written, shownBy]
  | some x =>
    have hx := find_part gs p x hf
    have hv : value gs p = some (sentence x.2) := by unfold value; rw [hf]; rfl
    have : sentence x.2 ≠ "initial".toList := fun he => (value_facts kind gs hg p _ hv).2 (by rw [he]; decide)
    simp only [Option.map_some, Option.getD_some, shown_some, written, if_neg this, pieces, hx]
    by_cases h : p = .size <;> simp [h]

theorem pick_clip (kind : Str → Kind) (gs : List (Part × List Tok)) (hg : ∀ g ∈ gs, IsGroup kind g.1 g.2) :
    shownBy pieces (pick gs .clip) =
      if declared gs .origin = declared gs .clip then [] else written false (declared gs .clip) := by
  have eo : declared gs .origin = (value gs .origin).getD "initial".toList := rfl
  have ec : declared gs .clip = ((value gs .clip).or (value gs .origin)).getD "initial".toList := rfl
  cases hc : value gs .clip with
  | none =>
    have hf : gs.find? (fun g => g.1 = Part.clip) = none := by
      unfold value at hc
      rwa [Option.map_eq_none_iff] at hc
    have : pick gs .clip = none := by unfold pick; rw [hf]; split <;> rfl
    rw [this, eo, ec, hc]
    simp [shownBy]
  | some c =>
    have hci : c ≠ "initial".toList := fun he => (value_facts kind gs hg _ _ hc).2 (by rw [he]; decide)
    have hdc : declared gs .clip = c := by rw [ec, hc]; rfl
    rw [hdc]
    cases ho : value gs .origin with
    | none =>
      have hdo : declared gs .origin = "initial".toList := by rw [eo, ho]; rfl
      rw [hdo, if_neg (Ne.symm hci)]
      unfold pick
      rw [if_neg (by simp [hc, ho])]
      unfold value at hc
      rw [Option.map_eq_some_iff] at hc
      obtain ⟨x, hx, rfl⟩ := hc
      rw [hx]
      have := find_part gs _ x hx
      rw [shown_some, pieces, written, if_neg (by rw [this]; decide), if_neg hci]
      rfl
    | some o =>
      have hdo : declared gs .origin = o := by rw [eo, ho]; rfl
      rw [hdo]
      by_cases hoc : o = c
      · rw [if_pos hoc]
        unfold pick
        rw [if_pos ⟨rfl, by rw [hc, ho, hoc]⟩]
        rfl
      · rw [if_neg hoc]
        unfold pick
        rw [if_neg (by rw [hc, ho]; simpa using Ne.symm hoc)]
        unfold value at hc
        rw [Option.map_eq_some_iff] at hc
        obtain ⟨x, hx, rfl⟩ := hc
        rw [hx]
        have := find_part gs _ x hx
        rw [shown_some, pieces, written, if_neg (by rw [this]; decide), if_neg hci]
        rfl

theorem size_position (kind : Str → Kind) (gs : List (Part × List Tok)) (hg : Good kind gs)
    (h : Part.size ∈ gs.map (·.1)) : Part.position ∈ gs.map (·.1) := by
  obtain ⟨⟨q, g⟩, hm, hq⟩ := List.mem_map.1 h
  simp only at hq
  subst hq
  obtain ⟨a, b, rfl⟩ := List.append_of_mem hm
  rw [List.map_append]
  exact List.mem_append_left _ (hg.size a g b rfl)

theorem render_spec (kind : Str → Kind) (gs : List (Part × List Tok)) (hg : Good kind gs) (hne : gs ≠ []) :
    render (declared gs) = text gs := by
  have hval := fun q => (declared_facts kind gs hg.groups q).2
  have hini : ∀ q, q ∈ gs.map (·.1) → declared gs q ∉ wideKeywords := by
    intro q hq
    obtain ⟨⟨q', g⟩, hm, rfl⟩ := List.mem_map.1 hq
    have hv := value_mem gs hg.once q' g hm
    have : declared gs q' = sentence g := by cases q' <;> simp [declared, hv]
    rw [this]
    exact (value_facts kind gs hg.groups _ _ hv).2
  unfold render
  rw [if_neg, if_neg, if_neg]
  · unfold text
    rw [text_tokens, inLine_pick, flat_filterMap]
    congr 1
    simp only [allParts, List.flatMap_cons, List.flatMap_nil]
    rw [pick_written kind gs hg.groups .image (by decide), pick_written kind gs hg.groups .position (by decide),
      pick_written kind gs hg.groups .size (by decide), pick_written kind gs hg.groups .rep (by decide),
      pick_written kind gs hg.groups .origin (by decide), pick_clip kind gs hg.groups,
      pick_written kind gs hg.groups .composite (by decide), pick_written kind gs hg.groups .mode (by decide)]
    simp [List.append_assoc]
  · rintro ⟨h1, h2⟩
    by_cases hz : Part.size ∈ gs.map (·.1)
    · exact hini _ (size_position kind gs hg hz) (by rw [h1]; decide)
    · apply h2
      show (value gs .size).getD _ = _
      rw [(value_none gs _).2 hz]
      rfl
  · rw [Bool.not_eq_true, List.any_eq_false]
    intro x hx
    have : ∃ q, x = declared gs q := by
      simp only [List.mem_cons, List.not_mem_nil, or_false] at hx
      rcases hx with rfl | rfl | rfl | rfl | rfl | rfl | rfl | rfl <;> exact ⟨_, rfl⟩
    obtain ⟨q, rfl⟩ := this
    rcases hval q with h | h
    · rw [h]; decide
    · simp [h]
  · intro h
    obtain ⟨g, hgm⟩ := List.exists_mem_of_ne_nil gs hne
    have h1 := hini g.1 (List.mem_map.2 ⟨g, hgm, rfl⟩)
    simp only [Bool.and_eq_true, List.all_eq_true] at h
    have := h.1 (declared gs g.1) (by cases g.1 <;> simp)
    exact h1 (by simpa using this)

/-- **C128** (reading).  What was set is read as one text: the parts that were given, in the order of the longhands, the size
behind a solidus, and equal boxes once. -/
theorem get_spec (kind : Str → Kind) (supports : Str → Str → Bool) (d : Decls) (hd : (Dict.keys d).Nodup)
    (gs : List (Part × List Tok)) (hg : Good kind gs) (hne : gs ≠ []) (l : List Tok) (hl : Layout gs l) (pr : Str)
    (hs : ∀ q, supports (name q) (declared gs q) = true) :
    ∃ d', maskSet kind d l pr = some d' ∧ maskGet supports d' = text gs := by
  obtain ⟨d', h1, h2, -, h4⟩ := set_full kind d hd gs hg l hl pr
  refine ⟨d', h1, ?_⟩
  rw [get_full supports d' (declared gs) pr h2 (fun q => ⟨(declared_facts kind gs hg.groups q).1, hs q⟩) h4,
    render_spec kind gs hg hne]

/-! ### Setting what was read -/

theorem layout_spaces (gs : List (Part × List Tok)) (w l : List Tok) (h : Layout gs l) (hw : Spaces w) : Layout gs (w ++ l) := by
  have hs : ∀ v, Spaces v → Spaces (w ++ v) := by
    intro v hv t ht
    rcases List.mem_append.1 ht with ht | ht
    exacts [hw t ht, hv t ht]
  cases h with
  | nil _ hv => exact .nil _ (hs _ hv)
  | cons p g gs v u l hv hu h =>
    have := Layout.cons p g gs (w ++ v) u l (hs v hv) hu h
    simpa [List.append_assoc] using this

theorem layout_tokens (gs : List (Part × List Tok)) : Layout gs (tokens gs) := by
  have hsp : Spaces [.ws [' ']] := by
    intro t ht
    rw [List.mem_singleton] at ht
    exact ⟨_, ht, by decide⟩
  have hnil : Spaces [] := by intro t ht; simp at ht
  induction gs with
  | nil => exact .nil [] hnil
  | cons x gs ih =>
    obtain ⟨p, g⟩ := x
    cases gs with
    | nil => simpa [tokens] using Layout.cons p g [] [] [.ws [' ']] [] hnil hsp (.nil [] hnil)
    | cons y gs =>
      have := Layout.cons p g (y :: gs) [] [.ws [' ']] _ hnil hsp (layout_spaces _ _ _ ih hsp)
      simpa [tokens] using this

theorem pick_part (gs : List (Part × List Tok)) (p : Part) (x : Part × List Tok) (h : pick gs p = some x) :
    x.1 = p ∧ x ∈ gs := by
  unfold pick at h
  split at h
  · simp at h
  · exact ⟨find_part gs p x h, List.mem_of_find?_eq_some h⟩

theorem inLine_parts (gs : List (Part × List Tok)) :
    (inLine gs).map (·.1) = allParts.filter (fun p => (pick gs p).isSome) := by
  rw [inLine_pick]
  generalize allParts = ps
  induction ps with
  | nil => rfl
  | cons p ps ih =>
    cases hf : pick gs p with
    | none => rw [List.filterMap_cons_none hf, List.filter_cons_of_neg (by simp [hf]), ih]
    | some x =>
      rw [List.filterMap_cons_some hf, List.filter_cons_of_pos (by simp [hf]), List.map_cons, ih, (pick_part gs p x hf).1]

theorem inLine_mem (gs : List (Part × List Tok)) (h : (gs.map (·.1)).Nodup) (p : Part) (g : List Tok) :
    (p, g) ∈ inLine gs ↔ (p, g) ∈ gs ∧ ¬ (p = .clip ∧ value gs .clip = value gs .origin) := by
  rw [inLine_pick, List.mem_filterMap]
  constructor
  · rintro ⟨q, -, hq⟩
    obtain ⟨h1, h2⟩ := pick_part gs q _ hq
    simp only at h1
    subst h1
    refine ⟨h2, fun hc => ?_⟩
    unfold pick at hq
    rw [if_pos hc] at hq
    simp at hq
  · rintro ⟨h1, h2⟩
    refine ⟨p, by cases p <;> decide, ?_⟩
    unfold pick
    rw [if_neg h2, find_of_mem gs h p g h1]

theorem inLine_nodup (gs : List (Part × List Tok)) : ((inLine gs).map (·.1)).Nodup := by
  rw [inLine_parts]
  exact (by decide : allParts.Nodup).filter _

theorem inLine_value (gs : List (Part × List Tok)) (h : (gs.map (·.1)).Nodup) (p : Part) :
    value (inLine gs) p = if p = .clip ∧ value gs .clip = value gs .origin then none else value gs p := by
  by_cases hp : p ∈ (inLine gs).map (·.1)
  · obtain ⟨⟨q, g⟩, hm, rfl⟩ := List.mem_map.1 hp
    obtain ⟨h1, h2⟩ := (inLine_mem gs h q g).1 hm
    rw [value_mem _ (inLine_nodup gs) q g hm, if_neg h2, value_mem gs h q g h1]
  · rw [(value_none _ p).2 hp]
    split
    · rfl
    · rename_i hc
      symm
      rw [value_none]
      intro hm
      obtain ⟨⟨q, g⟩, hm', rfl⟩ := List.mem_map.1 hm
      exact hp (List.mem_map.2 ⟨_, (inLine_mem gs h q g).2 ⟨hm', hc⟩, rfl⟩)

theorem inLine_declared (gs : List (Part × List Tok)) (h : (gs.map (·.1)).Nodup) (p : Part) :
    declared (inLine gs) p = declared gs p := by
  have ho : value (inLine gs) .origin = value gs .origin := by rw [inLine_value gs h, if_neg (by simp)]
  cases p with
  | clip =>
    simp only [declared]
    rw [ho, inLine_value gs h]
    by_cases hc : value gs .clip = value gs .origin
    · rw [if_pos ⟨rfl, hc⟩, hc]
      cases value gs .origin <;> rfl
    · rw [if_neg (by simp [hc])]
  | _ =>
    simp only [declared]
    rw [inLine_value gs h, if_neg (by simp)]

/-- In the order of the longhands, one part stands before another. -/
theorem inLine_before (gs : List (Part × List Tok)) (p q : Part) (a b : List (Part × List Tok)) (g : List Tok)
    (h : inLine gs = a ++ (q, g) :: b) (hp : p ∈ (inLine gs).map (·.1)) (hne : p ≠ q) (hs : ¬ [q, p].Sublist allParts) :
    p ∈ a.map (·.1) := by
  have hsub : ((inLine gs).map (·.1)).Sublist allParts := by rw [inLine_parts]; exact List.filter_sublist
  rw [h, List.map_append, List.map_cons] at hsub hp
  rcases List.mem_append.1 hp with hp | hp
  · exact hp
  · rcases List.mem_cons.1 hp with hp | hp
    · exact absurd hp hne
    · exfalso
      apply hs
      have h1 : [q, p].Sublist (q :: b.map (·.1)) := (List.singleton_sublist.2 hp).cons_cons q
      exact (h1.trans (List.sublist_append_right _ _)).trans hsub

theorem inLine_good (kind : Str → Kind) (gs : List (Part × List Tok)) (hg : Good kind gs) : Good kind (inLine gs) := by
  have hmem := inLine_mem gs hg.once
  have hin : ∀ p, p ≠ .clip → p ∈ gs.map (·.1) → p ∈ (inLine gs).map (·.1) := by
    intro p hp hm
    obtain ⟨⟨q, g⟩, hm', rfl⟩ := List.mem_map.1 hm
    exact List.mem_map.2 ⟨_, (hmem q g).2 ⟨hm', fun hc => hp hc.1⟩, rfl⟩
  refine ⟨inLine_nodup gs, ?_, ?_, ?_⟩
  · rintro ⟨p, g⟩ h
    exact hg.groups _ ((hmem p g).1 h).1
  · intro a g b h
    have hz : (Part.size, g) ∈ gs := ((hmem _ _).1 (by rw [h]; simp)).1
    exact inLine_before gs .position .size a b g h
      (hin _ (by decide) (size_position kind gs hg (List.mem_map.2 ⟨_, hz, rfl⟩))) (by decide) (by decide)
  · intro a g b h
    have hz : (Part.clip, g) ∈ gs := ((hmem _ _).1 (by rw [h]; simp)).1
    obtain ⟨a', b', hab⟩ := List.append_of_mem hz
    rcases hg.clip a' g b' hab with h1 | h1
    · exact Or.inl h1
    · refine Or.inr (inLine_before gs .origin .clip a b g h (hin _ (by decide) ?_) (by decide) (by decide))
      rw [hab, List.map_append]
      exact List.mem_append_left _ h1

/-- **C128** (round trip).  Setting the text that was read gives every longhand its value again, in any block. -/
theorem round_trip (kind : Str → Kind) (supports : Str → Str → Bool) (d : Decls) (hd : (Dict.keys d).Nodup)
    (gs : List (Part × List Tok)) (hg : Good kind gs) (hne : gs ≠ []) (l : List Tok) (hl : Layout gs l) (pr : Str)
    (hs : ∀ q, supports (name q) (declared gs q) = true) (d2 : Decls) (hd2 : (Dict.keys d2).Nodup) (pr2 : Str) :
    ∃ d' d3 l2, maskSet kind d l pr = some d' ∧ l2.flatMap Tok.text = maskGet supports d' ∧
      maskSet kind d2 l2 pr2 = some d3 ∧
      ∀ q, (Dict.get? d3 (name q)).map Prod.fst = (Dict.get? d' (name q)).map Prod.fst ∧
        (Dict.get? d3 (name q)).isSome = true := by
  obtain ⟨d', h1, h2, -, h4⟩ := set_full kind d hd gs hg l hl pr
  obtain ⟨d'', h1', h5⟩ := get_spec kind supports d hd gs hg hne l hl pr hs
  rw [h1, Option.some.injEq] at h1'
  subst h1'
  obtain ⟨d3, k1, k2, -⟩ := set_full kind d2 hd2 (inLine gs) (inLine_good kind gs hg) _ (layout_tokens _) pr2
  refine ⟨d', d3, tokens (inLine gs), h1, h5.symm, k1, fun q => ?_⟩
  rw [h2, k2, inLine_declared gs hg.once]
  exact ⟨rfl, rfl⟩

/-! ### Any value -/

theorem fine_parse (ds : List (Str × Desc)) (l : List Tok) : (Dict.keys (parseAll ds l).1).Sublist (ds.map (·.1)) := by
  induction ds generalizing l with
  | nil => exact List.nil_sublist _
  | cons x ds ih =>
    obtain ⟨n, d⟩ := x
    rw [parseAll]
    simp only
    rw [FontShorthand.keys_append]
    cases (parseList d none l).found with
    | none => exact (ih _).trans (List.sublist_cons_self _ _)
    | some v => exact (ih _).cons_cons n

/-- **C128** (any value).  Whatever is set, either nothing is changed or all longhands are declared, with this priority, and
other properties stay. -/
theorem set_all (kind : Str → Kind) (d : Decls) (hd : (Dict.keys d).Nodup) (l : List Tok) (pr : Str) (d' : Decls)
    (h : maskSet kind d l pr = some d') :
    (∀ q, ∃ v, Dict.get? d' (name q) = some (v, pr)) ∧ (∀ n, (∀ q, n ≠ name q) → Dict.get? d' n = Dict.get? d n) := by
  have key : ∀ v (m : List (Str × Str)), (Dict.keys m).Nodup → (∀ n ∈ Dict.keys m, n ∈ longhands) →
      (∀ q, ∃ x, Dict.get? (setAll d pr (fillWith v m)) (name q) = some (x, pr)) ∧
      (∀ n, (∀ q, n ≠ name q) → Dict.get? (setAll d pr (fillWith v m)) n = Dict.get? d n) := by
    intro v m h1 h2
    have hadds := adds_fill v m h1 h2
    constructor
    · intro q
      rw [FontShorthand.get_setAll d hd pr _ hadds.1, get_fill _ _ _ (name_mem q)]
      exact ⟨_, rfl⟩
    · intro n hn
      rw [FontShorthand.get_setAll d hd pr _ hadds.1]
      have : Dict.get? (fillWith v m) n = none := by
        rw [Dict.get?_eq_none_iff, hadds.2]
        intro h
        obtain ⟨q, rfl⟩ := mem_name n h
        exact hn q rfl
      rw [this]
  have hfine : Fine (boxes (parseAll (descs kind) l).1) := by
    apply fine_boxes
    have hs := fine_parse (descs kind) l
    have e : (descs kind).map (·.1) = longhands := rfl
    rw [e] at hs
    exact ⟨(by decide : longhands.Nodup).sublist hs, fun n hn => hs.subset hn⟩
  unfold maskSet at h
  simp only at h
  split at h
  · simp at h
  · split at h
    · rw [Option.some.injEq] at h
      subst h
      exact key _ [] List.nodup_nil (by intro n hn; simp [Dict.keys] at hn)
    · rw [Option.some.injEq] at h
      subst h
      refine key _ _ ?_ ?_
      · rw [FontShorthand.keys_texts]; exact hfine.1
      · rw [FontShorthand.keys_texts]; exact hfine.2

/-! ### CSS-wide keywords -/

theorem wide_mem (k : Str) (h : Wide k) : k ∈ wideKeywords ∧ k ≠ [] := by
  cases h <;> exact ⟨by decide, by decide⟩

theorem wide_step (d : Desc) (t k : Str) (hk : Wide k) (tg : Option (List Tok)) (l : List Tok) :
    parseList d tg (.ident t k :: l) = (parseList d tg l).wide k := by
  have : wideOf (.ident t k) = some k := if_pos (wide_mem k hk).1
  rw [parseList]
  · simp only [this]
  · simp

/-- **C128** (CSS-wide keywords).  A CSS-wide keyword in any letter case is given to all longhands and is read back. -/
theorem wide_spec (kind : Str → Kind) (supports : Str → Str → Bool) (d : Decls) (hd : (Dict.keys d).Nodup) (t k pr : Str)
    (hk : Wide k) (hs : ∀ q, supports (name q) k = true) :
    ∃ d', maskSet kind d [.ident t k] pr = some d' ∧ (∀ q, Dict.get? d' (name q) = some (k, pr)) ∧
      (∀ n, (∀ q, n ≠ name q) → Dict.get? d' n = Dict.get? d n) ∧ maskGet supports d' = k := by
  have hp : parseAll (descs kind) [.ident t k] = ([], [k]) :=
    FontShorthand.parse_wide (descs kind) (by simp [descs]) t k (wide_mem k hk).1
  have hadds : Adds (fillWith k []) := adds_fill _ _ List.nodup_nil (by simp [Dict.keys])
  have hset : maskSet kind d [.ident t k] pr = some (setAll d pr (fillWith k [])) := by
    unfold maskSet
    rw [hp]
    rfl
  have hget : ∀ q, Dict.get? (setAll d pr (fillWith k [])) (name q) = some (k, pr) := by
    intro q
    rw [FontShorthand.get_setAll d hd pr _ hadds.1, get_fill _ _ _ (name_mem q)]
    rfl
  refine ⟨_, hset, hget, (set_all kind d hd _ pr _ hset).2, ?_⟩
  rw [get_full supports _ (fun _ => k) pr hget (fun q => ⟨(wide_mem k hk).2, hs q⟩) (adds_order d hd pr _ hadds)]
  unfold render
  have := (wide_mem k hk).1
  simp [this]

/-- **C128** (invalid values).  Two CSS-wide keywords are refused. -/
theorem two_wides (kind : Str → Kind) (d : Decls) (t k s t' k' pr : Str) (hk : Wide k) (hk' : Wide k') :
    maskSet kind d [.ident t k, .ws s, .ident t' k'] pr = none := by
  have hp : (parseAll (descs kind) [.ident t k, .ws s, .ident t' k']).2.length > 1 := by
    have : parseList (imageDesc kind) none [.ident t k, .ws s, .ident t' k'] = ⟨none, [k, k'], [.ws s]⟩ := by
      rw [wide_step _ _ _ hk, FontShorthand.pl_ws, if_neg (by simp), wide_step _ _ _ hk']
      rfl
    rw [descs, parseAll]
    simp only [this]
    simp
  unfold maskSet
  rw [if_pos hp]

/-! ### What the code does not do -/

/-- An example of tokens. -/
def exKind (s : Str) : Kind :=
  if s.getLast? = some '%' then .percentage
  else if s.all Char.isDigit then .number
  else if s.take 4 = "url(".toList then .image
  else if s.drop (s.length - 2) = "px".toList then .length
  else .another

def tok (s : String) : Tok := .other s.toList

/-- **C128** is violated for unknown words: the declaration should be ignored, but sets all the longhands. -/
theorem unknown_violated : maskSet exKind [] [kw "foo"] [] =
    some (allParts.map fun q => (name q, ("initial".toList, []))) := by decide +kernel

/-- **C128** is violated for several layers: of `url(a) alpha, url(b) luminance` the second layer is lost, and the mode gets a
comma. -/
theorem layers_violated : (maskSet exKind [] [tok "url(a)", .ws [' '], kw "alpha", .lit [','], .ws [' '], tok "url(b)",
    .ws [' '], kw "luminance"] []).map (fun d => (Dict.get? d (name .image), Dict.get? d (name .mode))) =
    some (some ("url(a)".toList, []), some ("alpha,".toList, [])) := by decide +kernel

/-- **C128** is violated for lists of boxes: of `border-box, padding-box` nothing is left. -/
theorem box_list_violated : maskSet exKind [] [kw "border-box", .lit [','], .ws [' '], kw "padding-box"] [] =
    some (allParts.map fun q => (name q, ("initial".toList, []))) := by decide +kernel

/-- **C128** is violated for a size without a position and a solidus, which is invalid: `auto` is declared as size, and the
shorthand cannot be read. -/
theorem no_solidus_violated : (maskSet exKind [] [kw "auto"] []).map
    (fun d => (Dict.get? d (name .size), maskGet (fun _ _ => true) d)) = some (some ("auto".toList, []), []) := by
  decide +kernel

/-- **C128** is violated for a CSS-wide keyword among other words, which is invalid: `inherit none` is taken as `inherit`. -/
theorem wide_mixed_violated : maskSet exKind [] [kw "inherit", .ws [' '], kw "none"] [] =
    some (allParts.map fun q => (name q, ("inherit".toList, []))) := by decide +kernel

/-- **C128** is violated for `mask-border`, which the shorthand should reset (CSS Masking 1, 7.11): it stays. -/
theorem border_violated : (maskSet exKind [("mask-border-slice".toList, ("10".toList, []))] [kw "none"] []).map
    (fun d => Dict.get? d "mask-border-slice".toList) = some (some ("10".toList, [])) := by decide +kernel

/-! ### An example -/

def exGroups : List (Part × List Tok) :=
  [(.mode, [kw "alpha"]), (.origin, [kw "border-box"]), (.position, [kw "left", tok "20%"]), (.size, [kw "auto", tok "3px"]),
   (.clip, [kw "fill-box"]), (.image, [tok "url(a.png)"])]

theorem exGood : Good exKind exGroups := by
  have hok : ∀ s : String, s ∈ ["20%", "3px", "url(a.png)"] → TextOk s.toList := by
    intro s hs
    simp only [List.mem_cons, List.not_mem_nil, or_false] at hs
    rcases hs with rfl | rfl | rfl <;>
    exact ⟨by decide, MaskBorder.trimmed_dec _ (by decide) (by decide), by decide⟩
  refine ⟨by decide, ?_, ?_, ?_⟩
  · intro g hg
    simp only [exGroups, List.mem_cons, List.not_mem_nil, or_false] at hg
    rcases hg with rfl | rfl | rfl | rfl | rfl | rfl <;> refine ⟨by simp, ?_, by simp⟩ <;> intro t ht <;>
      simp only [List.mem_cons, List.not_mem_nil, or_false] at ht
    · exact Or.inl ⟨"alpha", by decide, ht⟩
    · exact Or.inl ⟨"border-box", by decide, ht⟩
    · rcases ht with rfl | rfl
      · exact Or.inl ⟨"left", by decide, rfl⟩
      · exact Or.inr ⟨_, rfl, by decide, hok _ (by simp)⟩
    · rcases ht with rfl | rfl
      · exact Or.inl ⟨"auto", by decide, rfl⟩
      · exact Or.inr ⟨_, rfl, by decide, hok _ (by simp)⟩
    · exact Or.inl ⟨"fill-box", by decide, ht⟩
    · subst ht
      exact Or.inr ⟨_, rfl, by decide, hok _ (by simp)⟩
  · intro a g b h
    rcases a with _ | ⟨x0, _ | ⟨x1, _ | ⟨x2, a⟩⟩⟩
    · simp [exGroups] at h
    · simp [exGroups] at h
    · simp [exGroups] at h
    · simp only [exGroups, List.cons_append, List.cons.injEq] at h
      simp [← h.2.2.1]
  · intro a g b h
    rcases a with _ | ⟨x0, _ | ⟨x1, a⟩⟩
    · simp [exGroups] at h
    · simp [exGroups] at h
    · simp only [exGroups, List.cons_append, List.cons.injEq] at h
      exact Or.inr (by simp [← h.2.1])

example : Good exKind exGroups ∧ Layout exGroups (tokens exGroups) ∧ exGroups ≠ [] ∧
    (tokens exGroups).flatMap Tok.text = "alpha border-box left 20% / auto 3px fill-box url(a.png)".toList ∧
    text exGroups = "url(a.png) left 20% / auto 3px border-box fill-box alpha".toList :=
  ⟨exGood, layout_tokens _, by simp [exGroups], by decide +kernel, by decide +kernel⟩

example : (maskSet exKind [("color".toList, ("red".toList, []))] (tokens exGroups) []).map (maskGet fun _ _ => true) =
    some "url(a.png) left 20% / auto 3px border-box fill-box alpha".toList := by decide +kernel

example : Wide "inherit".toList := .inherit

end SvgPy.Mask
