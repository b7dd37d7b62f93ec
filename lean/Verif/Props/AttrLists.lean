import Verif.Model.AttrLists
import Verif.Props.LengthText
import Verif.Lemmas.SeqSplit

/-! Property C127: attributes that are lists of numbers or lengths. -/

set_option linter.unusedSimpArgs false
set_option linter.unusedVariables false

namespace SvgPy.AttrLists

open SvgPy.NumText SvgPy.LengthText SvgPy.SeqSplit

/-! ### Specification -/

/-- The text of a length: a number in any spelling, then perhaps a unit in capital or small letters. -/
inductive LengthOf : Str → ℚ → Option Str → Prop
  | number {t : Tok} : t.Ok → LengthOf t.text t.value none
  | unit {t : Tok} {u : String} {w : Str} : t.Ok → Unit u → Spells w u → LengthOf (t.text ++ w) t.value (some u.toList)

/-- The text of a number. -/
def NumberOf (s : Str) (v : ℚ) : Prop := ∃ t : Tok, t.Ok ∧ s = t.text ∧ v = t.value

/-- A list: items with white space, a comma or both between neighbours. -/
inductive Listing : List Str → Str → Prop
  | one {a : Str} : Listing [a] a
  | more {a b s : Str} {as : List Str} : Sep b → Listing as s → Listing (a :: as) (a ++ b ++ s)

/-- The values of a list of lengths, in pixels, item by item. -/
inductive Values (px : Len → ℚ) (dir : Dir) : List Str → List ℚ → Prop
  | nil : Values px dir [] []
  | cons {s : Str} {v : ℚ} {u : Option Str} {ss : List Str} {ns : List ℚ} : LengthOf s v u → Values px dir ss ns →
      Values px dir (s :: ss) (px ⟨v, u, dir⟩ :: ns)

/-- What an attribute that is a list of lengths says: the values of its items, nothing if it is missing. -/
inductive Says (px : Len → ℚ) (dir : Dir) : Option Str → Option (List ℚ) → Prop
  | missing : Says px dir none none
  | list {items : List Str} {s : Str} {vs : List ℚ} : Listing items s → Values px dir items vs → Says px dir (some s) (some vs)

/-- What the attribute `rotate` says. -/
inductive SaysAngles : Option Str → Option (List ℚ) → Prop
  | missing : SaysAngles none none
  | list {items : List Str} {s : Str} {vs : List ℚ} : Listing items s → List.Forall₂ NumberOf items vs →
      SaysAngles (some s) (some vs)

/-- What the attributes `x` and `y` say: on `text` elements they are zero if missing. -/
inductive SaysPlace (px : Len → ℚ) (dir : Dir) (isText : Bool) : Option Str → Option (List ℚ) → Prop
  | given {s : Str} {o : Option (List ℚ)} : Says px dir (some s) o → SaysPlace px dir isText (some s) o
  | zero : isText = true → SaysPlace px dir isText none (some [px ⟨0, none, dir⟩])
  | missing : isText = false → SaysPlace px dir isText none none

/-! ### Lemmas -/

theorem alpha_plain (c : Char) (h : c.isAlpha = true ∨ c = '%') : PyStr.isSpace c = false ∧ c ≠ ',' := by
  refine ⟨alpha_space c h, ?_⟩
  rintro rfl
  revert h
  decide

theorem tok_plain (t : Tok) (ht : t.Ok) : Plain t.text := by
  intro c hc
  have h := tok_chars t ht c hc
  refine ⟨numChar_space c h, ?_⟩
  rintro rfl
  revert h
  simp [NumChar]
  decide

theorem length_plain {s : Str} {v : ℚ} {u : Option Str} (h : LengthOf s v u) : Plain s ∧ s ≠ [] := by
  cases h with
  | number ht => exact ⟨tok_plain _ ht, tok_ne _ ht⟩
  | unit ht hu hw =>
    refine ⟨?_, by intro e; exact tok_ne _ ht (List.append_eq_nil_iff.1 e).1⟩
    intro c hc
    rcases List.mem_append.1 hc with hc | hc
    · exact tok_plain _ ht c hc
    · exact alpha_plain c (unit_alpha _ (unit_chars _ hu _ hw) c hc)

theorem number_plain {s : Str} {v : ℚ} (h : NumberOf s v) : Plain s ∧ s ≠ [] := by
  obtain ⟨t, ht, rfl, rfl⟩ := h
  exact ⟨tok_plain _ ht, tok_ne _ ht⟩

theorem listing_head {as : List Str} {s : Str} (h : Listing as s) (hp : ∀ a ∈ as, Plain a ∧ a ≠ []) :
    ∀ c t, s = c :: t → PyStr.isSpace c = false ∧ c ≠ ',' := by
  intro c t e
  have key : ∀ (a r : Str), Plain a ∧ a ≠ [] → a ++ r = c :: t → PyStr.isSpace c = false ∧ c ≠ ',' := by
    intro a r ha e
    cases a with
    | nil => exact absurd rfl ha.2
    | cons x a =>
      simp only [List.cons_append, List.cons.injEq] at e
      obtain ⟨rfl, -⟩ := e
      exact ha.1 x (by simp)
  cases h with
  | one => exact key s [] (hp s (by simp)) (by simpa using e)
  | @more a _ _ _ hb hl => exact key a _ (hp a (by simp)) (by rw [List.append_assoc] at e; exact e)

theorem split_listing {as : List Str} {s : Str} (h : Listing as s) (hp : ∀ a ∈ as, Plain a ∧ a ≠ []) : split s = as := by
  induction h with
  | one => exact split_plain _ (hp _ (by simp)).1
  | more hb hl ih =>
    have hp' := fun a ha => hp a (List.mem_cons_of_mem _ ha)
    rw [split_item _ _ _ (hp _ (by simp)).1 hb (listing_head hl hp'), ih hp']

theorem newLength_eq (dir : Dir) {s : Str} {v : ℚ} {u : Option Str} (h : LengthOf s v u) :
    newLength dir s = .ok ⟨v, u, dir⟩ := by
  cases h with
  | number ht =>
    have := read_number _ ht [] [] (by simp [White]) (by simp [White])
    simp only [List.append_nil, List.nil_append] at this
    simp [newLength, this]
  | unit ht hu hw =>
    have := read_length _ ht _ hu _ hw [] [] (by simp [White]) (by simp [White])
    simp only [List.append_nil, List.nil_append] at this
    simp [newLength, this]

theorem values_plain {px : Len → ℚ} {dir : Dir} {as : List Str} {vs : List ℚ} (h : Values px dir as vs) :
    ∀ a ∈ as, Plain a ∧ a ≠ [] := by
  induction h with
  | nil => simp
  | cons hl _ ih =>
    intro a ha
    rcases List.mem_cons.1 ha with rfl | ha
    · exact length_plain hl
    · exact ih a ha

theorem lengths_eq {px : Len → ℚ} {dir : Dir} {as : List Str} {vs : List ℚ} (h : Values px dir as vs) :
    lengths px dir as = .ok vs := by
  induction h with
  | nil => rfl
  | cons hl _ ih => simp [lengths, newLength_eq dir hl, ih]

theorem float_eq {s : Str} {v : ℚ} (h : NumberOf s v) : float s = .ok v := by
  obtain ⟨t, ht, rfl, rfl⟩ := h
  have h1 := strip_length t ht [] [] [] (by simp [White]) (by simp [White]) (by simp)
  have h2 := numAt_unit t ht [] (by simp)
  simp only [List.append_nil, List.nil_append] at h1 h2
  simp [float, h1, h2]

theorem floats_eq {as : List Str} {vs : List ℚ} (h : List.Forall₂ NumberOf as vs) : floats as = .ok vs := by
  induction h with
  | nil => rfl
  | cons hl _ ih => simp [floats, float_eq hl, ih]

theorem forall_plain {as : List Str} {vs : List ℚ} (h : List.Forall₂ NumberOf as vs) : ∀ a ∈ as, Plain a ∧ a ≠ [] := by
  induction h with
  | nil => simp
  | cons hl _ ih =>
    intro a ha
    rcases List.mem_cons.1 ha with rfl | ha
    · exact number_plain hl
    · exact ih a ha

theorem lengthList_eq {px : Len → ℚ} {dir : Dir} {a : Option Str} {o : Option (List ℚ)} (h : Says px dir a o) :
    lengthList px dir a = .ok o := by
  cases h with
  | missing => rfl
  | list hl hv => simp [lengthList, split_listing hl (values_plain hv), lengths_eq hv]

theorem rotateList_eq {a : Option Str} {o : Option (List ℚ)} (h : SaysAngles a o) : rotateList a = .ok o := by
  cases h with
  | missing => rfl
  | list hl hv => simp [rotateList, split_listing hl (forall_plain hv), floats_eq hv]

theorem zeroTok : (⟨none, ['0'], none, none⟩ : Tok).Ok := by simp [Tok.Ok, Digits, ExpOk, isDigit]

theorem place_eq {px : Len → ℚ} {dir : Dir} {isText : Bool} {a : Option Str} {o : Option (List ℚ)}
    (h : SaysPlace px dir isText a o) : lengthList px dir (orZero isText a) = .ok o := by
  cases h with
  | given h => exact lengthList_eq h
  | zero ht =>
    subst ht
    have hl : LengthOf ['0'] 0 none := by
      have := LengthOf.number zeroTok
      have e1 : (⟨none, ['0'], none, none⟩ : Tok).text = ['0'] := rfl
      have e2 : (⟨none, ['0'], none, none⟩ : Tok).value = 0 := by
        simp [Tok.value, natOf]
      rw [e1, e2] at this
      exact this
    exact lengthList_eq (.list .one (.cons hl .nil))
  | missing ht => subst ht; rfl

/-! ### Text elements -/

/-- **C127** (partial).  `x`, `y`, `dx`, `dy` and `rotate` of a text element are the values of the items of the attributes,
in order, whatever separates them; `x` and `dx` are horizontal lengths, the others vertical ones; attributes that are missing
give nothing, except for `x` and `y` of a `text` element, which are zero.  Missing: white space around the list
(`space_violated`). -/
theorem geometry_partial (px : Len → ℚ) (isText : Bool) (get : Attr → Option Str) (x y dx dy rotate : Option (List ℚ))
    (hx : SaysPlace px .horizontal isText (get .x) x) (hy : SaysPlace px .vertical isText (get .y) y)
    (hdx : Says px .horizontal (get .dx) dx) (hdy : Says px .vertical (get .dy) dy) (hr : SaysAngles (get .rotate) rotate) :
    geometry px isText get = .ok ⟨x, y, dx, dy, rotate⟩ := by
  simp [geometry, place_eq hx, place_eq hy, lengthList_eq hdx, lengthList_eq hdy, rotateList_eq hr]

theorem parse_empty : parse (some []) = .error .valueError := by decide +kernel

theorem split_lead (b s : Str) (hb : Sep b) (hs : ∀ c t, s = c :: t → PyStr.isSpace c = false ∧ c ≠ ',') :
    split (b ++ s) = [] :: split s := by
  have := split_item [] b s (by simp [Plain]) hb hs
  simpa using this

theorem split_trail {as : List Str} {s b : Str} (h : Listing as s) (hp : ∀ a ∈ as, Plain a ∧ a ≠ []) (hb : Sep b) :
    split (s ++ b) = as ++ [[]] := by
  induction h with
  | @one a =>
    have := split_item a b [] (hp a (by simp)).1 hb (by simp)
    simp only [List.append_nil] at this
    rw [this, split_nil]
    rfl
  | @more a b' s' as' hb' hl ih =>
    have hp' := fun a ha => hp a (List.mem_cons_of_mem _ ha)
    have hne : s' ≠ [] := by
      clear ih
      cases hl with
      | one => exact (hp' s' (by simp)).2
      | @more a1 _ _ _ h1 h2 =>
        intro e
        simp at e
        exact (hp' a1 (by simp)).2 e.1
    have := split_item a b' (s' ++ b) (hp _ (by simp)).1 hb' (by
      intro c t e
      cases s' with
      | nil => exact absurd rfl hne
      | cons d s' =>
        simp only [List.cons_append, List.cons.injEq] at e
        obtain ⟨rfl, -⟩ := e
        exact listing_head hl hp' d s' rfl)
    simp only [List.append_assoc] at this ⊢
    rw [this, ih hp']
    rfl

theorem lengths_trail {px : Len → ℚ} {dir : Dir} {as : List Str} {vs : List ℚ} (h : Values px dir as vs) :
    lengths px dir (as ++ [[]]) = .error .valueError := by
  induction h with
  | nil => simp [lengths, newLength, parse_empty]
  | cons hl _ ih => simp [lengths, newLength_eq dir hl, ih]

/-- **C127**, violated.  White space before or after the list, which SVG allows, raises ValueError. -/
theorem space_violated (px : Len → ℚ) (dir : Dir) (items : List Str) (s w : Str) (vs : List ℚ) (hl : Listing items s)
    (hv : Values px dir items vs) (hw : White w) (hne : w ≠ []) :
    lengthList px dir (some (w ++ s)) = .error .valueError ∧ lengthList px dir (some (s ++ w)) = .error .valueError := by
  have hs : Sep w := Or.inl ⟨hne, hw⟩
  constructor
  · simp [lengthList, split_lead w s hs (listing_head hl (values_plain hv)), lengths, newLength, parse_empty]
  · simp [lengthList, split_trail hl (values_plain hv) hs, lengths_trail hv]

/-! ### Nothing else is read -/

theorem sepAt_sound (s r : Str) (h : sepAt s = some r) : ∃ b, SeqSplit.Sep b ∧ s = b ++ r := by
  have hsplit : s = s.takeWhile PyStr.isSpace ++ s.dropWhile PyStr.isSpace := (List.takeWhile_append_dropWhile).symm
  have hw : ∀ l : Str, ∀ c ∈ l.takeWhile PyStr.isSpace, PyStr.isSpace c = true := fun l c hc => mem_takeWhile _ _ _ hc
  unfold sepAt at h
  split at h
  · rename_i t ht
    simp only [Option.some.injEq] at h
    subst h
    refine ⟨s.takeWhile PyStr.isSpace ++ ',' :: t.takeWhile PyStr.isSpace, Or.inr ⟨_, _, rfl, hw s, hw t⟩, ?_⟩
    conv_lhs => rw [hsplit, ht]
    simp [List.takeWhile_append_dropWhile]
  · split at h
    · simp at h
    · rename_i c t _
      split at h
      · rename_i hc
        simp only [Option.some.injEq] at h
        subst h
        refine ⟨(c :: t).takeWhile PyStr.isSpace, Or.inl ⟨by simp [hc], hw _⟩, hsplit⟩
      · simp at h

theorem sepAt_none (c : Char) (t : Str) (h : sepAt (c :: t) = none) : PyStr.isSpace c = false ∧ c ≠ ',' := by
  unfold sepAt at h
  split at h
  · simp at h
  · rename_i hne
    split at h
    · rename_i e; simp at e
    · rename_i d u e
      simp only [List.cons.injEq] at e
      obtain ⟨rfl, rfl⟩ := e
      split at h
      · simp at h
      · rename_i hs
        have hs' : PyStr.isSpace c = false := by simpa using hs
        refine ⟨hs', ?_⟩
        rintro rfl
        exact hne t (by rw [List.dropWhile_cons, hs']; rfl)

theorem listing_cons (c : Char) {p : Str} {ps : List Str} {s : Str} (h : Listing (p :: ps) s) : Listing ((c :: p) :: ps) (c :: s) := by
  cases h with
  | one => exact .one
  | more hb hl => exact .more (a := c :: p) hb hl

theorem split_sound (n : Nat) : ∀ s : Str, s.length ≤ n → Listing (split s) s ∧ ∀ a ∈ split s, Plain a := by
  induction n with
  | zero =>
    intro s hs
    have : s = [] := by simpa using hs
    subst this
    rw [split_nil]
    exact ⟨.one, by simp [Plain]⟩
  | succ n ih =>
    intro s hs
    cases s with
    | nil => rw [split_nil]; exact ⟨.one, by simp [Plain]⟩
    | cons c t =>
      cases hsep : sepAt (c :: t) with
      | some r =>
        rw [split_some c t r hsep]
        have hlt := sepAt_lt _ _ hsep
        obtain ⟨b, hb, e⟩ := sepAt_sound _ _ hsep
        obtain ⟨h1, h2⟩ := ih r (by simp at hs hlt; omega)
        rw [e]
        refine ⟨.more (a := []) hb h1, ?_⟩
        intro a ha
        rcases List.mem_cons.1 ha with rfl | ha
        · simp [Plain]
        · exact h2 a ha
      | none =>
        rw [split_none c t hsep]
        obtain ⟨h1, h2⟩ := ih t (by simpa using hs)
        cases hsp : split t with
        | nil => exact absurd hsp (split_ne t)
        | cons p ps =>
          rw [hsp] at h1 h2
          refine ⟨listing_cons c h1, ?_⟩
          intro a ha
          rcases List.mem_cons.1 ha with rfl | ha
          · intro x hx
            rcases List.mem_cons.1 hx with rfl | hx
            · exact sepAt_none x t hsep
            · exact h2 p (by simp) x hx
          · exact h2 a (by simp [ha])

theorem plain_trimmed (a : Str) (h : Plain a) : PyStr.strip a = a := by
  apply PyStr.strip_of_trimmed
  exact ⟨fun c hc => (h c (List.mem_of_mem_head? hc)).1, fun c hc => (h c (List.mem_of_mem_getLast? hc)).1⟩

theorem floats_sound {as : List Str} (hp : ∀ a ∈ as, Plain a) : ∀ {vs : List ℚ}, floats as = .ok vs →
    List.Forall₂ NumberOf as vs := by
  induction as with
  | nil => intro vs h; simp only [floats, Except.ok.injEq] at h; subst h; exact .nil
  | cons a as ih =>
    intro vs h
    simp only [floats] at h
    cases hf : float a with
    | error e => rw [hf] at h; simp at h
    | ok v =>
      rw [hf] at h
      cases hr : floats as with
      | error e => rw [hr] at h; simp at h
      | ok ns =>
        rw [hr] at h
        simp only [Except.ok.injEq] at h
        subst h
        refine .cons ?_ (ih (fun x hx => hp x (by simp [hx])) hr)
        simp only [float, plain_trimmed a (hp a (by simp))] at hf
        split at hf
        · rename_i w hw
          simp only [Except.ok.injEq] at hf
          subst hf
          obtain ⟨t, ht, e1, e2⟩ := numAt_complete _ _ _ hw
          exact ⟨t, ht, by simpa using e1, e2⟩
        · simp at hf

/-- **C127**.  The angles are read exactly if the attribute is a list of numbers, and then they are these numbers. -/
theorem rotate_spec (a : Option Str) (o : Option (List ℚ)) : rotateList a = .ok o ↔ SaysAngles a o := by
  refine ⟨fun h => ?_, rotateList_eq⟩
  cases a with
  | none => simp only [rotateList, Except.ok.injEq] at h; subst h; exact .missing
  | some s =>
    simp only [rotateList] at h
    obtain ⟨h1, h2⟩ := split_sound _ s (Nat.le_refl _)
    cases hf : floats (split s) with
    | error e => rw [hf] at h; simp at h
    | ok vs =>
      rw [hf] at h
      simp only [Except.ok.injEq] at h
      subst h
      exact .list h1 (floats_sound h2 hf)

/-- The value of an item that begins with a length. -/
def BeginsWith (px : Len → ℚ) (dir : Dir) (s : Str) (v : ℚ) : Prop :=
  ∃ l rest n u, s = l ++ rest ∧ LengthOf l n u ∧ v = px ⟨n, u, dir⟩

/-- **C127** (partial).  Lengths are read only from lists whose items begin with a length, and then they are these lengths.
Missing: items that go on after the length are not refused (C98). -/
theorem lengths_sound_partial (px : Len → ℚ) (dir : Dir) (s : Str) (vs : List ℚ) (h : lengthList px dir (some s) = .ok (some vs)) :
    ∃ items, Listing items s ∧ List.Forall₂ (BeginsWith px dir) items vs := by
  obtain ⟨h1, h2⟩ := split_sound _ s (Nat.le_refl _)
  refine ⟨split s, h1, ?_⟩
  simp only [lengthList] at h
  cases hf : lengths px dir (split s) with
  | error e => rw [hf] at h; simp at h
  | ok ws =>
    rw [hf] at h
    simp only [Except.ok.injEq, Option.some.injEq] at h
    subst h
    clear h1
    generalize split s = as at h2 hf
    induction as generalizing ws with
    | nil => simp only [lengths, Except.ok.injEq] at hf; subst hf; exact .nil
    | cons a as ih =>
      simp only [lengths] at hf
      cases hn : newLength dir a with
      | error e => rw [hn] at hf; simp at hf
      | ok n =>
        rw [hn] at hf
        cases hr : lengths px dir as with
        | error e => rw [hr] at hf; simp at hf
        | ok ns =>
          rw [hr] at hf
          simp only [Except.ok.injEq] at hf
          subst hf
          refine .cons ?_ (ih ns (fun x hx => h2 x (by simp [hx])) hr)
          simp only [newLength] at hn
          cases hp : parse (some a) with
          | error e => rw [hp] at hn; simp at hn
          | ok p =>
            obtain ⟨v, u⟩ := p
            rw [hp] at hn
            simp only [Except.ok.injEq] at hn
            subst hn
            obtain ⟨wa, wb, w, rest, t, ha, hb, e, ht, hv, hu⟩ := accepted_partial a v u hp
            have hnil : wa = [] := by
              cases wa with
              | nil => rfl
              | cons c wa =>
                have := ((h2 a (by simp)) c (by rw [e]; simp)).1
                rw [ha c (by simp)] at this
                simp at this
            subst hnil
            refine ⟨t.text ++ w, rest ++ wb, v, u, by rw [e]; simp, ?_, rfl⟩
            rcases hu with ⟨rfl, rfl⟩ | ⟨n, hn1, hn2, rfl⟩
            · rw [hv, List.append_nil]; exact .number ht
            · rw [hv]; exact .unit ht hn1 hn2

/-! ### `viewBox` -/

/-- **C127** (partial).  A `viewBox` of four numbers gives these, the first and the third as horizontal lengths, the
others as vertical ones; without the attribute there is none.  Missing: white space before the numbers, and the refusal
of other lists (`viewbox_violated`). -/
theorem viewbox_partial (ta tb tc td : Str) (a b c d : ℚ) (s : Str) (ha : NumberOf ta a) (hb : NumberOf tb b)
    (hc : NumberOf tc c) (hd : NumberOf td d) (h : Listing [ta, tb, tc, td] s) :
    viewBox (some s) = .ok (some (⟨a, none, .horizontal⟩, ⟨b, none, .vertical⟩, ⟨c, none, .horizontal⟩, ⟨d, none, .vertical⟩)) ∧
    viewBox none = .ok none := by
  have hp : ∀ x ∈ [ta, tb, tc, td], Plain x ∧ x ≠ [] := by
    intro x hx
    simp only [List.mem_cons, List.not_mem_nil, or_false] at hx
    rcases hx with rfl | rfl | rfl | rfl
    · exact number_plain ha
    · exact number_plain hb
    · exact number_plain hc
    · exact number_plain hd
  have n : ∀ {t : Str} {v : ℚ} (dir : Dir), NumberOf t v → newLength dir t = .ok ⟨v, none, dir⟩ := by
    rintro t v dir ⟨k, hk, rfl, rfl⟩
    exact newLength_eq dir (.number hk)
  simp [viewBox, split_listing h hp, part, n _ ha, n _ hb, n _ hc, n _ hd]

/-- **C127**.  A `viewBox` of fewer than four lengths is refused with IndexError. -/
theorem viewbox_few (px : Len → ℚ) (items : List Str) (s : Str) (vs : List ℚ) (hl : Listing items s)
    (hv : Values px .horizontal items vs) (h4 : items.length < 4) : viewBox (some s) = .error .indexError := by
  have hn : ∀ i dir, part dir items i = .error .indexError ∨ ∃ n, part dir items i = .ok n := by
    intro i dir
    simp only [part]
    cases hi : items[i]? with
    | none => exact Or.inl rfl
    | some t =>
      right
      have hm := List.mem_of_getElem? hi
      have : ∀ {as : List Str} {vs : List ℚ}, Values px .horizontal as vs → t ∈ as → ∃ v u, LengthOf t v u := by
        intro as vs h
        induction h with
        | nil => simp
        | cons hl _ ih =>
          intro hm
          rcases List.mem_cons.1 hm with rfl | hm
          · exact ⟨_, _, hl⟩
          · exact ih hm
      obtain ⟨v, u, hlen⟩ := this hv hm
      exact ⟨_, newLength_eq dir hlen⟩
  have h3 : part .vertical items 3 = .error .indexError := by
    simp [part, List.getElem?_eq_none (by omega : items.length ≤ 3)]
  simp only [viewBox, split_listing hl (values_plain hv)]
  rcases hn 0 .horizontal with e | ⟨n, e⟩ <;> rw [e]
  simp only
  rcases hn 1 .vertical with e | ⟨n, e⟩ <;> rw [e]
  simp only
  rcases hn 2 .horizontal with e | ⟨n, e⟩ <;> rw [e]
  simp only [h3]

/-- **C127**, violated.  White space before the numbers raises ValueError, although SVG allows it; further numbers are ignored
and lengths with units accepted, although SVG allows neither. -/
theorem viewbox_violated :
    viewBox (some " 0 0 10 20".toList) = .error .valueError ∧
    viewBox (some "0 0 10 20 30".toList) =
      .ok (some (⟨0, none, .horizontal⟩, ⟨0, none, .vertical⟩, ⟨10, none, .horizontal⟩, ⟨20, none, .vertical⟩)) ∧
    viewBox (some "0 0 1in 50%".toList) = .ok (some (⟨0, none, .horizontal⟩, ⟨0, none, .vertical⟩,
      ⟨1, some "in".toList, .horizontal⟩, ⟨50, some "%".toList, .vertical⟩)) := by
  refine ⟨?_, ?_, ?_⟩ <;> decide +kernel

/-! ### Examples -/

example : lengthList (·.number) .horizontal (some "10,20 ,30".toList) = .ok (some [10, 20, 30]) := by decide +kernel
example : rotateList (some "0 -45, 9e1".toList) = .ok (some [0, -45, 90]) := by decide +kernel
example : Listing ["1".toList, "2".toList] "1 , 2".toList :=
  .more (a := "1".toList) (b := " , ".toList) (Or.inr ⟨[' '], [' '], rfl, by decide, by decide⟩) .one
example : NumberOf "12".toList 12 :=
  ⟨⟨none, "12".toList, none, none⟩, by simp [Tok.Ok, Digits, ExpOk, isDigit], rfl, by decide +kernel⟩
example : Says (·.number) .horizontal none none := .missing

end SvgPy.AttrLists
