import Verif.Model.TextChars
import Verif.Lemmas.PyStr
import Batteries.Tactic.Init

/-! Property C99: the characters of text elements. -/

set_option linter.unusedSimpArgs false

namespace SvgPy.TextChars

open SvgPy.TextContent

/-! ### Specification -/

/-- The characters of a text that are not white space. -/
def ink (s : Str) : Str := s.filter fun c => !PyStr.isSpace c

/-- The texts that are displayed, in document order, each with the element it belongs to: `id` is the one whose children
are looked at. -/
def texts (id : Nat) : Nodes → List (Nat × Str)
  | .nil => []
  | .cons a ch next =>
    (if a.display then a.text.toList.map (fun t => (a.id, t)) ++ texts a.id ch else []) ++ a.tail.toList.map (fun t => (id, t)) ++ texts id next

/-- The texts of a `text` element and of all inside. -/
def rootTexts (a : Info) (ch : Nodes) : List (Nat × Str) := a.text.toList.map (fun t => (a.id, t)) ++ texts a.id ch

/-- All elements inside are `tspan`. -/
def Plain : Nodes → Prop
  | .nil => True
  | .cons a ch next => a.kind = .tspan ∧ Plain ch ∧ Plain next

/-- Every displayed element inside contains something other than white space. -/
def Inked (lib : Lib) : Nodes → Prop
  | .nil => True
  | .cons a ch next =>
    (a.display = true → (∃ e ∈ a.text.toList.map (fun t => (a.id, t)) ++ texts a.id ch, ink (lib.unescape e.2) ≠ []) ∧ Inked lib ch) ∧ Inked lib next

/-! ### White space -/

theorem ink_nil : ink [] = [] := rfl

theorem ink_append (a b : Str) : ink (a ++ b) = ink a ++ ink b := by simp [ink]

theorem ink_cons (c : Char) (s : Str) : ink (c :: s) = if PyStr.isSpace c then ink s else c :: ink s := by
  simp only [ink, List.filter_cons]
  cases PyStr.isSpace c <;> simp

theorem space_of_blank (c : Char) (h : blank c = true) : PyStr.isSpace c = true := by
  simp only [blank, Bool.or_eq_true, beq_iff_eq] at h
  rcases h with rfl | rfl <;> rfl

theorem space_of_break (c : Char) (h : isBreak c = true) : PyStr.isSpace c = true := by
  simp only [isBreak, Bool.or_eq_true, beq_iff_eq] at h
  rcases h with rfl | rfl <;> rfl

theorem ink_skip (c : Char) (s : Str) (h : PyStr.isSpace c = true) : ink (c :: s) = ink s := by rw [ink_cons, if_pos h]

theorem ink_congr (c : Char) (s t : Str) (h : ink s = ink t) : ink (c :: s) = ink (c :: t) := by rw [ink_cons, ink_cons, h]

theorem ink_lead (s : Str) (b : Bool) : ink (lead b s) = ink s := by
  induction s generalizing b with
  | nil => rfl
  | cons c s ih =>
    rw [lead]
    split
    · rename_i h
      simp only [Bool.and_eq_true] at h
      rw [ih, ink_skip c s (space_of_blank c h.2)]
    · exact ink_congr c _ _ (ih _)

theorem ink_trail (s : Str) : ink (trail s) = ink s := by
  induction s with
  | nil => rfl
  | cons c s ih =>
    rw [trail]
    split
    · rename_i h
      simp only [Bool.and_eq_true] at h
      rw [ih, ink_skip c s (space_of_blank c h.1)]
    · exact ink_congr c _ _ ih

theorem ink_breakText (lib : Lib) (a b : Option Char) : ink (breakText lib a b) = [] := by
  unfold breakText
  split
  · rfl
  · split
    · split <;> rfl
    · rfl

theorem ink_segments (lib : Lib) (s : Str) (a : Option Char) (b : Bool) : ink (segments lib a b s) = ink s := by
  induction s generalizing a b with
  | nil =>
    rw [segments]
    split
    · exact ink_breakText _ _ _
    · rfl
  | cons c s ih =>
    rw [segments]
    split
    · rename_i h
      rw [ih, ink_skip c s (space_of_break c h)]
    · rw [ink_append]
      have : ink (if b then breakText lib a (some c) else []) = [] := by
        split
        · exact ink_breakText _ _ _
        · rfl
      rw [this, List.nil_append]
      exact ink_congr c _ _ (ih _ _)

theorem ink_crlf (s : Str) (b : Bool) : ink (crlf b s) = ink s := by
  induction s generalizing b with
  | nil => rfl
  | cons c s ih =>
    rw [crlf]
    split
    · rename_i h
      subst h
      rw [ink_skip _ _ rfl, ink_skip _ _ rfl, ih]
    · split
      · rename_i h
        rw [ih, h.1, ink_skip _ _ rfl]
      · exact ink_congr c _ _ (ih _)

theorem ink_tabs (s : Str) : ink (tabs s) = ink s := by
  induction s with
  | nil => rfl
  | cons c s ih =>
    have : tabs (c :: s) = (if c = '\t' then ' ' else c) :: tabs s := rfl
    rw [this]
    split
    · rename_i h
      subst h
      rw [ink_skip _ _ rfl, ink_skip _ _ rfl, ih]
    · exact ink_congr c _ _ ih

theorem ink_collapse (s : Str) (b : Bool) : ink (collapse b s) = ink s := by
  induction s generalizing b with
  | nil => rfl
  | cons c s ih =>
    rw [collapse]
    split
    · rename_i h
      simp only [Bool.and_eq_true, beq_iff_eq] at h
      rw [ih, h.2, ink_skip _ _ rfl]
    · exact ink_congr c _ _ (ih _)

theorem ink_drop (q : Char → Bool) (hq : ∀ c, q c = true → PyStr.isSpace c = true) (s : Str) : ink (s.dropWhile q) = ink s := by
  induction s with
  | nil => rfl
  | cons c s ih =>
    rw [List.dropWhile_cons]
    split
    · rename_i h
      rw [ih, ink_skip c s (hq c h)]
    · rfl

theorem ink_reverse (s : Str) : ink s.reverse = (ink s).reverse := by simp [ink]

theorem ink_dropEnd (q : Char → Bool) (hq : ∀ c, q c = true → PyStr.isSpace c = true) (s : Str) : ink (s.reverse.dropWhile q).reverse = ink s := by
  rw [ink_reverse, ink_drop q hq, ink_reverse, List.reverse_reverse]

theorem ink_after (p : Option Str) (s : Str) : ink (after p s) = ink s := by
  unfold after
  split
  · rfl
  · split
    · exact ink_drop _ (fun _ h => h) s
    · split
      · exact ink_skip _ _ rfl
      · rfl

theorem ink_process (lib : Lib) (ws : WhiteSpace) (s : Str) : ink (process lib ws s) = ink s := by
  have h : ∀ s, ink (segmentBreaks lib ws s) = ink s := by
    intro s
    unfold segmentBreaks
    split
    · exact ink_crlf _ _
    · exact ink_segments _ _ _ _
  unfold process
  split
  · rw [ink_collapse, ink_tabs, h, ink_trail, ink_lead]
  · split
    · exact h s
    · rfl

theorem sp_space (c : Char) (h : (c == ' ') = true) : PyStr.isSpace c = true := by
  rw [beq_iff_eq] at h; subst h; rfl

/-- White space processing keeps the ink. -/
theorem ink_normalize (lib : Lib) (ws : WhiteSpace) (t : Str) (p : Option Str) (first tail : Bool) :
    ink (normalizeText lib ws t p first tail) = ink (lib.unescape t) := by
  unfold normalizeText
  have h1 : ∀ s, ink (if first then lstripSpace s else s) = ink s := by
    intro s
    split
    · exact ink_drop _ sp_space s
    · rfl
  have h2 : ∀ s, ink (if tail then rstripSpace s else s) = ink s := by
    intro s
    split
    · exact ink_dropEnd _ sp_space s
    · rfl
  simp only [h1, h2, ink_after, ink_process]

/-! ### Chunks -/

/-- The chunks `out` show the texts `l`: one chunk for each text, in the same order, for the same element, with the
same ink; texts without ink may have none. -/
inductive Shows (lib : Lib) : List (Nat × Str) → List Chunk → Prop
  | nil : Shows lib [] []
  | skip (i t l out) : ink (lib.unescape t) = [] → Shows lib l out → Shows lib ((i, t) :: l) out
  | keep (i t o l out) : ink o = ink (lib.unescape t) → Shows lib l out → Shows lib ((i, t) :: l) ((i, o) :: out)

theorem Shows.append {lib : Lib} {l m : List (Nat × Str)} {a b : List Chunk} (h : Shows lib l a) (h' : Shows lib m b) : Shows lib (l ++ m) (a ++ b) := by
  induction h with
  | nil => exact h'
  | skip i t l out h0 _ ih => exact .skip i t _ _ h0 ih
  | keep i t o l out h0 _ ih => exact .keep i t o _ _ h0 ih

theorem Shows.ink {lib : Lib} {l : List (Nat × Str)} {a : List Chunk} (h : Shows lib l a) :
    TextChars.ink (a.map (·.2)).flatten = (l.map fun e => TextChars.ink (lib.unescape e.2)).flatten := by
  induction h with
  | nil => rfl
  | skip i t l out h0 _ ih => simp only [List.map_cons, List.flatten_cons, h0, List.nil_append, ih]
  | keep i t o l out h0 _ ih => simp only [List.map_cons, List.flatten_cons, ink_append, h0, ih]

theorem Shows.strip {lib : Lib} {l : List (Nat × Str)} {a : List Chunk} (h : Shows lib l a) : Shows lib l (stripLast a) := by
  induction h with
  | nil => exact .nil
  | skip i t l out h0 _ ih => exact .skip i t _ _ h0 ih
  | keep i t o l out h0 h1 ih =>
    cases out with
    | nil => exact .keep i t _ _ _ (by rw [PyStr.rstrip, ink_dropEnd _ (fun _ h => h), h0]) h1
    | cons c out => exact .keep i t _ _ _ h0 ih

/-- What holds of the state all the time: `prev_text` is never empty, and `first` is set until there is one. -/
def Inv (s : St) : Prop := s.prev ≠ some [] ∧ (s.first = true ↔ s.prev = none)

/-- What a piece of the work does: from the state `s` to `r`, with the new chunks `o` for the texts `l`. -/
structure Step (lib : Lib) (l : List (Nat × Str)) (s r : St) (o : List Chunk) : Prop where
  out : r.out = s.out ++ o
  inv : Inv r
  shows : Shows lib l o
  same : o = [] → r.prev = s.prev
  new : o ≠ [] → r.prev ≠ none
  start : s.prev = none → ∀ i x, o.head? = some (i, x) → x ≠ [] ∧ x.head? ≠ some ' '

theorem Step.refl (lib : Lib) (s : St) (h : Inv s) : Step lib [] s s [] :=
  ⟨by simp, h, .nil, fun _ => rfl, fun h => absurd rfl h, fun _ i x h => by cases h⟩

theorem Step.trans {lib : Lib} {l m : List (Nat × Str)} {s r q : St} {o o' : List Chunk} (h : Step lib l s r o) (h' : Step lib m r q o') :
    Step lib (l ++ m) s q (o ++ o') := by
  refine ⟨by rw [h'.out, h.out, List.append_assoc], h'.inv, h.shows.append h'.shows, ?_, ?_, ?_⟩
  · intro e
    rw [List.append_eq_nil_iff] at e
    rw [h'.same e.2, h.same e.1]
  · intro e
    by_cases e' : o' = []
    · rw [e', List.append_nil] at e
      rw [h'.same e']
      exact h.new e
    · exact h'.new e'
  · intro hn i x hx
    cases o with
    | nil => exact h'.start (by rw [h.same rfl, hn]) i x hx
    | cons c o => exact h.start hn i x hx

theorem drop_head (s : Str) : (lstripSpace s).head? ≠ some ' ' := by
  unfold lstripSpace
  induction s with
  | nil => simp
  | cons c s ih =>
    rw [List.dropWhile_cons]
    split
    · exact ih
    · rename_i h
      simpa using h

theorem emit_step (lib : Lib) (id : Nat) (ws : WhiteSpace) (t : Option Str) (s : St) (hs : Inv s) :
    ∃ o, Step lib (t.toList.map fun t => (id, t)) s (emit lib id ws t s) o := by
  cases t with
  | none => exact ⟨[], Step.refl lib s hs⟩
  | some t =>
    simp only [emit]
    split
    · rename_i h
      refine ⟨[], by simp, hs, .skip _ _ _ _ ?_ .nil, fun _ => rfl, fun h => absurd rfl h, fun _ i x h => by cases h⟩
      rw [← ink_normalize lib ws t s.prev s.first false, h]
      rfl
    · rename_i hne
      refine ⟨_, rfl, ⟨by simpa using hne, by simp⟩, .keep _ _ _ _ _ (ink_normalize _ _ _ _ _ _) .nil, fun h => by simp at h, fun _ => by simp, ?_⟩
      intro hn i x hx
      simp only [List.head?_cons, Option.some.injEq, Prod.mk.injEq] at hx
      obtain ⟨-, rfl⟩ := hx
      refine ⟨hne, ?_⟩
      have hf : s.first = true := hs.2.mpr hn
      simp only [normalizeText, hf, if_true, Bool.false_eq_true, if_false]
      exact drop_head _

/-- The child of a `Plain` element. -/
theorem loop_cons (lib : Lib) (a : Info) (ch next : Nodes) (hk : a.kind = .tspan) (id : Nat) (ws : WhiteSpace) (s : St) :
    loop lib id ws (.cons a ch next) s =
      (if a.display = true then (loop lib a.id a.ws ch (emit lib a.id a.ws a.text ⟨[], s.prev, s.first⟩)).bind (adopt s) else .ok s).bind
        fun s => loop lib id ws next (emit lib id ws a.tail s) := by
  rw [loop]
  simp only [hk, reduceCtorEq, if_false, show istext .tspan = true from rfl, show istextChild .tspan = true from rfl, Bool.true_and, if_true]

theorem bind_ok {α : Type} (x : Py α) (f : α → Py α) (r : α) (h : x.bind f = .ok r) : ∃ y, x = .ok y ∧ f y = .ok r := by
  cases x with
  | error e => cases h
  | ok y => exact ⟨y, rfl, h⟩

theorem loop_step (lib : Lib) (n : Nodes) (hp : Plain n) (id : Nat) (ws : WhiteSpace) (s r : St) (hs : Inv s) (h : loop lib id ws n s = .ok r) :
    ∃ o, Step lib (texts id n) s r o := by
  induction n generalizing id ws s r with
  | nil =>
    simp only [loop, Except.ok.injEq] at h
    subst h
    exact ⟨[], Step.refl lib s hs⟩
  | cons a ch next ih1 ih2 =>
    obtain ⟨hk, hp1, hp2⟩ := hp
    rw [loop_cons lib a ch next hk] at h
    have hc : ∀ s' : St, (if a.display = true then
          (loop lib a.id a.ws ch (emit lib a.id a.ws a.text ⟨[], s.prev, s.first⟩)).bind (adopt s)
        else .ok s : Py St) = .ok s' →
        ∃ o, Step lib (if a.display then a.text.toList.map (fun t => (a.id, t)) ++ texts a.id ch else []) s s' o := by
      intro s' hs'
      split at hs'
      · rename_i hd
        rw [if_pos hd]
        obtain ⟨q, hq, hs'⟩ := bind_ok _ _ _ hs'
        · obtain ⟨o1, e1⟩ := emit_step lib a.id a.ws a.text ⟨[], s.prev, s.first⟩ hs
          obtain ⟨o2, e2⟩ := ih1 hp1 _ _ _ _ e1.inv hq
          have e := e1.trans e2
          unfold adopt at hs'
          split at hs'
          · cases hs'
          · rename_i o ho
            split at hs'
            · rename_i h0
              subst h0
              exact absurd ho e2.inv.1
            · rename_i hne
              simp only [Except.ok.injEq] at hs'
              subst hs'
              refine ⟨o1 ++ o2, ?_, ⟨by simpa using hne, by simp⟩, e.shows, fun h => ?_, fun _ => by simp, e.start⟩
              · simp only [e.out, List.nil_append]
              · rw [← ho]; exact e.same h
      · rename_i hd
        simp only [Except.ok.injEq] at hs'
        subst hs'
        rw [if_neg hd]
        exact ⟨[], Step.refl lib s hs⟩
    obtain ⟨s', hs', h⟩ := bind_ok _ _ _ h
    · obtain ⟨o1, e1⟩ := hc s' hs'
      obtain ⟨o2, e2⟩ := emit_step lib id ws a.tail s' e1.inv
      obtain ⟨o3, e3⟩ := ih2 hp2 _ _ _ _ e2.inv h
      exact ⟨_, (e1.trans e2).trans e3⟩

theorem shows_nil {lib : Lib} {l : List (Nat × Str)} (h : Shows lib l []) : ∀ e ∈ l, ink (lib.unescape e.2) = [] := by
  generalize ho : ([] : List Chunk) = o at h
  induction h with
  | nil => simp
  | skip i t l out h0 _ ih =>
    intro e he
    rcases List.mem_cons.mp he with rfl | he
    · exact h0
    · exact ih ho e he
  | keep => cases ho

theorem loop_ok (lib : Lib) (n : Nodes) (hp : Plain n) (id : Nat) (ws : WhiteSpace) (s : St) (hs : Inv s) (hi : s.prev ≠ none ∨ Inked lib n) :
    ∃ r, loop lib id ws n s = .ok r := by
  induction n generalizing id ws s with
  | nil => exact ⟨s, rfl⟩
  | cons a ch next ih1 ih2 =>
    obtain ⟨hk, hp1, hp2⟩ := hp
    rw [loop_cons lib a ch next hk]
    by_cases hd : a.display = true
    · obtain ⟨o1, e1⟩ := emit_step lib a.id a.ws a.text ⟨[], s.prev, s.first⟩ hs
      have hi1 : (emit lib a.id a.ws a.text ⟨[], s.prev, s.first⟩).prev ≠ none ∨ Inked lib ch := by
        rcases hi with hi | hi
        · left
          by_cases h0 : o1 = []
          · rw [e1.same h0]; exact hi
          · exact e1.new h0
        · exact .inr (hi.1 hd).2
      obtain ⟨r, hr⟩ := ih1 hp1 a.id a.ws _ e1.inv hi1
      obtain ⟨o2, e2⟩ := loop_step lib ch hp1 _ _ _ _ e1.inv hr
      have e := e1.trans e2
      have hn : r.prev ≠ none := by
        by_cases h0 : o1 ++ o2 = []
        · rcases hi with hi | hi
          · rw [e.same h0]; exact hi
          · exfalso
            obtain ⟨x, hx, hxi⟩ := (hi.1 hd).1
            have := e.shows
            rw [h0] at this
            exact hxi (shows_nil this x hx)
        · exact e.new h0
      simp only [hr, if_pos hd, Except.bind]
      obtain ⟨w, hw⟩ := Option.ne_none_iff_exists'.mp hn
      have hne : w ≠ [] := by rintro rfl; exact e2.inv.1 hw
      simp only [adopt, hw, if_neg hne]
      obtain ⟨o3, e3⟩ := emit_step lib id ws a.tail ⟨s.out ++ r.out, some w, false⟩ ⟨by simpa using hne, by simp⟩
      refine ih2 hp2 id ws _ e3.inv (.inl ?_)
      by_cases h0 : o3 = []
      · rw [e3.same h0]; simp
      · exact e3.new h0
    · simp only [if_neg hd, Except.bind]
      obtain ⟨o3, e3⟩ := emit_step lib id ws a.tail s hs
      refine ih2 hp2 id ws _ e3.inv ?_
      rcases hi with hi | hi
      · left
        by_cases h0 : o3 = []
        · rw [e3.same h0]; exact hi
        · exact e3.new h0
      · exact .inr hi.2

theorem inv_start : Inv ⟨[], none, true⟩ := ⟨by simp, by simp⟩

theorem info_step (lib : Lib) (a : Info) (ch : Nodes) (hk : a.kind = .text) (hd : a.display = true) (hp : Plain ch) (l : List Chunk)
    (h : charsInfo lib a ch = .ok l) : ∃ o r, Step lib (rootTexts a ch) ⟨[], none, true⟩ r o ∧ l = stripLast o := by
  simp only [charsInfo, descendantChars, hk, hd, show istext .text = true from rfl, Bool.and_self, if_true] at h
  split at h
  · cases h
  · rename_i r hr
    simp only [Except.ok.injEq] at h
    obtain ⟨o1, e1⟩ := emit_step lib a.id a.ws a.text _ inv_start
    obtain ⟨o2, e2⟩ := loop_step lib ch hp _ _ _ _ e1.inv hr
    have e := e1.trans e2
    refine ⟨_, r, e, ?_⟩
    rw [← h, e.out, List.nil_append]

/-- **C99** The characters of a `text` element with `tspan` elements inside are those of all displayed texts in document
order, up to white space: none is lost, doubled or moved. -/
theorem chars_ink_partial (lib : Lib) (a : Info) (ch : Nodes) (hk : a.kind = .text) (hd : a.display = true) (hp : Plain ch) (s : Str)
    (h : getChars lib a ch = .ok s) : ink s = ((rootTexts a ch).map fun e => ink (lib.unescape e.2)).flatten := by
  simp only [getChars] at h
  split at h
  · cases h
  · rename_i l hl
    simp only [Except.ok.injEq] at h
    obtain ⟨o, r, e, rfl⟩ := info_step lib a ch hk hd hp l hl
    rw [← h, e.shows.strip.ink]

/-- **C99** The characters do not start with a space. -/
theorem chars_start_partial (lib : Lib) (a : Info) (ch : Nodes) (hk : a.kind = .text) (hd : a.display = true) (hp : Plain ch) (s : Str)
    (h : getChars lib a ch = .ok s) : s.head? ≠ some ' ' := by
  simp only [getChars] at h
  split at h
  · cases h
  · rename_i l hl
    simp only [Except.ok.injEq] at h
    obtain ⟨o, r, e, rfl⟩ := info_step lib a ch hk hd hp l hl
    rw [← h]
    cases o with
    | nil => simp [stripLast]
    | cons c o =>
      obtain ⟨i, x⟩ := c
      obtain ⟨hne, hx⟩ := e.start rfl i x rfl
      cases o with
      | nil =>
        simp only [stripLast, List.map_cons, List.map_nil, List.flatten_cons, List.flatten_nil, List.append_nil]
        obtain ⟨b, hb, -⟩ := PyStr.rstrip_split x
        intro hc
        apply hx
        rw [hb]
        cases hr : PyStr.rstrip x with
        | nil => rw [hr] at hc; cases hc
        | cons d r => rw [hr] at hc; exact hc
      | cons d o =>
        simp only [stripLast, List.map_cons, List.flatten_cons]
        cases x with
        | nil => exact absurd rfl hne
        | cons y x => exact hx

/-- **C99** There is no exception if the `text` element or else every displayed element inside has more than white space. -/
theorem chars_ok_partial (lib : Lib) (a : Info) (ch : Nodes) (hk : a.kind = .text) (hd : a.display = true) (hp : Plain ch)
    (hi : (∃ t, a.text = some t ∧ ink (lib.unescape t) ≠ []) ∨ Inked lib ch) : ∃ s, getChars lib a ch = .ok s := by
  obtain ⟨o1, e1⟩ := emit_step lib a.id a.ws a.text _ inv_start
  have : (emit lib a.id a.ws a.text ⟨[], none, true⟩).prev ≠ none ∨ Inked lib ch := by
    rcases hi with ⟨t, ht, hi⟩ | hi
    · left
      by_cases h0 : o1 = []
      · exfalso
        have hsh := e1.shows
        rw [h0, ht] at hsh
        exact hi (shows_nil hsh (a.id, t) (by simp))
      · exact e1.new h0
    · exact .inr hi
  obtain ⟨r, hr⟩ := loop_ok lib ch hp a.id a.ws _ e1.inv this
  refine ⟨((stripLast r.out).map (·.2)).flatten, ?_⟩
  simp only [getChars, charsInfo, descendantChars, hk, hd, show istext .text = true from rfl, Bool.and_self, if_true, hr]

theorem Shows.filter {lib : Lib} {l : List (Nat × Str)} {o : List Chunk} (h : Shows lib l o) (i : Nat) :
    Shows lib (l.filter fun e => e.1 = i) (o.filter fun e => e.1 = i) := by
  induction h with
  | nil => exact .nil
  | skip j t l out h0 _ ih =>
    rw [List.filter_cons]
    split
    · exact .skip j t _ _ h0 ih
    · exact ih
  | keep j t o l out h0 _ ih =>
    rw [List.filter_cons, List.filter_cons]
    simp only [decide_eq_true_eq]
    split
    · exact .keep j t o _ _ h0 ih
    · exact ih

/-- **C99** The characters of an element with a single text of its own are those of that text. -/
theorem chars_of_partial (lib : Lib) (a : Info) (ch : Nodes) (hk : a.kind = .text) (hd : a.display = true) (hp : Plain ch) (i : Nat) (t : Str)
    (hi : (rootTexts a ch).filter (fun e => e.1 = i) = [(i, t)]) (ht : ink (lib.unescape t) ≠ []) (r : Option Str)
    (h : getCharsOf lib a ch i = .ok r) : ∃ s, r = some s ∧ ink s = ink (lib.unescape t) := by
  simp only [getCharsOf] at h
  split at h
  · cases h
  · rename_i l hl
    simp only [Except.ok.injEq] at h
    obtain ⟨o, r', e, rfl⟩ := info_step lib a ch hk hd hp l hl
    have hf := e.shows.strip.filter i
    rw [hi] at hf
    revert h
    generalize (stripLast o).filter (fun c => decide (c.1 = i)) = z at hf ⊢
    cases hf with
    | skip _ _ _ _ h0 _ => exact absurd h0 ht
    | keep _ _ x _ out h0 h1 =>
      intro h
      exact ⟨x, by rw [← h]; rfl, h0⟩

/-- **C99** An element without a text of its own has no characters. -/
theorem chars_of_none (lib : Lib) (a : Info) (ch : Nodes) (hk : a.kind = .text) (hd : a.display = true) (hp : Plain ch) (i : Nat)
    (hi : ∀ e ∈ rootTexts a ch, e.1 ≠ i) (r : Option Str) (h : getCharsOf lib a ch i = .ok r) : r = none ∧ numberOfChars lib a ch i = .ok 0 := by
  have : r = none := by
    simp only [getCharsOf] at h
    split at h
    · cases h
    · rename_i l hl
      simp only [Except.ok.injEq] at h
      obtain ⟨o, r', e, rfl⟩ := info_step lib a ch hk hd hp l hl
      have hf := e.shows.strip.filter i
      have h0 : (rootTexts a ch).filter (fun e => e.1 = i) = [] := by
        rw [List.filter_eq_nil_iff]
        intro e he
        simpa using hi e he
      rw [h0] at hf
      revert h
      generalize (stripLast o).filter (fun c => decide (c.1 = i)) = z at hf ⊢
      cases hf
      intro h
      exact h.symm
  subst this
  exact ⟨rfl, by rw [numberOfChars, h]⟩

/-- A library that does nothing. -/
def lib0 : Lib := ⟨id, fun _ => false⟩

/-- A `tspan`. -/
def span (i : Nat) (t tail : String) : Info := ⟨.tspan, i, true, .normal, some t.toList, some tail.toList⟩

/-- A `text`. -/
def root (t : String) : Info := ⟨.text, 0, true, .normal, some t.toList, none⟩

/-- **C99** A comment in the text is an exception. -/
theorem comment_violated : getChars lib0 (root "a") (.cons ⟨.nonElement, 1, true, .normal, none, some "b".toList⟩ .nil .nil) = .error .attributeError := by decide

/-- **C99** An empty element at the beginning is an exception. -/
theorem empty_violated : getChars lib0 ⟨.text, 0, true, .normal, none, none⟩ (.cons ⟨.tspan, 1, true, .normal, none, some "b".toList⟩ .nil .nil) = .error .typeError := by decide

/-- **C99** The text in and behind a link is lost. -/
theorem link_violated : getChars lib0 (root "a") (.cons ⟨.other, 1, true, .normal, some "b".toList, some "c".toList⟩ .nil .nil) = .ok "a".toList := by decide

/-- **C99** Of an element with elements inside only the first text is found. -/
theorem nested_violated : getCharsOf lib0 (root "a") (.cons (span 1 "b" "e") (.cons (span 2 "c" "d") .nil .nil) .nil) 1 = .ok (some " b".toList) ∧
    numberOfChars lib0 (root "a") (.cons (span 1 "b" "e") (.cons (span 2 "c" "d") .nil .nil) .nil) 1 = .ok 2 := by decide

/-- The hypotheses of the theorems are met. -/
example : Plain (.cons (span 1 "b" "e") (.cons (span 2 "c" "d") .nil .nil) .nil) ∧
    (rootTexts (root "a") (.cons (span 1 "b" "e") (.cons (span 2 "c" "d") .nil .nil) .nil)).filter (fun e => e.1 = 2) = [(2, "c".toList)] ∧
    getChars lib0 (root "a") (.cons (span 1 "b" "e") (.cons (span 2 "c" "d") .nil .nil) .nil) = .ok "a b c d e".toList := by
  refine ⟨⟨rfl, ⟨rfl, trivial, trivial⟩, trivial⟩, by decide, by decide⟩

example : Inked lib0 (.cons (span 1 "b" "e") (.cons (span 2 "c" "d") .nil .nil) .nil) := by
  refine ⟨fun _ => ⟨⟨(1, "b".toList), by decide, by decide⟩, ⟨fun _ => ⟨⟨(2, "c".toList), by decide, by decide⟩, trivial⟩, trivial⟩⟩, trivial⟩

end SvgPy.TextChars
