import Verif.Model.Components
import Verif.Props.Shorthand
import Verif.Lemmas.PyDict
import Verif.Lemmas.PyStr

/-! Properties C94 (`text-decoration`), C95 (`font-variant`) and C96 (`overflow`). -/

set_option linter.unusedSimpArgs false
set_option linter.unusedVariables false

namespace SvgPy.Components

open SvgPy.PyStr SvgPy.Decl SvgPy.Shorthand

/-! ### Specification -/

/-- The words of a value with one space between neighbours. -/
def spaced : List Tok → List Tok
  | [] => []
  | [t] => [t]
  | t :: l => t :: .ws [' '] :: spaced l

/-- Words as text with one space between neighbours. -/
def sentence : List Tok → Str
  | [] => []
  | [t] => t.text
  | t :: l => t.text ++ ' ' :: sentence l

/-- An ordinary word: not white space, not a CSS-wide keyword, not a comma or solidus; its text has no space at the ends. -/
structure Ordinary (t : Tok) : Prop where
  notWs : ∀ s, t ≠ .ws s
  notWide : ∀ s k, t = .ident s k → k ∉ ["default".toList, "inherit".toList, "initial".toList, "revert".toList, "unset".toList]
  notWideText : t.text ∉ ["default".toList, "inherit".toList, "initial".toList, "revert".toList, "unset".toList]
  notComma : t ≠ .lit [',']
  notSlash : t ≠ .lit ['/']
  nonempty : t.text ≠ []
  trimmed : Trimmed t.text

/-- The keyword as a token. -/
def kw (s : String) : Tok := .ident s.toList s.toList

/-- A value written as groups of words, one group for each of some of the longhands; `belongs n t`: the word may be used for the longhand. -/
structure Groups (belongs : Str → Tok → Prop) (gs : List (Str × List Tok)) : Prop where
  distinct : (gs.map (·.1)).Nodup
  words : ∀ g ∈ gs, g.2 ≠ [] ∧ ∀ t ∈ g.2, belongs g.1 t

/-! ### Parsing groups -/

private def Owned (ds : List (Str × Desc)) (n : Str) (t : Tok) : Prop :=
  Ordinary t ∧ ∀ nd ∈ ds, nd.2.support t = true ↔ nd.1 = n

private theorem wideOf_none (t : Tok) (h : Ordinary t) : wideOf t = none := by
  cases t with
  | ident s k => exact if_neg (h.notWide s k rfl)
  | _ => rfl

private theorem step_yes (d : Desc) (tg : Option (List Tok)) (t : Tok) (l : List Tok) (h : Ordinary t) (hs : d.support t = true) :
    parseList d tg (t :: l) = parseList d (some (tg.getD [] ++ [t])) l := by
  have hw := wideOf_none t h
  cases t with
  | ws s => exact absurd rfl (h.notWs s)
  | ident s k => simp only [parseList, hw, h.notComma, h.notSlash, hs, if_true, if_false]
  | lit s => simp only [parseList, hw, h.notComma, h.notSlash, hs, if_true, if_false]
  | other s => simp only [parseList, hw, h.notComma, h.notSlash, hs, if_true, if_false]

private theorem step_no (d : Desc) (tg : Option (List Tok)) (t : Tok) (l : List Tok) (h : Ordinary t) (hs : d.support t = false) :
    parseList d tg (t :: l) = if tg.isSome then ⟨tg, [], t :: l⟩ else (parseList d tg l).keep t := by
  have hw := wideOf_none t h
  cases t with
  | ws s => exact absurd rfl (h.notWs s)
  | ident s k => simp [parseList, hw, h.notComma, h.notSlash, hs]
  | lit s => simp [parseList, hw, h.notComma, h.notSlash, hs]
  | other s => simp [parseList, hw, h.notComma, h.notSlash, hs]

private theorem step_ws (d : Desc) (tg : Option (List Tok)) (s : Str) (l : List Tok) :
    parseList d tg (.ws s :: l) =
      if tg.isSome then parseList d (some (tg.getD [] ++ [.ws s])) l else (parseList d tg l).keep (.ws s) := by
  simp only [parseList]

private def flat (rs : List (Str × List Tok)) : List Tok := rs.flatMap (·.2)

private def IsRun (ds : List (Str × Desc)) (n : Str) (r : List Tok) : Prop :=
  ∃ t rest, r = t :: rest ∧ Owned ds n t ∧ ∀ x ∈ rest, (∃ s, x = .ws s) ∨ Owned ds n x

private theorem parse_rest (d : Desc) (acc rest l : List Tok)
    (h : ∀ x ∈ rest, (∃ s, x = .ws s) ∨ (Ordinary x ∧ d.support x = true))
    (hl : ∀ t l', l = t :: l' → Ordinary t ∧ d.support t = false) :
    parseList d (some acc) (rest ++ l) = ⟨some (acc ++ rest), [], l⟩ := by
  induction rest generalizing acc with
  | nil =>
    cases l with
    | nil => simp [parseList]
    | cons t l' =>
      obtain ⟨h1, h2⟩ := hl t l' rfl
      simp [step_no d _ t l' h1 h2]
  | cons x rest ih =>
    have ih' := ih (acc ++ [x]) (fun y hy => h y (by simp [hy]))
    rcases h x (by simp) with ⟨s, rfl⟩ | ⟨h1, h2⟩
    · rw [List.cons_append, step_ws]
      simp [ih']
    · rw [List.cons_append, step_yes d _ x _ h1 h2]
      simp [ih']

private theorem parse_skip (d : Desc) (ts l : List Tok) (h : ∀ x ∈ ts, (∃ s, x = .ws s) ∨ (Ordinary x ∧ d.support x = false)) :
    parseList d none (ts ++ l) = { parseList d none l with rest := ts ++ (parseList d none l).rest } := by
  induction ts with
  | nil => simp
  | cons x ts ih =>
    have ih' := ih (fun y hy => h y (by simp [hy]))
    rcases h x (by simp) with ⟨s, rfl⟩ | ⟨h1, h2⟩
    · rw [List.cons_append, step_ws]
      simp [ih', Parsed.keep]
    · rw [List.cons_append, step_no d _ x _ h1 h2]
      simp [ih', Parsed.keep]

private theorem sup_of (ds : List (Str × Desc)) (n m : Str) (d : Desc) (hd : (n, d) ∈ ds) (t : Tok) (h : Owned ds m t) :
    d.support t = true ↔ n = m := h.2 (n, d) hd

private theorem parse_flat (ds : List (Str × Desc)) (n : Str) (d : Desc) (hd : (n, d) ∈ ds) (rs : List (Str × List Tok))
    (hn : (rs.map (·.1)).Nodup) (hr : ∀ r ∈ rs, IsRun ds r.1 r.2) :
    parseList d none (flat rs) = ⟨Dict.get? rs n, [], flat (Dict.del rs n)⟩ := by
  induction rs with
  | nil => rfl
  | cons r rs ih =>
    obtain ⟨m, r⟩ := r
    have hn' := List.nodup_cons.mp hn
    obtain ⟨t, rest, rfl, ht, hrest⟩ := hr (m, r) (by simp)
    have he : flat ((m, t :: rest) :: rs) = t :: (rest ++ flat rs) := by simp [flat]
    by_cases hm : m = n
    · subst hm
      rw [he, step_yes d _ t _ ht.1 ((sup_of ds m m d hd t ht).mpr rfl)]
      rw [parse_rest d _ rest (flat rs)]
      · simp [Dict.get?, Dict.del]
      · intro x hx
        rcases hrest x hx with h | h
        · exact .inl h
        · exact .inr ⟨h.1, (sup_of ds m m d hd x h).mpr rfl⟩
      · intro u l' hl
        cases rs with
        | nil => simp [flat] at hl
        | cons q rs =>
          obtain ⟨u', rest', hq, hu, _⟩ := hr q (by simp)
          have : flat (q :: rs) = q.2 ++ flat rs := by simp [flat]
          rw [this, hq] at hl
          simp only [List.cons_append, List.cons.injEq] at hl
          rw [← hl.1]
          refine ⟨hu.1, ?_⟩
          have : ¬ d.support u' = true := by
            rw [sup_of ds m q.1 d hd u' hu]
            intro e
            exact hn'.1 (by simp [e])
          simpa using this
    · have he' : flat ((m, t :: rest) :: rs) = (t :: rest) ++ flat rs := by simp [flat]
      have hskip : ∀ x ∈ t :: rest, (∃ s, x = .ws s) ∨ (Ordinary x ∧ d.support x = false) := by
        intro x hx
        have : (∃ s, x = .ws s) ∨ Owned ds m x := by
          rcases List.mem_cons.mp hx with rfl | hx
          · exact .inr ht
          · exact hrest x hx
        rcases this with h | h
        · exact .inl h
        · refine .inr ⟨h.1, ?_⟩
          have : ¬ d.support x = true := by
            rw [sup_of ds n m d hd x h]
            exact fun e => hm e.symm
          simpa using this
      rw [he', parse_skip d _ _ hskip, ih hn'.2 (fun r h => hr r (by simp [h]))]
      simp [Dict.get?, Dict.del, hm, flat]

private theorem keys_eq (d : Dict Str (List Tok)) : Dict.keys d = d.map (·.1) := rfl

private theorem mem_del {α β : Type} [DecidableEq α] (d : Dict α β) (k : α) (x : α × β) (h : x ∈ Dict.del d k) : x ∈ d := by
  induction d with
  | nil => exact h
  | cons y d ih =>
    obtain ⟨a, b⟩ := y
    simp only [Dict.del] at h
    split at h
    · simp [h]
    · rcases List.mem_cons.mp h with rfl | h
      · simp
      · simp [ih h]

private theorem parseAll_flat (ds : List (Str × Desc)) (hds : (ds.map (·.1)).Nodup) (rs : List (Str × List Tok))
    (hn : (rs.map (·.1)).Nodup) (hr : ∀ r ∈ rs, IsRun ds r.1 r.2) :
    parseAll ds (flat rs) = (ds.filterMap (fun nd => (Dict.get? rs nd.1).map (fun v => (nd.1, v))), []) := by
  induction ds generalizing rs with
  | nil => rfl
  | cons nd ds ih =>
    obtain ⟨n, d⟩ := nd
    have hds' := List.nodup_cons.mp hds
    have hp := parse_flat ((n, d) :: ds) n d (by simp) rs hn hr
    have hmono : ∀ m r, IsRun ((n, d) :: ds) m r → IsRun ds m r := by
      rintro m r ⟨t, rest, rfl, h1, h2⟩
      refine ⟨t, rest, rfl, ⟨h1.1, fun nd h => h1.2 nd (by simp [h])⟩, ?_⟩
      intro x hx
      rcases h2 x hx with h | h
      · exact .inl h
      · exact .inr ⟨h.1, fun nd hh => h.2 nd (by simp [hh])⟩
    have hrec := ih hds'.2 (Dict.del rs n) (Dict.nodup_del rs n hn) (fun r h => hmono _ _ (hr r (mem_del rs n r h)))
    have hcong : ds.filterMap (fun nd => (Dict.get? (Dict.del rs n) nd.1).map (fun v => (nd.1, v))) =
        ds.filterMap (fun nd => (Dict.get? rs nd.1).map (fun v => (nd.1, v))) := by
      apply List.filterMap_congr
      intro nd h
      rw [Dict.get?_del rs n nd.1 hn, if_neg]
      intro e
      exact hds'.1 (List.mem_map.mpr ⟨nd, h, e.symm⟩)
    simp only [parseAll, hp, hrec, hcong]
    cases hg : Dict.get? rs n with
    | none => simp [hg]
    | some v => simp [hg]

/-! ### From words to runs -/

private def runs : List (Str × List Tok) → List (Str × List Tok)
  | [] => []
  | [g] => [(g.1, spaced g.2)]
  | g :: gs => (g.1, spaced g.2 ++ [.ws [' ']]) :: runs gs

private theorem spaced_cons (t : Tok) (l : List Tok) (h : l ≠ []) : spaced (t :: l) = t :: .ws [' '] :: spaced l := by
  cases l with
  | nil => exact absurd rfl h
  | cons u l => rfl

private theorem spaced_append (a b : List Tok) (ha : a ≠ []) (hb : b ≠ []) :
    spaced (a ++ b) = spaced a ++ .ws [' '] :: spaced b := by
  induction a with
  | nil => exact absurd rfl ha
  | cons t a ih =>
    cases a with
    | nil => simp [spaced_cons t b hb, spaced]
    | cons u a =>
      rw [List.cons_append, spaced_cons _ _ (by simp), ih (by simp), spaced_cons t (u :: a) (by simp)]
      simp

private theorem flat_ne (gs : List (Str × List Tok)) (h : ∀ g ∈ gs, g.2 ≠ []) (hne : gs ≠ []) : gs.flatMap (·.2) ≠ [] := by
  cases gs with
  | nil => exact absurd rfl hne
  | cons g gs =>
    intro e
    simp only [List.flatMap_cons, List.append_eq_nil_iff] at e
    exact h g (by simp) e.1

private theorem flat_runs (gs : List (Str × List Tok)) (h : ∀ g ∈ gs, g.2 ≠ []) :
    spaced (gs.flatMap (·.2)) = flat (runs gs) := by
  induction gs with
  | nil => rfl
  | cons g gs ih =>
    cases gs with
    | nil => simp [runs, flat]
    | cons g' gs =>
      have ih' := ih (fun x hx => h x (by simp [hx]))
      have : runs (g :: g' :: gs) = (g.1, spaced g.2 ++ [.ws [' ']]) :: runs (g' :: gs) := rfl
      rw [this, List.flatMap_cons, spaced_append _ _ (h g (by simp))
        (flat_ne _ (fun x hx => h x (by simp [hx])) (by simp)), ih']
      simp [flat]

private theorem runs_names (gs : List (Str × List Tok)) : (runs gs).map (·.1) = gs.map (·.1) := by
  induction gs with
  | nil => rfl
  | cons g gs ih =>
    cases gs with
    | nil => rfl
    | cons g' gs =>
      have : runs (g :: g' :: gs) = (g.1, spaced g.2 ++ [.ws [' ']]) :: runs (g' :: gs) := rfl
      rw [this, List.map_cons, ih]; rfl

private theorem mem_spaced (l : List Tok) (x : Tok) (h : x ∈ spaced l) : (∃ s, x = .ws s) ∨ x ∈ l := by
  induction l with
  | nil => exact absurd h (by simp [spaced])
  | cons t l ih =>
    cases l with
    | nil => right; simpa [spaced] using h
    | cons u l =>
      rw [spaced_cons _ _ (by simp)] at h
      simp only [List.mem_cons] at h
      rcases h with rfl | rfl | h
      · simp
      · exact .inl ⟨_, rfl⟩
      · rcases ih h with h | h
        · exact .inl h
        · exact .inr (by simp [h])

private theorem isRun_of (ds : List (Str × Desc)) (n : Str) (w tail : List Tok) (hw : w ≠ []) (h : ∀ t ∈ w, Owned ds n t)
    (ht : ∀ x ∈ tail, ∃ s, x = .ws s) : IsRun ds n (spaced w ++ tail) := by
  cases w with
  | nil => exact absurd rfl hw
  | cons t w =>
    have hmem : ∀ x ∈ spaced (t :: w) ++ tail, (∃ s, x = .ws s) ∨ Owned ds n x := by
      intro x hx
      rcases List.mem_append.mp hx with hx | hx
      · rcases mem_spaced _ _ hx with h' | h'
        · exact .inl h'
        · exact .inr (h x h')
      · exact .inl (ht x hx)
    have : ∃ rest, spaced (t :: w) = t :: rest := by
      cases w with
      | nil => exact ⟨[], rfl⟩
      | cons u w => exact ⟨_, rfl⟩
    obtain ⟨rest, hrest⟩ := this
    rw [hrest] at hmem ⊢
    exact ⟨t, rest ++ tail, rfl, h t (by simp), fun x hx => hmem x (by simp at hx ⊢; exact .inr hx)⟩

private theorem runs_mem (gs : List (Str × List Tok)) (r : Str × List Tok) (h : r ∈ runs gs) :
    ∃ g ∈ gs, g.1 = r.1 ∧ ∃ tail, r.2 = spaced g.2 ++ tail ∧ (tail = [] ∨ tail = [.ws [' ']]) := by
  induction gs with
  | nil => exact absurd h (by simp [runs])
  | cons g gs ih =>
    cases gs with
    | nil =>
      simp only [runs, List.mem_singleton] at h
      subst h
      exact ⟨g, by simp, rfl, [], by simp, .inl rfl⟩
    | cons g' gs =>
      have : runs (g :: g' :: gs) = (g.1, spaced g.2 ++ [.ws [' ']]) :: runs (g' :: gs) := rfl
      rw [this] at h
      rcases List.mem_cons.mp h with rfl | h
      · exact ⟨g, by simp, rfl, _, rfl, .inr rfl⟩
      · obtain ⟨q, hq, h2⟩ := ih h
        exact ⟨q, by simp [hq], h2⟩

private theorem text_spaced (w : List Tok) : (spaced w).flatMap Tok.text = sentence w := by
  induction w with
  | nil => rfl
  | cons t w ih =>
    cases w with
    | nil => simp [spaced, sentence]
    | cons u w =>
      rw [spaced_cons _ _ (by simp)]
      simp [ih, sentence, Tok.text]

theorem sentence_ends (w : List Tok) (hw : w ≠ []) (h : ∀ t ∈ w, Ordinary t) : sentence w ≠ [] ∧ Trimmed (sentence w) := by
  induction w with
  | nil => exact absurd rfl hw
  | cons t w ih =>
    have ht := h t (by simp)
    cases w with
    | nil => exact ⟨ht.nonempty, ht.trimmed⟩
    | cons u w =>
      obtain ⟨h1, h2⟩ := ih (by simp) (fun x hx => h x (by simp [hx]))
      have he : sentence (t :: u :: w) = t.text ++ ' ' :: sentence (u :: w) := rfl
      rw [he]
      refine ⟨by simp, ?_, ?_⟩
      · intro x hx
        cases htt : t.text with
        | nil => exact absurd htt ht.nonempty
        | cons a l =>
          rw [htt] at hx
          simp only [List.cons_append, List.head?_cons, Option.some.injEq] at hx
          exact ht.trimmed.1 x (by rw [htt, ← hx]; rfl)
      · intro x hx
        apply h2.2 x
        cases hs : sentence (u :: w) with
        | nil => exact absurd hs h1
        | cons a l =>
          rw [hs] at hx
          rw [← hx, List.getLast?_append]
          simp [List.getLast?_cons]

private theorem valueText_run (w tail : List Tok) (hw : w ≠ []) (h : ∀ t ∈ w, Ordinary t)
    (ht : tail = [] ∨ tail = [.ws [' ']]) : valueText (spaced w ++ tail) = sentence w := by
  obtain ⟨h1, h2⟩ := sentence_ends w hw h
  unfold valueText
  rw [List.flatMap_append, text_spaced]
  have := strip_around [] (sentence w) (tail.flatMap Tok.text) (by simp)
    (by rcases ht with rfl | rfl <;> simp [Tok.text] ; decide) h2
  simpa using this

/-! ### Declarations -/

private theorem nodup_setAll (d : Decls) (h : (Dict.keys d).Nodup) (p : Str) (m : List (Str × Str)) :
    (Dict.keys (setAll d p m)).Nodup := by
  induction m generalizing d with
  | nil => exact h
  | cons x m ih => exact ih _ (Dict.nodup_setEnd _ _ _ h)

private theorem get_setAll (d : Decls) (h : (Dict.keys d).Nodup) (p : Str) (m : List (Str × Str)) (hm : (m.map (·.1)).Nodup)
    (k : Str) : Dict.get? (setAll d p m) k = match Dict.get? m k with
      | some v => some (v, p)
      | none => Dict.get? d k := by
  induction m generalizing d with
  | nil => rfl
  | cons x m ih =>
    obtain ⟨n, v⟩ := x
    have hm' := List.nodup_cons.mp hm
    simp only [setAll]
    rw [ih _ (Dict.nodup_setEnd _ _ _ h) hm'.2, Dict.get?_setEnd _ _ _ _ h]
    simp only [Dict.get?]
    by_cases hk : n = k
    · subst hk
      have : Dict.get? m n = none := (Dict.get?_eq_none_iff m n).mpr hm'.1
      simp [this]
    · simp only [hk, if_false]

private theorem get_mapval {α β : Type} (f : α → β) (m : List (Str × α)) (k : Str) :
    Dict.get? (m.map fun x => (x.1, f x.2)) k = (Dict.get? m k).map f := by
  induction m with
  | nil => rfl
  | cons x m ih =>
    obtain ⟨a, b⟩ := x
    simp only [List.map_cons, Dict.get?]
    split
    · rfl
    · exact ih

private theorem get_filter {α : Type} (q : Str → Bool) (m : List (Str × α)) (k : Str) :
    Dict.get? (m.filter fun x => q x.1) k = if q k then Dict.get? m k else none := by
  induction m with
  | nil => simp [Dict.get?]
  | cons x m ih =>
    obtain ⟨a, b⟩ := x
    by_cases ha : a = k
    · subst ha
      by_cases hq : q a
      · simp [List.filter_cons, hq, Dict.get?]
      · simp [List.filter_cons, hq, ih]
    · by_cases hq : q a
      · simp [List.filter_cons, hq, Dict.get?, ha, ih]
      · simp [List.filter_cons, hq, Dict.get?, ha, ih]

private theorem get_fill (init : Desc → Str) (ds : List (Str × Desc)) (m : List (Str × Str)) (k : Str) :
    Dict.get? (fill init ds m) k = (Dict.get? m k).or ((Dict.get? ds k).map init) := by
  unfold fill
  rw [Dict.get?_append, get_mapval init (ds.filter fun nd => !(Dict.contains m nd.1)) k,
    get_filter (fun n => !(Dict.contains m n)) ds k]
  cases h : Dict.get? m k with
  | none => simp [Dict.contains, h]
  | some v => simp

private theorem nodup_fill (init : Desc → Str) (ds : List (Str × Desc)) (m : List (Str × Str)) (hds : (ds.map (·.1)).Nodup)
    (hm : (m.map (·.1)).Nodup) : ((fill init ds m).map (·.1)).Nodup := by
  unfold fill
  rw [List.map_append, List.map_map]
  refine List.Nodup.append hm ?_ ?_
  · exact List.Nodup.sublist (List.Sublist.map _ List.filter_sublist) hds
  · intro x hx hx'
    simp only [List.mem_map, List.mem_filter, Function.comp] at hx'
    obtain ⟨nd, ⟨_, h⟩, rfl⟩ := hx'
    have := (Dict.contains_iff m nd.1).mpr hx
    simp [this] at h

private theorem found_names (ds : List (Str × Desc)) (f : Str → Option Str) (hds : (ds.map (·.1)).Nodup) :
    ((ds.filterMap (fun nd => (f nd.1).map (fun v => (nd.1, v)))).map (·.1)).Nodup := by
  have : (ds.filterMap (fun nd => (f nd.1).map (fun v => (nd.1, v)))).map (·.1) =
      (ds.map (·.1)).filter (fun n => (f n).isSome) := by
    induction ds with
    | nil => rfl
    | cons nd ds ih =>
      have ih' := ih (List.nodup_cons.mp hds).2
      cases h : f nd.1 <;> simp [h, ih']
  rw [this]
  exact hds.sublist List.filter_sublist

private theorem get_found (ds : List (Str × Desc)) (f : Str → Option Str) (k : Str) :
    Dict.get? (ds.filterMap (fun nd => (f nd.1).map (fun v => (nd.1, v)))) k = if k ∈ ds.map (·.1) then f k else none := by
  induction ds with
  | nil => rfl
  | cons nd ds ih =>
    by_cases hk : nd.1 = k
    · subst hk
      cases h : f nd.1 with
      | none => simp [h, ih]
      | some v => simp [h, Dict.get?]
    · have hk' : ¬ k = nd.1 := fun e => hk e.symm
      cases h : f nd.1 with
      | none => simp [h, ih, hk', List.mem_cons, List.map_cons, -List.mem_map]
      | some v => simp [h, Dict.get?, hk, hk', ih, List.mem_cons, List.map_cons, -List.mem_map]

/-- The words of a longhand as text. -/
def textOf (gs : List (Str × List Tok)) (n : Str) : Option Str := (Dict.get? gs n).map sentence

private theorem texts_flat (ds : List (Str × Desc)) (hds : (ds.map (·.1)).Nodup) (gs : List (Str × List Tok))
    (hn : (gs.map (·.1)).Nodup) (hg : ∀ g ∈ gs, g.2 ≠ [] ∧ ∀ t ∈ g.2, Owned ds g.1 t) :
    (parseAll ds (spaced (gs.flatMap (·.2)))).2 = [] ∧
    texts (parseAll ds (spaced (gs.flatMap (·.2)))).1 = ds.filterMap (fun nd => (textOf gs nd.1).map (fun v => (nd.1, v))) := by
  rw [flat_runs gs (fun g h => (hg g h).1), parseAll_flat ds hds (runs gs) (by rw [runs_names]; exact hn)]
  · refine ⟨rfl, ?_⟩
    simp only [texts, List.map_filterMap]
    apply List.filterMap_congr
    intro nd _
    have : ∀ n, (Dict.get? (runs gs) n).map valueText = textOf gs n := by
      intro n
      unfold textOf
      have hrn : (Dict.keys (runs gs)).Nodup := by
        show ((runs gs).map (·.1)).Nodup
        rw [runs_names]; exact hn
      cases h : Dict.get? (runs gs) n with
      | none =>
        rw [Dict.get?_eq_none_iff] at h
        have : Dict.get? gs n = none := by
          rw [Dict.get?_eq_none_iff]
          intro hh
          apply h
          show n ∈ (runs gs).map (·.1)
          rw [runs_names]; exact hh
        simp [this]
      | some r =>
        have hmem := (Dict.mem_iff_get? (runs gs) hrn n r).mpr h
        obtain ⟨g, hgm, h1, tail, h2, h3⟩ := runs_mem gs _ hmem
        have hgg : Dict.get? gs n = some g.2 := by
          rw [← Dict.mem_iff_get? gs hn]
          simp only at h1
          rw [← h1]; exact hgm
        simp only at h2
        simp [hgg, h2, valueText_run g.2 tail (hg g hgm).1 (fun t ht => ((hg g hgm).2 t ht).1) h3]
    rw [← this nd.1]
    cases Dict.get? (runs gs) nd.1 <;> rfl
  · intro r hr
    obtain ⟨g, hgm, h1, tail, h2, h3⟩ := runs_mem gs r hr
    rw [← h1, h2]
    refine isRun_of ds g.1 g.2 tail (hg g hgm).1 (hg g hgm).2 ?_
    rcases h3 with rfl | rfl <;> simp

private theorem get_filled (ds : List (Str × Desc)) (hds : (ds.map (·.1)).Nodup) (gs : List (Str × List Tok))
    (init : Desc → Str) (d : Decls) (hd : (Dict.keys d).Nodup) (p : Str) (k : Str) :
    Dict.get? (setAll d p (fill init ds (ds.filterMap (fun nd => (textOf gs nd.1).map (fun v => (nd.1, v)))))) k =
      match Dict.get? ds k with
      | some de => some ((textOf gs k).getD (init de), p)
      | none => Dict.get? d k := by
  rw [get_setAll d hd p _ (nodup_fill _ _ _ hds (found_names ds _ hds)), get_fill, get_found ds (textOf gs) k]
  cases h : Dict.get? ds k with
  | none =>
    have : k ∉ ds.map (·.1) := (Dict.get?_eq_none_iff ds k).mp h
    simp [this]
  | some de =>
    have : k ∈ ds.map (·.1) := by
      by_contra hh
      rw [(Dict.get?_eq_none_iff ds k).mpr hh] at h
      exact absurd h (by simp)
    rw [if_pos this]
    cases textOf gs k <;> simp

private theorem collect_all (supports : Str → Str → Bool) (d : Decls) (ls : List Str) (v : Str → Str) (p : Str)
    (h : ∀ n ∈ ls, Dict.get? d n = some (v n, p) ∧ v n ≠ [] ∧ supports n (v n) = true) :
    collect supports d ls = some (ls.map fun n => (n, (v n, p))) := by
  induction ls with
  | nil => rfl
  | cons n ls ih =>
    obtain ⟨h1, h2, h3⟩ := h n (by simp)
    simp [collect, h1, h2, h3, ih (fun m hm => h m (by simp [hm]))]

private theorem getValue_all (supports : Str → Str → Bool) (d : Decls) (ls : List Str) (hls : ls ≠ []) (ts : Dict Str Str → Str)
    (v : Str → Str) (p : Str) (h : ∀ n ∈ ls, Dict.get? d n = some (v n, p) ∧ v n ≠ [] ∧ supports n (v n) = true) :
    Shorthand.getValue supports ls ts d = ts (ls.map fun n => (n, v n)) := by
  unfold Shorthand.getValue
  rw [collect_all supports d ls v p h]
  have : agree ((ls.map fun n => (n, (v n, p))).map fun x => x.2.2) = true := by
    cases ls with
    | nil => exact absurd rfl hls
    | cons n ls => simp [agree]
  simp only [this, if_true]
  rw [List.map_map]
  rfl

private theorem join_cons (a b : Str) (l : List Str) : join [' '] (a :: b :: l) = a ++ ' ' :: join [' '] (b :: l) := by
  have : join [' '] (a :: b :: l) = a ++ [' '] ++ join [' '] (b :: l) := rfl
  rw [this]; simp

private theorem sentence_append (a b : List Tok) (ha : a ≠ []) (hb : b ≠ []) :
    sentence (a ++ b) = sentence a ++ ' ' :: sentence b := by
  induction a with
  | nil => exact absurd rfl ha
  | cons t a ih =>
    cases a with
    | nil =>
      cases b with
      | nil => exact absurd rfl hb
      | cons u b => rfl
    | cons v a =>
      have h1 : sentence ((t :: v :: a) ++ b) = t.text ++ ' ' :: sentence ((v :: a) ++ b) := rfl
      have h2 : sentence (t :: v :: a) = t.text ++ ' ' :: sentence (v :: a) := rfl
      rw [h1, ih (by simp), h2]; simp

private theorem join_sentences (ws : List (List Tok)) (h : ∀ w ∈ ws, w ≠ []) :
    join [' '] (ws.map sentence) = sentence ws.flatten := by
  induction ws with
  | nil => rfl
  | cons w ws ih =>
    have ih' := ih (fun x hx => h x (by simp [hx]))
    cases ws with
    | nil => simp [join]
    | cons v ws =>
      have hne : (v :: ws).flatten ≠ [] := by
        intro e
        simp only [List.flatten_cons, List.append_eq_nil_iff] at e
        exact h v (by simp) e.1
      rw [List.flatten_cons, sentence_append _ _ (h w (by simp)) hne, ← ih']
      exact join_cons _ _ _

private theorem sentence_notin (L : List Str) (hL : ∀ s ∈ L, ' ' ∉ s) (w : List Tok) (hw : w ≠ []) (h : ∀ t ∈ w, t.text ∉ L) :
    sentence w ∉ L := by
  cases w with
  | nil => exact absurd rfl hw
  | cons t w =>
    cases w with
    | nil => exact h t (by simp)
    | cons u w =>
      intro hm
      apply hL _ hm
      have : sentence (t :: u :: w) = t.text ++ ' ' :: sentence (u :: w) := rfl
      rw [this]; simp

/-- The words of a value with the groups in that order of longhands. -/
def inOrder (names : List Str) (gs : List (Str × List Tok)) : List Tok := names.flatMap fun n => (Dict.get? gs n).getD []

private theorem order_text (names : List Str) (gs : List (Str × List Tok)) (init : Str)
    (hne : ∀ n w, Dict.get? gs n = some w → w ≠ [] ∧ sentence w ≠ init) :
    join [' '] ((names.map fun n => (textOf gs n).getD init).filter fun x => x != init) = sentence (inOrder names gs) := by
  have h2 : inOrder names gs = (names.filterMap (Dict.get? gs)).flatten := by
    unfold inOrder
    induction names with
    | nil => rfl
    | cons n names ih => cases h : Dict.get? gs n <;> simp [h, ih]
  have h1 : (names.map fun n => (textOf gs n).getD init).filter (fun x => x != init) =
      (names.filterMap (Dict.get? gs)).map sentence := by
    clear h2
    induction names with
    | nil => rfl
    | cons n names ih =>
      cases h : Dict.get? gs n with
      | none => simp [h, textOf]; simpa [textOf] using ih
      | some w =>
        have := (hne n w h).2
        simp [h, textOf, this]; simpa [textOf] using ih
  rw [h1, h2]
  apply join_sentences
  intro w hw
  obtain ⟨n, _, hn⟩ := List.mem_filterMap.mp hw
  exact (hne n w hn).1

private theorem textOf_perm (gs gs' : List (Str × List Tok)) (hn : (gs.map (·.1)).Nodup) (h : gs.Perm gs') (n : Str) :
    textOf gs n = textOf gs' n := by
  have hn' : (gs'.map (·.1)).Nodup := (h.map _).nodup_iff.mp hn
  unfold textOf
  congr 1
  cases h1 : Dict.get? gs n with
  | none =>
    symm
    rw [Dict.get?_eq_none_iff] at h1 ⊢
    exact fun e => h1 ((h.map _).mem_iff.mpr e)
  | some v =>
    symm
    rw [← Dict.mem_iff_get? gs' hn']
    exact h.mem_iff.mp ((Dict.mem_iff_get? gs hn n v).mpr h1)

private theorem get_of_mem (gs : List (Str × List Tok)) (hn : (gs.map (·.1)).Nodup) (g : Str × List Tok) (h : g ∈ gs) :
    textOf gs g.1 = some (sentence g.2) := by
  have : Dict.get? gs g.1 = some g.2 := (Dict.mem_iff_get? gs hn g.1 g.2).mp h
  simp [textOf, this]

private theorem get_of_notMem (gs : List (Str × List Tok)) (n : Str) (h : n ∉ gs.map (·.1)) : textOf gs n = none := by
  have : Dict.get? gs n = none := (Dict.get?_eq_none_iff gs n).mpr h
  simp [textOf, this]

/-! ### C94: `text-decoration` -/

/-- Words of `text-decoration-line` (CSS Text Decoration 4). -/
def lineWords : List String :=
  ["none", "underline", "overline", "line-through", "blink", "spelling-error", "grammar-error"]

/-- Words of `text-decoration-style`. -/
def styleWords : List String := ["solid", "double", "dotted", "dashed", "wavy"]

/-- The word may be used for the longhand; `color` tells what a colour is. -/
inductive DecorationWord (color : Tok → Bool) : Str → Tok → Prop
  | line (s : String) : s ∈ lineWords → DecorationWord color "text-decoration-line".toList (kw s)
  | style (s : String) : s ∈ styleWords → DecorationWord color "text-decoration-style".toList (kw s)
  | color (t : Tok) : Ordinary t → color t = true → DecorationWord color "text-decoration-color".toList t

/-- No keyword of the other longhands is a colour. -/
def ColorOk (color : Tok → Bool) : Prop := ∀ s ∈ lineWords ++ styleWords, ∀ low, color (.ident s.toList low) = false

private def plain (s : String) : Bool :=
  s.toList ∉ ["default".toList, "inherit".toList, "initial".toList, "revert".toList, "unset".toList] && s.toList != [] &&
    s.toList.head?.all (fun c => !isSpace c) && s.toList.getLast?.all (fun c => !isSpace c)

private theorem ordinary_kw (s : String) (h : plain s = true) : Ordinary (kw s) := by
  simp only [plain, Bool.and_eq_true, decide_eq_true_eq, bne_iff_ne] at h
  obtain ⟨⟨⟨h1, h2⟩, h3⟩, h4⟩ := h
  refine ⟨?_, ?_, h1, ?_, ?_, h2, ?_, ?_⟩
  · intro s; simp [kw]
  · intro s' k e
    simp only [kw, Tok.ident.injEq] at e
    rw [← e.2]; exact h1
  · simp [kw]
  · simp [kw]
  · intro x hx
    have hx' : s.toList.head? = some x := hx
    rw [hx'] at h3; simpa using h3
  · intro x hx
    have hx' : s.toList.getLast? = some x := hx
    rw [hx'] at h4; simpa using h4

private theorem td_owned (color : Tok → Bool) (hc : ColorOk color) (n : Str) (t : Tok) (h : DecorationWord color n t) :
    Owned (tdDescs color) n t := by
  cases h with
  | line s hs =>
    refine ⟨ordinary_kw s ((by decide : ∀ s ∈ lineWords, plain s = true) s hs), ?_⟩
    have h3 : color (kw s) = false := hc s (by simp [hs]) _
    have h1 : keywords ["none", "underline", "overline", "line-through", "blink", "spelling-error", "grammar-error"] nothing
        (kw s) = true := (by decide : ∀ s ∈ lineWords, keywords ["none", "underline", "overline", "line-through", "blink",
          "spelling-error", "grammar-error"] nothing (kw s) = true) s hs
    have h2 : keywords ["solid", "double", "dotted", "dashed", "wavy"] nothing (kw s) = false :=
      (by decide : ∀ s ∈ lineWords, keywords ["solid", "double", "dotted", "dashed", "wavy"] nothing (kw s) = false) s hs
    intro nd hnd
    simp only [tdDescs, List.mem_cons, List.not_mem_nil, or_false] at hnd
    rcases hnd with rfl | rfl | rfl
    · simp only [h1]
    · simp only [h2]; decide
    · simp only [h3]; decide
  | style s hs =>
    refine ⟨ordinary_kw s ((by decide : ∀ s ∈ styleWords, plain s = true) s hs), ?_⟩
    have h3 : color (kw s) = false := hc s (by simp [hs]) _
    have h1 : keywords ["none", "underline", "overline", "line-through", "blink", "spelling-error", "grammar-error"] nothing
        (kw s) = false := (by decide : ∀ s ∈ styleWords, keywords ["none", "underline", "overline", "line-through", "blink",
          "spelling-error", "grammar-error"] nothing (kw s) = false) s hs
    have h2 : keywords ["solid", "double", "dotted", "dashed", "wavy"] nothing (kw s) = true :=
      (by decide : ∀ s ∈ styleWords, keywords ["solid", "double", "dotted", "dashed", "wavy"] nothing (kw s) = true) s hs
    intro nd hnd
    simp only [tdDescs, List.mem_cons, List.not_mem_nil, or_false] at hnd
    rcases hnd with rfl | rfl | rfl
    · simp only [h1]; decide
    · simp only [h2]
    · simp only [h3]; decide
  | color t ht hct =>
    refine ⟨ht, ?_⟩
    have key : ∀ ks : List String, (∀ s ∈ ks, s ∈ lineWords ++ styleWords) → keywords ks nothing t = false := by
      intro ks hks
      cases t with
      | ident s low =>
        simp only [keywords, nothing, Bool.or_false, List.any_eq_false]
        intro k hk hsk
        have e : s = k.toList := by simpa using hsk
        have := hc k (hks k hk) low
        rw [← e] at this
        rw [this] at hct; exact absurd hct (by decide)
      | _ => rfl
    intro nd hnd
    simp only [tdDescs, List.mem_cons, List.not_mem_nil, or_false] at hnd
    rcases hnd with rfl | rfl | rfl
    · have := key ["none", "underline", "overline", "line-through", "blink", "spelling-error", "grammar-error"] (by decide)
      simp only [this]; decide
    · have := key ["solid", "double", "dotted", "dashed", "wavy"] (by decide)
      simp only [this]; decide
    · simp only [hct]

private theorem td_names (color : Tok → Bool) : ((tdDescs color).map (·.1)).Nodup := by
  show tdLonghands.Nodup
  decide

private theorem td_word (color : Tok → Bool) (n : Str) (t : Tok) (h : DecorationWord color n t) : n ∈ tdLonghands := by
  cases h <;> decide

private theorem td_eq (color : Tok → Bool) (hc : ColorOk color) (d : Decls) (gs : List (Str × List Tok))
    (hg : Groups (DecorationWord color) gs) (p : Str) :
    tdSet (tdDescs color) d (spaced (gs.flatMap (·.2))) p = some (setAll d p (fill (fun _ => "initial".toList) (tdDescs color)
      ((tdDescs color).filterMap (fun nd => (textOf gs nd.1).map (fun v => (nd.1, v)))))) := by
  obtain ⟨h1, h2⟩ := texts_flat (tdDescs color) (td_names color) gs hg.distinct
    (fun g h => ⟨(hg.words g h).1, fun t ht => td_owned color hc _ t ((hg.words g h).2 t ht)⟩)
  simp [tdSet, h1, h2]

private theorem td_desc (color : Tok → Bool) (n : Str) (h : n ∈ tdLonghands) : ∃ de, Dict.get? (tdDescs color) n = some de := by
  cases hh : Dict.get? (tdDescs color) n with
  | some de => exact ⟨de, rfl⟩
  | none => exact absurd h ((Dict.get?_eq_none_iff _ _).mp hh)

private theorem td_get' (color : Tok → Bool) (hc : ColorOk color) (d d' : Decls) (hd : (Dict.keys d).Nodup)
    (gs : List (Str × List Tok)) (hg : Groups (DecorationWord color) gs) (p : Str)
    (h : tdSet (tdDescs color) d (spaced (gs.flatMap (·.2))) p = some d') (k : Str) :
    Dict.get? d' k = if k ∈ tdLonghands then some ((textOf gs k).getD "initial".toList, p) else Dict.get? d k := by
  rw [td_eq color hc d gs hg p, Option.some.injEq] at h
  rw [← h, get_filled (tdDescs color) (td_names color) gs _ d hd p k]
  by_cases hk : k ∈ tdLonghands
  · obtain ⟨de, hde⟩ := td_desc color k hk
    rw [hde, if_pos hk]
  · rw [if_neg hk, (Dict.get?_eq_none_iff (tdDescs color) k).mpr hk]

/-- **C94** (setting).  A value made of words for the longhands, the groups in any order, is accepted: each longhand gets its
words, the others are reset, and no other property changes. -/
theorem td_set (color : Tok → Bool) (hc : ColorOk color) (d : Decls) (hd : (Dict.keys d).Nodup) (gs : List (Str × List Tok))
    (hg : Groups (DecorationWord color) gs) (p : Str) :
    ∃ d', tdSet (tdDescs color) d (spaced (gs.flatMap (·.2))) p = some d' ∧
      (∀ g ∈ gs, Dict.get? d' g.1 = some (sentence g.2, p)) ∧
      (∀ n ∈ ["text-decoration-line".toList, "text-decoration-style".toList, "text-decoration-color".toList],
        n ∉ gs.map (·.1) → Dict.get? d' n = some ("initial".toList, p)) ∧
      (∀ k, k ∉ ["text-decoration-line".toList, "text-decoration-style".toList, "text-decoration-color".toList] →
        Dict.get? d' k = Dict.get? d k) := by
  refine ⟨_, td_eq color hc d gs hg p, ?_, ?_, ?_⟩
  · intro g h
    rw [td_get' color hc d _ hd gs hg p (td_eq color hc d gs hg p)]
    obtain ⟨t, ht⟩ := List.exists_mem_of_ne_nil _ (hg.words g h).1
    rw [if_pos (td_word color _ t ((hg.words g h).2 t ht)), get_of_mem gs hg.distinct g h]
    rfl
  · intro n hn hg'
    rw [td_get' color hc d _ hd gs hg p (td_eq color hc d gs hg p), get_of_notMem gs n hg']
    exact if_pos hn
  · intro k hk
    rw [td_get' color hc d _ hd gs hg p (td_eq color hc d gs hg p)]
    exact if_neg hk

/-- **C94** (order).  The order of the groups does not matter. -/
theorem td_order (color : Tok → Bool) (hc : ColorOk color) (d : Decls) (gs gs' : List (Str × List Tok))
    (hg : Groups (DecorationWord color) gs) (h : gs.Perm gs') (p : Str) :
    tdSet (tdDescs color) d (spaced (gs.flatMap (·.2))) p = tdSet (tdDescs color) d (spaced (gs'.flatMap (·.2))) p := by
  have hg' : Groups (DecorationWord color) gs' :=
    ⟨(h.map _).nodup_iff.mp hg.distinct, fun g hm => hg.words g (h.mem_iff.mpr hm)⟩
  rw [td_eq color hc d gs hg p, td_eq color hc d gs' hg' p]
  simp only [textOf_perm gs gs' hg.distinct h]

private theorem td_text (v : Str → Str) : tdToString (tdLonghands.map fun n => (n, v n)) =
    (let a := v "text-decoration-line".toList
     let b := v "text-decoration-style".toList
     let c := v "text-decoration-color".toList
     if (wideKeywords.contains a && wideKeywords.contains b && wideKeywords.contains c) && (b == a && c == a) then a
     else if [a, b, c].any fun x => wideKeywords.contains x && x != "initial".toList then []
     else join [' '] ([a, b, c].filter fun x => x != "initial".toList)) := rfl

private theorem wide_space : ∀ s ∈ wideKeywords, ' ' ∉ s := by decide

/-- **C94** (round trip).  Reading `text-decoration` after setting it gives the words that were set, the groups in the order
line, style, colour. -/
theorem td_round_trip_partial (color : Tok → Bool) (hc : ColorOk color) (supports : Str → Str → Bool) (d d' : Decls)
    (hd : (Dict.keys d).Nodup) (gs : List (Str × List Tok)) (hg : Groups (DecorationWord color) gs) (hne : gs ≠ []) (p : Str)
    (hs : ∀ g ∈ gs, supports g.1 (sentence g.2) = true) (hi : ∀ n, supports n "initial".toList = true)
    (h : tdSet (tdDescs color) d (spaced (gs.flatMap (·.2))) p = some d') :
    tdGet supports d' =
      sentence (inOrder ["text-decoration-line".toList, "text-decoration-style".toList, "text-decoration-color".toList] gs) := by
  have hw : ∀ n w, Dict.get? gs n = some w → w ≠ [] ∧ sentence w ∉ wideKeywords ∧ sentence w ≠ [] ∧ supports n (sentence w) = true
      ∧ n ∈ tdLonghands := by
    intro n w hnw
    have hm : (n, w) ∈ gs := (Dict.mem_iff_get? gs hg.distinct n w).mpr hnw
    have hx := hg.words _ hm
    have ho : ∀ t ∈ w, Ordinary t := fun t ht => (td_owned color hc _ t (hx.2 t ht)).1
    obtain ⟨t, ht⟩ := List.exists_mem_of_ne_nil _ hx.1
    exact ⟨hx.1, sentence_notin _ wide_space w hx.1 (fun t ht => (ho t ht).notWideText), (sentence_ends w hx.1 ho).1, hs _ hm,
      td_word color _ t (hx.2 t ht)⟩
  have hin : "initial".toList ∈ wideKeywords := by decide
  let v : Str → Str := fun n => (textOf gs n).getD "initial".toList
  have hv : ∀ n, v n = "initial".toList ∨ v n ∉ wideKeywords := by
    intro n
    show (textOf gs n).getD _ = _ ∨ _
    cases hh : Dict.get? gs n with
    | none => left; simp [textOf, hh]
    | some w => right; simp only [v, textOf, hh, Option.map_some, Option.getD_some]; exact (hw n w hh).2.1
  unfold tdGet
  rw [getValue_all supports d' tdLonghands (by decide) tdToString v p]
  · rw [td_text]
    simp only []
    have h1 : ([v "text-decoration-line".toList, v "text-decoration-style".toList, v "text-decoration-color".toList].any
        fun x => wideKeywords.contains x && x != "initial".toList) = false := by
      rw [List.any_eq_false]
      intro x hx
      simp only [List.mem_cons, List.not_mem_nil, or_false] at hx
      have : x = "initial".toList ∨ x ∉ wideKeywords := by
        rcases hx with rfl | rfl | rfl <;> exact hv _
      rcases this with rfl | h' <;> simp_all
    have h2 : ¬ (wideKeywords.contains (v "text-decoration-line".toList) && wideKeywords.contains (v "text-decoration-style".toList) &&
        wideKeywords.contains (v "text-decoration-color".toList)) = true := by
      intro hall
      simp only [Bool.and_eq_true, List.contains_iff_mem] at hall
      cases gs with
      | nil => exact hne rfl
      | cons g gs =>
        have hget : Dict.get? (g :: gs) g.1 = some g.2 := by simp [Dict.get?]
        have h5 := hw g.1 g.2 hget
        have h6 : v g.1 = sentence g.2 := by simp [v, textOf, hget]
        have h7 := h5.2.2.2.2
        simp only [tdLonghands, List.mem_cons, List.not_mem_nil, or_false] at h7
        rcases h7 with e | e | e <;> rw [e] at h6 <;> rw [h6] at hall <;> simp_all
    rw [if_neg (by intro hh; exact h2 (by simp only [Bool.and_eq_true] at hh ⊢; exact hh.1)), if_neg (by rw [h1]; decide)]
    exact order_text tdLonghands gs "initial".toList (fun n w hnw => ⟨(hw n w hnw).1, fun e => (hw n w hnw).2.1 (e ▸ hin)⟩)
  · intro n hn
    refine ⟨?_, ?_, ?_⟩
    · rw [td_get' color hc d d' hd gs hg p h, if_pos hn]
    · show (textOf gs n).getD _ ≠ []
      cases hh : Dict.get? gs n with
      | none => simp [textOf, hh]
      | some w => simp [textOf, hh, (hw n w hh).2.2.1]
    · show supports n ((textOf gs n).getD _) = true
      cases hh : Dict.get? gs n with
      | none => simpa [textOf, hh] using hi n
      | some w => simp [textOf, hh, (hw n w hh).2.2.2.1]

private theorem parse_wide (ds : List (Str × Desc)) (hds : ds ≠ []) (t k : Str) (hk : k ∈ wideKeywords) :
    parseAll ds [.ident t k] = ([], [k]) := by
  cases ds with
  | nil => exact absurd rfl hds
  | cons nd ds =>
    have h0 : ∀ ds, parseAll ds [] = ([], []) := by
      intro ds
      induction ds with
      | nil => rfl
      | cons nd ds ih => simp [parseAll, parseList, ih]
    simp [parseAll, parseList, wideOf, hk, h0, Parsed.wide]

private theorem fill_nil (k : Str) (ds : List (Str × Desc)) : fill (fun _ => k) ds [] = ds.map fun nd => (nd.1, k) := by
  have : ds.filter (fun nd => !(Dict.contains ([] : Dict Str Str) nd.1)) = ds := by
    rw [List.filter_eq_self]; intro a _; rfl
  simp only [fill, this, List.nil_append]

private theorem get_const (ds : List (Str × Desc)) (hds : (ds.map (·.1)).Nodup) (d : Decls) (hd : (Dict.keys d).Nodup)
    (v : Str × Desc → Str) (p k : Str) (nd : Str × Desc) (hnd : nd ∈ ds) :
    Dict.get? (setAll d p (ds.map fun nd => (nd.1, v nd))) nd.1 = some (v nd, p) := by
  have hk : ((ds.map fun nd => (nd.1, v nd)).map (·.1)).Nodup := by rw [List.map_map]; exact hds
  rw [get_setAll d hd p _ hk]
  have : Dict.get? (ds.map fun nd => (nd.1, v nd)) nd.1 = some (v nd) := by
    rw [← Dict.mem_iff_get? _ hk]
    exact List.mem_map.mpr ⟨nd, hnd, rfl⟩
  rw [this]

private theorem get_const_other (ds : List (Str × Desc)) (hds : (ds.map (·.1)).Nodup) (d : Decls) (hd : (Dict.keys d).Nodup)
    (v : Str × Desc → Str) (p k : Str) (hk : k ∉ ds.map (·.1)) :
    Dict.get? (setAll d p (ds.map fun nd => (nd.1, v nd))) k = Dict.get? d k := by
  have hk' : ((ds.map fun nd => (nd.1, v nd)).map (·.1)).Nodup := by rw [List.map_map]; exact hds
  rw [get_setAll d hd p _ hk']
  have : Dict.get? (ds.map fun nd => (nd.1, v nd)) k = none := by
    rw [Dict.get?_eq_none_iff]
    show k ∉ (ds.map fun nd => (nd.1, v nd)).map (·.1)
    rw [List.map_map]; exact hk
  rw [this]

private theorem wide_ne (k : Str) (h : Wide k) : k ≠ [] ∧ k ∈ wideKeywords := by
  cases h <;> exact ⟨by decide, by decide⟩

/-- **C94** (CSS-wide keywords).  A CSS-wide keyword in any letter case is given to all longhands and is read back. -/
theorem td_wide (color : Tok → Bool) (supports : Str → Str → Bool) (d : Decls) (hd : (Dict.keys d).Nodup) (t k p : Str)
    (hk : Wide k) (hs : ∀ n, supports n k = true) :
    ∃ d', tdSet (tdDescs color) d [.ident t k] p = some d' ∧
      (∀ n ∈ ["text-decoration-line".toList, "text-decoration-style".toList, "text-decoration-color".toList],
        Dict.get? d' n = some (k, p)) ∧
      (∀ n, n ∉ ["text-decoration-line".toList, "text-decoration-style".toList, "text-decoration-color".toList] →
        Dict.get? d' n = Dict.get? d n) ∧ tdGet supports d' = k := by
  obtain ⟨hne, hm⟩ := wide_ne k hk
  have he : tdSet (tdDescs color) d [.ident t k] p = some (setAll d p ((tdDescs color).map fun nd => (nd.1, k))) := by
    simp only [tdSet, parse_wide (tdDescs color) (by simp [tdDescs]) t k hm, fill_nil]
    rfl
  have hall : ∀ n ∈ tdLonghands, Dict.get? (setAll d p ((tdDescs color).map fun nd => (nd.1, k))) n = some (k, p) := by
    intro n hn
    have hn' : n ∈ (tdDescs color).map (·.1) := hn
    obtain ⟨nd, h1, rfl⟩ := List.mem_map.mp hn'
    exact get_const (tdDescs color) (td_names color) d hd (fun _ => k) p k nd h1
  refine ⟨_, he, hall, fun n hn => get_const_other (tdDescs color) (td_names color) d hd (fun _ => k) p n hn, ?_⟩
  unfold tdGet
  rw [getValue_all supports _ tdLonghands (by decide) tdToString (fun _ => k) p (fun n hn => ⟨hall n hn, hne, hs n⟩), td_text]
  have : wideKeywords.contains k = true := by rw [List.contains_iff_mem]; exact hm
  simp only [this, beq_self_eq_true, Bool.and_self, if_true]

/-- Two CSS-wide keywords are refused: the declarations do not change. -/
theorem td_two_wides (color : Tok → Bool) (d : Decls) (t k t' k' p : Str) (hk : Wide k) (hk' : Wide k') :
    tdSet (tdDescs color) d [.ident t k, .ws [' '], .ident t' k'] p = none := by
  obtain ⟨_, hm⟩ := wide_ne k hk
  obtain ⟨_, hm'⟩ := wide_ne k' hk'
  have h0 : ∀ de, parseList de none [.ident t k, .ws [' '], .ident t' k'] = ⟨none, [k, k'], [.ws [' ']]⟩ := by
    intro de
    simp [parseList, wideOf, hm, hm', Parsed.wide, Parsed.keep]
  have h1 : ∀ ds, (parseAll ds [.ws [' ']]) = ([], []) := by
    intro ds
    induction ds with
    | nil => rfl
    | cons nd ds ih => simp [parseAll, parseList, Parsed.keep, ih]
  have h2 : (parseAll (tdDescs color) [.ident t k, .ws [' '], .ident t' k']).2 = [k, k'] := by
    simp only [tdDescs]
    rw [parseAll, h0]
    simp only [h1]
    rfl
  simp only [tdSet, h2]
  rfl

/-- Hexadecimal colours and two names stand for the colours in the examples. -/
def sampleColor : Tok → Bool
  | .other ('#' :: _) => true
  | .ident t _ => t == "red".toList || t == "currentcolor".toList
  | _ => false

/-- Finding: text that is no value at all is not ignored; it resets the longhands. -/
theorem td_garbage_violated : tdSet (tdDescs sampleColor) [("text-decoration-line".toList, ("underline".toList, []))]
    [kw "foo"] [] = some [("text-decoration-line".toList, ("initial".toList, [])),
      ("text-decoration-style".toList, ("initial".toList, [])), ("text-decoration-color".toList, ("initial".toList, []))] := by
  decide

/-- Finding: words after an interruption are dropped without a word: `underline red overline` is the same as `underline red`. -/
theorem td_dropped_violated :
    tdSet (tdDescs sampleColor) [] (spaced [kw "underline", kw "red", kw "overline"]) [] =
      tdSet (tdDescs sampleColor) [] (spaced [kw "underline", kw "red"]) [] := by decide

/-- Finding: the letter case of keywords matters. -/
theorem td_case_violated :
    (tdSet (tdDescs sampleColor) [] [.ident "UNDERLINE".toList "underline".toList] []).map
      (fun d => Dict.get? d "text-decoration-line".toList) = some (some ("initial".toList, [])) := by decide

/-- Non-trivial instance: `#f00 wavy underline overline`. -/
example : Groups (DecorationWord sampleColor) [("text-decoration-color".toList, [.other "#f00".toList]),
    ("text-decoration-style".toList, [kw "wavy"]), ("text-decoration-line".toList, [kw "underline", kw "overline"])] := by
  refine ⟨by decide, ?_⟩
  intro g hg
  simp only [List.mem_cons, List.not_mem_nil, or_false] at hg
  rcases hg with rfl | rfl | rfl
  · refine ⟨by simp, ?_⟩
    intro t ht
    simp only [List.mem_cons, List.not_mem_nil, or_false] at ht
    subst ht
    refine .color _ ⟨by simp, by simp, by decide, by simp, by simp, by decide, ?_, ?_⟩ (by decide)
    · intro x hx; simp [Tok.text] at hx; subst hx; decide
    · intro x hx; simp [Tok.text] at hx; subst hx; decide
  · refine ⟨by simp, ?_⟩
    intro t ht
    simp only [List.mem_cons, List.not_mem_nil, or_false] at ht
    subst ht
    exact .style _ (by decide)
  · refine ⟨by simp, ?_⟩
    intro t ht
    simp only [List.mem_cons, List.not_mem_nil, or_false] at ht
    rcases ht with rfl | rfl <;> exact .line _ (by decide)

example : ColorOk sampleColor := by
  intro s hs low
  revert s
  simp only [lineWords, styleWords, sampleColor]
  decide

example : (tdSet (tdDescs sampleColor) [("fill".toList, ("red".toList, []))]
    (spaced [.other "#f00".toList, kw "wavy", kw "underline", kw "overline"]) "important".toList).map (tdGet fun _ _ => true) =
    some "underline overline wavy #f00".toList := by decide

/-! ### C95: `font-variant` -/

/-- Keywords of the longhands of `font-variant` besides `normal` and `none` (CSS Fonts 4). -/
def variantWords : List (Str × List String) :=
  [("font-variant-ligatures".toList, ["common-ligatures", "no-common-ligatures", "discretionary-ligatures",
     "no-discretionary-ligatures", "historical-ligatures", "no-historical-ligatures", "contextual", "no-contextual"]),
   ("font-variant-caps".toList, ["small-caps", "all-small-caps", "petite-caps", "all-petite-caps", "unicase", "titling-caps"]),
   ("font-variant-alternates".toList, ["historical-forms"]),
   ("font-variant-numeric".toList, ["lining-nums", "oldstyle-nums", "proportional-nums", "tabular-nums", "diagonal-fractions",
     "stacked-fractions", "ordinal", "slashed-zero"]),
   ("font-variant-east-asian".toList, ["jis78", "jis83", "jis90", "jis04", "simplified", "traditional", "full-width",
     "proportional-width", "ruby"]),
   ("font-variant-position".toList, ["sub", "super"])]

/-- The word may be used for the longhand; `alt` tells the functions of `font-variant-alternates`. -/
inductive VariantWord (alt : Tok → Bool) : Str → Tok → Prop
  | keyword (n : Str) (ss : List String) (s : String) : (n, ss) ∈ variantWords → s ∈ ss → VariantWord alt n (kw s)
  | function (t : Tok) : Ordinary t → alt t = true → t.text ∉ ["normal".toList, "none".toList] →
      VariantWord alt "font-variant-alternates".toList t

/-- Functions are not identifiers. -/
def AltOk (alt : Tok → Bool) : Prop := ∀ s low, alt (.ident s low) = false

private theorem fv_kw : ∀ x ∈ variantWords, ∀ s ∈ x.2, plain s = true ∧ s.toList ∉ ["normal".toList, "none".toList] ∧
    ∀ nd ∈ fvDescs nothing, (nd.2.support (kw s) = true ↔ nd.1 = x.1) := by
  decide +kernel

private theorem fv_owned (alt : Tok → Bool) (ha : AltOk alt) (n : Str) (t : Tok) (h : VariantWord alt n t) :
    Owned (fvDescs alt) n t := by
  cases h with
  | keyword n ss s hss hs =>
    obtain ⟨h1, _, h2⟩ := fv_kw (n, ss) hss s hs
    refine ⟨ordinary_kw s h1, ?_⟩
    have ha' : ∀ ks, keywords ks alt (kw s) = keywords ks nothing (kw s) := by
      intro ks; simp [keywords, kw, ha _ _, nothing]
    intro nd hnd
    simp only [fvDescs, List.mem_cons, List.not_mem_nil, or_false] at hnd h2
    rcases hnd with rfl | rfl | rfl | rfl | rfl | rfl
    · exact h2 _ (.inl rfl)
    · exact h2 _ (.inr (.inl rfl))
    · show keywords _ alt (kw s) = true ↔ _
      rw [ha']
      exact h2 _ (.inr (.inr (.inl rfl)))
    · exact h2 _ (.inr (.inr (.inr (.inl rfl))))
    · exact h2 _ (.inr (.inr (.inr (.inr (.inl rfl)))))
    · exact h2 _ (.inr (.inr (.inr (.inr (.inr rfl)))))
  | function t ho hat hx =>
    refine ⟨ho, ?_⟩
    have hk : ∀ ks more, keywords ks more t = more t := by
      intro ks more
      cases t with
      | ident s low => rw [ha] at hat; exact absurd hat (by decide)
      | _ => rfl
    intro nd hnd
    simp only [fvDescs, List.mem_cons, List.not_mem_nil, or_false] at hnd
    rcases hnd with rfl | rfl | rfl | rfl | rfl | rfl <;> simp only [hk, nothing, hat] <;> decide

private theorem fv_names (alt : Tok → Bool) : ((fvDescs alt).map (·.1)).Nodup := by
  show fvLonghands.Nodup
  decide

private theorem fv_word (alt : Tok → Bool) (n : Str) (t : Tok) (h : VariantWord alt n t) :
    n ∈ fvLonghands ∧ t.text ∉ ["normal".toList, "none".toList] := by
  cases h with
  | keyword n ss s hss hs =>
    refine ⟨?_, (fv_kw (n, ss) hss s hs).2.1⟩
    have : n ∈ variantWords.map (·.1) := List.mem_map.mpr ⟨_, hss, rfl⟩
    exact this
  | function t _ _ hx => exact ⟨by decide, hx⟩

private theorem fv_initial (alt : Tok → Bool) (n : Str) (de : Desc) (h : Dict.get? (fvDescs alt) n = some de) :
    de.initial = "normal".toList := by
  have := (Dict.mem_iff_get? (fvDescs alt) (fv_names alt) n de).mpr h
  simp only [fvDescs, List.mem_cons, List.not_mem_nil, or_false, Prod.mk.injEq] at this
  rcases this with ⟨_, rfl⟩ | ⟨_, rfl⟩ | ⟨_, rfl⟩ | ⟨_, rfl⟩ | ⟨_, rfl⟩ | ⟨_, rfl⟩ <;> rfl

private theorem sentence_words (alt : Tok → Bool) (ha : AltOk alt) (gs : List (Str × List Tok)) (hg : Groups (VariantWord alt) gs)
    (hne : gs ≠ []) : valueText (spaced (gs.flatMap (·.2))) ∉ ["normal".toList, "none".toList] := by
  have hne' := flat_ne gs (fun g h => (hg.words g h).1) hne
  have hm : ∀ t ∈ gs.flatMap (·.2), Ordinary t ∧ t.text ∉ ["normal".toList, "none".toList] := by
    intro t ht
    obtain ⟨g, h1, h2⟩ := List.mem_flatMap.mp ht
    have := (hg.words g h1).2 t h2
    exact ⟨(fv_owned alt ha _ t this).1, (fv_word alt _ t this).2⟩
  have := valueText_run (gs.flatMap (·.2)) [] hne' (fun t ht => (hm t ht).1) (.inl rfl)
  rw [List.append_nil] at this
  rw [this]
  exact sentence_notin _ (by decide) _ hne' (fun t ht => (hm t ht).2)

private theorem fv_eq (alt : Tok → Bool) (ha : AltOk alt) (d : Decls) (gs : List (Str × List Tok))
    (hg : Groups (VariantWord alt) gs) (hne : gs ≠ []) (p : Str) :
    fvSet (fvDescs alt) d (spaced (gs.flatMap (·.2))) p = setAll d p (fill (fun nd => nd.initial) (fvDescs alt)
      ((fvDescs alt).filterMap (fun nd => (textOf gs nd.1).map (fun v => (nd.1, v))))) := by
  obtain ⟨h1, h2⟩ := texts_flat (fvDescs alt) (fv_names alt) gs hg.distinct
    (fun g h => ⟨(hg.words g h).1, fun t ht => fv_owned alt ha _ t ((hg.words g h).2 t ht)⟩)
  have hv := sentence_words alt ha gs hg hne
  simp only [List.mem_cons, List.not_mem_nil, or_false] at hv
  simp only [fvSet]
  rw [if_neg hv]
  simp [h1, h2]

private theorem fv_get' (alt : Tok → Bool) (ha : AltOk alt) (d : Decls) (hd : (Dict.keys d).Nodup)
    (gs : List (Str × List Tok)) (hg : Groups (VariantWord alt) gs) (hne : gs ≠ []) (p k : Str) :
    Dict.get? (fvSet (fvDescs alt) d (spaced (gs.flatMap (·.2))) p) k =
      if k ∈ fvLonghands then some ((textOf gs k).getD "normal".toList, p) else Dict.get? d k := by
  rw [fv_eq alt ha d gs hg hne p, get_filled (fvDescs alt) (fv_names alt) gs _ d hd p k]
  cases hh : Dict.get? (fvDescs alt) k with
  | none =>
    have : k ∉ fvLonghands := (Dict.get?_eq_none_iff (fvDescs alt) k).mp hh
    rw [if_neg this]
  | some de =>
    have : k ∈ fvLonghands := by
      by_contra hn
      have hn' : k ∉ Dict.keys (fvDescs alt) := hn
      rw [(Dict.get?_eq_none_iff (fvDescs alt) k).mpr hn'] at hh
      exact absurd hh (by simp)
    rw [if_pos this]
    simp only [fv_initial alt k de hh]

/-- **C95** (setting).  A value made of words for the longhands, the groups in any order, is accepted: each longhand gets its
words, the others become `normal`, and no other property changes. -/
theorem fv_set (alt : Tok → Bool) (ha : AltOk alt) (d : Decls) (hd : (Dict.keys d).Nodup) (gs : List (Str × List Tok))
    (hg : Groups (VariantWord alt) gs) (hne : gs ≠ []) (p : Str) :
    (∀ g ∈ gs, Dict.get? (fvSet (fvDescs alt) d (spaced (gs.flatMap (·.2))) p) g.1 = some (sentence g.2, p)) ∧
    (∀ x ∈ variantWords, x.1 ∉ gs.map (·.1) →
      Dict.get? (fvSet (fvDescs alt) d (spaced (gs.flatMap (·.2))) p) x.1 = some ("normal".toList, p)) ∧
    (∀ k, k ∉ variantWords.map (·.1) →
      Dict.get? (fvSet (fvDescs alt) d (spaced (gs.flatMap (·.2))) p) k = Dict.get? d k) := by
  refine ⟨?_, ?_, ?_⟩
  · intro g h
    rw [fv_get' alt ha d hd gs hg hne p]
    obtain ⟨t, ht⟩ := List.exists_mem_of_ne_nil _ (hg.words g h).1
    rw [if_pos (fv_word alt _ t ((hg.words g h).2 t ht)).1, get_of_mem gs hg.distinct g h]
    rfl
  · intro x hx hg'
    rw [fv_get' alt ha d hd gs hg hne p, get_of_notMem gs x.1 hg']
    have : x.1 ∈ variantWords.map (·.1) := List.mem_map_of_mem hx
    exact if_pos this
  · intro k hk
    rw [fv_get' alt ha d hd gs hg hne p]
    exact if_neg hk

/-- **C95** (order).  The order of the groups does not matter. -/
theorem fv_order (alt : Tok → Bool) (ha : AltOk alt) (d : Decls) (gs gs' : List (Str × List Tok))
    (hg : Groups (VariantWord alt) gs) (h : gs.Perm gs') (p : Str) :
    fvSet (fvDescs alt) d (spaced (gs.flatMap (·.2))) p = fvSet (fvDescs alt) d (spaced (gs'.flatMap (·.2))) p := by
  have hg' : Groups (VariantWord alt) gs' :=
    ⟨(h.map _).nodup_iff.mp hg.distinct, fun g hm => hg.words g (h.mem_iff.mpr hm)⟩
  by_cases hne : gs = []
  · subst hne
    rw [List.nil_perm.mp h]
  · have hne' : gs' ≠ [] := by
      rintro rfl
      exact hne (List.perm_nil.mp h)
    rw [fv_eq alt ha d gs hg hne p, fv_eq alt ha d gs' hg' hne' p]
    simp only [textOf_perm gs gs' hg.distinct h]

private theorem fv_text (v : Str → Str) : fvToString (fvLonghands.map fun n => (n, v n)) =
    (if (fvLonghands.map v).all fun x => x == "normal".toList then "normal".toList
     else if v "font-variant-ligatures".toList = "none".toList then
       (if (fvLonghands.map v).tail.all fun x => x == "normal".toList then "none".toList else [])
     else if (fvLonghands.map v).any fun x => wideKeywords.contains x then
       (if ((fvLonghands.map v).all fun x => wideKeywords.contains x) &&
         (fvLonghands.map v).tail.all fun x => x == v "font-variant-ligatures".toList then v "font-variant-ligatures".toList else [])
     else join [' '] ((fvLonghands.map v).filter fun x => x != "normal".toList)) := rfl

/-- **C95** (round trip).  Reading `font-variant` after setting it gives the words that were set, the groups in the order
ligatures, caps, alternates, numeric, East Asian, position. -/
theorem fv_round_trip_partial (alt : Tok → Bool) (ha : AltOk alt) (supports : Str → Str → Bool) (d : Decls)
    (hd : (Dict.keys d).Nodup) (gs : List (Str × List Tok)) (hg : Groups (VariantWord alt) gs) (hne : gs ≠ []) (p : Str)
    (hs : ∀ g ∈ gs, supports g.1 (sentence g.2) = true) (hi : ∀ n, supports n "normal".toList = true) :
    fvGet supports (fvSet (fvDescs alt) d (spaced (gs.flatMap (·.2))) p) = sentence (inOrder (variantWords.map (·.1)) gs) := by
  have hw : ∀ n w, Dict.get? gs n = some w → w ≠ [] ∧ sentence w ∉ wideKeywords ∧ sentence w ≠ [] ∧ supports n (sentence w) = true
      ∧ n ∈ fvLonghands ∧ sentence w ∉ ["normal".toList, "none".toList] := by
    intro n w hnw
    have hm : (n, w) ∈ gs := (Dict.mem_iff_get? gs hg.distinct n w).mpr hnw
    have hx := hg.words _ hm
    have ho : ∀ t ∈ w, Ordinary t := fun t ht => (fv_owned alt ha _ t (hx.2 t ht)).1
    obtain ⟨t, ht⟩ := List.exists_mem_of_ne_nil _ hx.1
    exact ⟨hx.1, sentence_notin _ wide_space w hx.1 (fun t ht => (ho t ht).notWideText), (sentence_ends w hx.1 ho).1, hs _ hm,
      (fv_word alt _ t (hx.2 t ht)).1, sentence_notin _ (by decide) w hx.1 (fun t ht => (fv_word alt _ t (hx.2 t ht)).2)⟩
  let v : Str → Str := fun n => (textOf gs n).getD "normal".toList
  have hnw : "normal".toList ∉ wideKeywords := by decide
  have hv : ∀ n, v n ∉ wideKeywords ∧ v n ≠ "none".toList := by
    intro n
    cases hh : Dict.get? gs n with
    | none => simp only [v, textOf, hh, Option.map_none, Option.getD_none]; exact ⟨hnw, by decide⟩
    | some w =>
      simp only [v, textOf, hh, Option.map_some, Option.getD_some]
      refine ⟨(hw n w hh).2.1, fun e => (hw n w hh).2.2.2.2.2 (by simp [e])⟩
  unfold fvGet
  rw [getValue_all supports _ fvLonghands (by decide) fvToString v p]
  · rw [fv_text]
    have h1 : ¬ ((fvLonghands.map v).all fun x => x == "normal".toList) = true := by
      intro hall
      rw [List.all_eq_true] at hall
      cases gs with
      | nil => exact hne rfl
      | cons g gs =>
        have hget : Dict.get? (g :: gs) g.1 = some g.2 := by simp [Dict.get?]
        have h5 := hw g.1 g.2 hget
        have h6 : v g.1 = sentence g.2 := by simp [v, textOf, hget]
        have := hall (v g.1) (List.mem_map_of_mem h5.2.2.2.2.1)
        rw [h6] at this
        exact h5.2.2.2.2.2 (by simp at this; simp [this])
    have h2 : ¬ ((fvLonghands.map v).any fun x => wideKeywords.contains x) = true := by
      intro hh
      rw [List.any_eq_true] at hh
      obtain ⟨x, hx, hx'⟩ := hh
      obtain ⟨n, _, rfl⟩ := List.mem_map.mp hx
      rw [List.contains_iff_mem] at hx'
      exact (hv n).1 hx'
    rw [if_neg h1, if_neg (hv _).2, if_neg h2]
    exact order_text fvLonghands gs "normal".toList
      (fun n w hnw => ⟨(hw n w hnw).1, fun e => (hw n w hnw).2.2.2.2.2 (by simp [e])⟩)
  · intro n hn
    refine ⟨?_, ?_, ?_⟩
    · rw [fv_get' alt ha d hd gs hg hne p, if_pos hn]
    · show (textOf gs n).getD _ ≠ []
      cases hh : Dict.get? gs n with
      | none => simp [textOf, hh]
      | some w => simp [textOf, hh, (hw n w hh).2.2.1]
    · show supports n ((textOf gs n).getD _) = true
      cases hh : Dict.get? gs n with
      | none => simpa [textOf, hh] using hi n
      | some w => simp [textOf, hh, (hw n w hh).2.2.2.1]

private theorem fv_const (alt : Tok → Bool) (d : Decls) (hd : (Dict.keys d).Nodup) (v : Str → Str) (p : Str) :
    (∀ n ∈ fvLonghands, Dict.get? (setAll d p ((fvDescs alt).map fun nd => (nd.1, v nd.1))) n = some (v n, p)) ∧
    (∀ n, n ∉ fvLonghands → Dict.get? (setAll d p ((fvDescs alt).map fun nd => (nd.1, v nd.1))) n = Dict.get? d n) := by
  refine ⟨?_, ?_⟩
  · intro n hn
    have hn' : n ∈ (fvDescs alt).map (·.1) := hn
    obtain ⟨nd, h1, rfl⟩ := List.mem_map.mp hn'
    exact get_const (fvDescs alt) (fv_names alt) d hd (fun nd => v nd.1) p [] nd h1
  · intro n hn
    exact get_const_other (fvDescs alt) (fv_names alt) d hd (fun nd => v nd.1) p n hn

/-- **C95** (`normal` and `none`).  `normal` makes every longhand `normal`; `none` makes the ligatures `none` and the rest
`normal`; both are read back. -/
theorem fv_normal_none (alt : Tok → Bool) (supports : Str → Str → Bool) (d : Decls) (hd : (Dict.keys d).Nodup) (p : Str)
    (s : String) (h : s = "normal" ∨ s = "none") (hs : ∀ n, supports n s.toList = true ∧ supports n "normal".toList = true) :
    Dict.get? (fvSet (fvDescs alt) d [kw s] p) "font-variant-ligatures".toList = some (s.toList, p) ∧
    (∀ x ∈ variantWords, x.1 ≠ "font-variant-ligatures".toList →
      Dict.get? (fvSet (fvDescs alt) d [kw s] p) x.1 = some ("normal".toList, p)) ∧
    (∀ k, k ∉ variantWords.map (·.1) → Dict.get? (fvSet (fvDescs alt) d [kw s] p) k = Dict.get? d k) ∧
    fvGet supports (fvSet (fvDescs alt) d [kw s] p) = s.toList := by
  let v : Str → Str := fun n => if n = "font-variant-ligatures".toList ∧ s = "none" then "none".toList else "normal".toList
  have he : fvSet (fvDescs alt) d [kw s] p = setAll d p ((fvDescs alt).map fun nd => (nd.1, v nd.1)) := by
    rcases h with rfl | rfl
    · rfl
    · rfl
  obtain ⟨h1, h2⟩ := fv_const alt d hd v p
  have hl : v "font-variant-ligatures".toList = s.toList := by
    rcases h with rfl | rfl
    · exact if_neg (fun e => absurd e.2 (by decide))
    · exact if_pos ⟨rfl, rfl⟩
  rw [he]
  refine ⟨?_, ?_, h2, ?_⟩
  · rw [h1 _ (by decide), hl]
  · intro x hx hxl
    have : x.1 ∈ variantWords.map (·.1) := List.mem_map_of_mem hx
    rw [h1 x.1 this]
    exact congrArg (fun z => some (z, p)) (if_neg (fun e => hxl e.1))
  · unfold fvGet
    rw [getValue_all supports _ fvLonghands (by decide) fvToString v p]
    · rw [fv_text]
      rcases h with rfl | rfl
      · decide
      · decide
    · intro n hn
      refine ⟨h1 n hn, ?_, ?_⟩
      · simp only [v]; split <;> simp
      · simp only [v]
        split
        · rename_i hh
          have := (hs n).1
          rw [hh.2] at this; exact this
        · exact (hs n).2

/-- **C95** (CSS-wide keywords).  A CSS-wide keyword in any letter case is given to all longhands and is read back. -/
theorem fv_wide (alt : Tok → Bool) (supports : Str → Str → Bool) (d : Decls) (hd : (Dict.keys d).Nodup) (t k p : Str)
    (hk : Wide k) (ht : strip t ≠ "normal".toList ∧ strip t ≠ "none".toList) (hs : ∀ n, supports n k = true) :
    (∀ x ∈ variantWords, Dict.get? (fvSet (fvDescs alt) d [.ident t k] p) x.1 = some (k, p)) ∧
    (∀ n, n ∉ variantWords.map (·.1) → Dict.get? (fvSet (fvDescs alt) d [.ident t k] p) n = Dict.get? d n) ∧
    fvGet supports (fvSet (fvDescs alt) d [.ident t k] p) = k := by
  obtain ⟨hne, hm⟩ := wide_ne k hk
  have hvt : valueText [.ident t k] = strip t := by simp [valueText, Tok.text]
  have he : fvSet (fvDescs alt) d [.ident t k] p = setAll d p ((fvDescs alt).map fun nd => (nd.1, (fun _ : Str => k) nd.1)) := by
    simp only [fvSet, hvt, parse_wide (fvDescs alt) (by simp [fvDescs]) t k hm, fill_nil]
    rw [if_neg (by rintro (e | e); exact ht.1 e; exact ht.2 e)]
    rfl
  obtain ⟨h1, h2⟩ := fv_const alt d hd (fun _ => k) p
  rw [he]
  refine ⟨fun x hx => h1 x.1 (show x.1 ∈ variantWords.map (·.1) from List.mem_map_of_mem hx), h2, ?_⟩
  unfold fvGet
  rw [getValue_all supports _ fvLonghands (by decide) fvToString (fun _ => k) p (fun n hn => ⟨h1 n hn, hne, hs n⟩), fv_text]
  cases hk <;> decide

/-- Finding: words of one longhand that are not neighbours are valid CSS; the later ones are dropped. -/
theorem fv_split_violated :
    fvGet (fun _ _ => true) (fvSet (fvDescs nothing) [] (spaced [kw "common-ligatures", kw "small-caps",
      kw "discretionary-ligatures"]) []) = "common-ligatures small-caps".toList := by decide

/-- Finding: a CSS-wide keyword beside another word is invalid, and is accepted. -/
theorem fv_mixed_violated :
    fvGet (fun _ _ => true) (fvSet (fvDescs nothing) [] (spaced [kw "inherit", kw "small-caps"]) []) = "inherit".toList := by decide

/-- Finding: text that is no value at all is not ignored; it resets the longhands. -/
theorem fv_garbage_violated (d : Decls) (p : Str) :
    fvSet (fvDescs nothing) d [kw "foo"] p = fvSet (fvDescs nothing) d [kw "normal"] p := by rfl

/-- Non-trivial instance: `super small-caps ordinal slashed-zero`. -/
example : Groups (VariantWord nothing) [("font-variant-position".toList, [kw "super"]), ("font-variant-caps".toList,
    [kw "small-caps"]), ("font-variant-numeric".toList, [kw "ordinal", kw "slashed-zero"])] := by
  refine ⟨by decide, ?_⟩
  intro g hg
  simp only [List.mem_cons, List.not_mem_nil, or_false] at hg
  rcases hg with rfl | rfl | rfl
  · refine ⟨by simp, ?_⟩
    intro t ht
    simp only [List.mem_cons, List.not_mem_nil, or_false] at ht
    subst ht
    exact .keyword _ ["sub", "super"] _ (by decide) (by decide)
  · refine ⟨by simp, ?_⟩
    intro t ht
    simp only [List.mem_cons, List.not_mem_nil, or_false] at ht
    subst ht
    exact .keyword _ ["small-caps", "all-small-caps", "petite-caps", "all-petite-caps", "unicase", "titling-caps"] _ (by decide)
      (by decide)
  · refine ⟨by simp, ?_⟩
    intro t ht
    simp only [List.mem_cons, List.not_mem_nil, or_false] at ht
    rcases ht with rfl | rfl <;>
      exact .keyword _ ["lining-nums", "oldstyle-nums", "proportional-nums", "tabular-nums", "diagonal-fractions",
        "stacked-fractions", "ordinal", "slashed-zero"] _ (by decide) (by decide)

example : AltOk nothing := fun _ _ => rfl

example : fvGet (fun _ _ => true) (fvSet (fvDescs nothing) [("fill".toList, ("red".toList, []))]
    (spaced [kw "super", kw "small-caps", kw "ordinal", kw "slashed-zero"]) []) =
    "small-caps ordinal slashed-zero super".toList := by decide

/-! ### C96: `overflow` -/

/-- Keywords of `overflow` (CSS Overflow 3). -/
def overflowWords : List String := ["visible", "hidden", "clip", "scroll", "auto"]

private theorem ov_get (d : Decls) (hd : (Dict.keys d).Nodup) (x y p : Str) (k : Str) :
    Dict.get? (setAll d p [("overflow-x".toList, x), ("overflow-y".toList, y)]) k =
      if k = "overflow-x".toList then some (x, p) else if k = "overflow-y".toList then some (y, p) else Dict.get? d k := by
  rw [get_setAll d hd p _ (by simp)]
  have h0 : Dict.get? [("overflow-x".toList, x), ("overflow-y".toList, y)] k =
      if "overflow-x".toList = k then some x else if "overflow-y".toList = k then some y else none := rfl
  rw [h0]
  by_cases h1 : k = "overflow-x".toList
  · rw [if_pos h1, if_pos h1.symm]
  · rw [if_neg h1, if_neg (fun e => h1 e.symm)]
    by_cases h2 : k = "overflow-y".toList
    · rw [if_pos h2, if_pos h2.symm]
    · rw [if_neg h2, if_neg (fun e => h2 e.symm)]

private theorem ov_parse (ws : List String) (h : ∀ s ∈ ws, s ∈ overflowWords) (hne : ws ≠ []) :
    parseList ovDesc none (spaced (ws.map kw)) = ⟨some (spaced (ws.map kw)), [], []⟩ := by
  have hs : ∀ s ∈ overflowWords, plain s = true ∧ ovDesc.support (kw s) = true := by decide
  cases ws with
  | nil => exact absurd rfl hne
  | cons s ws =>
    have hrest : ∃ rest, spaced ((s :: ws).map kw) = kw s :: rest := by
      cases ws <;> exact ⟨_, rfl⟩
    obtain ⟨rest, hr⟩ := hrest
    have hm : ∀ x ∈ rest, (∃ s, x = .ws s) ∨ (Ordinary x ∧ ovDesc.support x = true) := by
      intro x hx
      rcases mem_spaced ((s :: ws).map kw) x (by rw [hr]; simp [hx]) with h' | h'
      · exact .inl h'
      · obtain ⟨u, hu, rfl⟩ := List.mem_map.mp h'
        exact .inr ⟨ordinary_kw u (hs u (h u hu)).1, (hs u (h u hu)).2⟩
    have h0 := hs s (h s (by simp))
    rw [hr, step_yes ovDesc _ _ _ (ordinary_kw s h0.1) h0.2]
    have := parse_rest ovDesc [kw s] rest [] hm (by simp)
    simpa using this

private theorem valueText_kw (s : String) (h : s ∈ overflowWords) : valueText [kw s] = s.toList := by
  revert s
  decide

/-- **C96** (setting).  One keyword is for both directions, two are for the horizontal and the vertical one; no other property
changes. -/
theorem ov_set (d : Decls) (hd : (Dict.keys d).Nodup) (a b : String) (ha : a ∈ overflowWords) (hb : b ∈ overflowWords) (p : Str)
    (l : List Tok) (hl : (l = [kw a] ∧ a = b) ∨ l = spaced [kw a, kw b]) :
    ∃ d', ovSet ovDesc d l p = .ok (some d') ∧ Dict.get? d' "overflow-x".toList = some (a.toList, p) ∧
      Dict.get? d' "overflow-y".toList = some (b.toList, p) ∧
      ∀ k, k ≠ "overflow-x".toList → k ≠ "overflow-y".toList → Dict.get? d' k = Dict.get? d k := by
  have key : ovSet ovDesc d l p = .ok (some (setAll d p [("overflow-x".toList, a.toList), ("overflow-y".toList, b.toList)])) := by
    rcases hl with ⟨rfl, rfl⟩ | rfl
    · have := ov_parse [a] (by simpa using ha) (by simp)
      simp only [List.map_cons, List.map_nil, spaced] at this
      simp only [ovSet, this]
      have hf : [kw a].filter notWs = [kw a] := rfl
      simp [hf, valueText_kw a ha]
    · have := ov_parse [a, b] (by simp [ha, hb]) (by simp)
      simp only [List.map_cons, List.map_nil] at this
      simp only [ovSet, this]
      have hf : (spaced [kw a, kw b]).filter notWs = [kw a, kw b] := rfl
      simp [hf, valueText_kw a ha, valueText_kw b hb]
  refine ⟨_, key, ?_, ?_, ?_⟩
  · rw [ov_get d hd]; simp
  · rw [ov_get d hd]; simp
  · intro k h1 h2
    rw [ov_get d hd, if_neg h1, if_neg h2]

private theorem ov_read (supports : Str → Str → Bool) (d : Decls) (x y p : Str)
    (hx : Dict.get? d "overflow-x".toList = some (x, p)) (hy : Dict.get? d "overflow-y".toList = some (y, p)) (hx' : x ≠ [])
    (hy' : y ≠ []) (sx : supports "overflow-x".toList x = true) (sy : supports "overflow-y".toList y = true) :
    ovGet supports d = if x = y then x else if wideKeywords.contains x || wideKeywords.contains y then [] else x ++ ' ' :: y := by
  let v : Str → Str := fun n => if n = "overflow-x".toList then x else y
  unfold ovGet
  rw [getValue_all supports d ovLonghands (by decide) ovToString v p]
  · have : ovToString (ovLonghands.map fun n => (n, v n)) =
        if x = y then x else if wideKeywords.contains x || wideKeywords.contains y then [] else join [' '] [x, y] := rfl
    rw [this, join_cons]
    rfl
  · intro n hn
    simp only [ovLonghands, List.mem_cons, List.not_mem_nil, or_false] at hn
    rcases hn with rfl | rfl
    · exact ⟨hx, hx', sx⟩
    · exact ⟨hy, hy', sy⟩

/-- **C96** (round trip).  Reading `overflow` after setting it gives the keyword, or the two keywords when they differ. -/
theorem ov_round_trip_partial (supports : Str → Str → Bool) (d d' : Decls) (hd : (Dict.keys d).Nodup) (a b : String)
    (ha : a ∈ overflowWords) (hb : b ∈ overflowWords) (p : Str) (l : List Tok)
    (hl : (l = [kw a] ∧ a = b) ∨ l = spaced [kw a, kw b]) (hs : ∀ n, ∀ s ∈ overflowWords, supports n s.toList = true)
    (h : ovSet ovDesc d l p = .ok (some d')) :
    ovGet supports d' = if a = b then a.toList else a.toList ++ ' ' :: b.toList := by
  obtain ⟨d'', h1, h2, h3, _⟩ := ov_set d hd a b ha hb p l hl
  rw [h1] at h
  simp only [Except.ok.injEq, Option.some.injEq] at h
  subst h
  have hw : ∀ s ∈ overflowWords, s.toList ≠ [] ∧ wideKeywords.contains s.toList = false := by decide
  rw [ov_read supports d'' _ _ p h2 h3 (hw a ha).1 (hw b hb).1 (hs _ a ha) (hs _ b hb), (hw a ha).2, (hw b hb).2]
  by_cases hab : a = b
  · simp [hab]
  · have : a.toList ≠ b.toList := fun e => hab (String.toList_inj.mp e)
    simp [hab, this]

/-- **C96** (CSS-wide keywords). -/
theorem ov_wide (supports : Str → Str → Bool) (d : Decls) (hd : (Dict.keys d).Nodup) (t k p : Str) (hk : Wide k)
    (hs : ∀ n, supports n k = true) :
    ∃ d', ovSet ovDesc d [.ident t k] p = .ok (some d') ∧ Dict.get? d' "overflow-x".toList = some (k, p) ∧
      Dict.get? d' "overflow-y".toList = some (k, p) ∧
      (∀ n, n ≠ "overflow-x".toList → n ≠ "overflow-y".toList → Dict.get? d' n = Dict.get? d n) ∧ ovGet supports d' = k := by
  obtain ⟨hne, hm⟩ := wide_ne k hk
  have he : ovSet ovDesc d [.ident t k] p = .ok (some (setAll d p [("overflow-x".toList, k), ("overflow-y".toList, k)])) := by
    simp [ovSet, parseList, wideOf, hm, Parsed.wide, ovLonghands]
  have hx : Dict.get? (setAll d p [("overflow-x".toList, k), ("overflow-y".toList, k)]) "overflow-x".toList = some (k, p) := by
    rw [ov_get d hd]; simp
  have hy : Dict.get? (setAll d p [("overflow-x".toList, k), ("overflow-y".toList, k)]) "overflow-y".toList = some (k, p) := by
    rw [ov_get d hd]; simp
  refine ⟨_, he, hx, hy, ?_, ?_⟩
  · intro n h1 h2
    rw [ov_get d hd, if_neg h1, if_neg h2]
  · rw [ov_read supports _ k k p hx hy hne hne (hs _) (hs _), if_pos rfl]

/-- Three keywords are refused. -/
theorem ov_three (d : Decls) (a b c : String) (ha : a ∈ overflowWords) (hb : b ∈ overflowWords) (hc : c ∈ overflowWords) (p : Str) :
    ovSet ovDesc d (spaced [kw a, kw b, kw c]) p = .ok none := by
  have := ov_parse [a, b, c] (by simp [ha, hb, hc]) (by simp)
  simp only [List.map_cons, List.map_nil] at this
  simp only [ovSet, this]
  rfl

/-- Finding: a value without a known keyword makes the setter raise `KeyError`. -/
theorem ov_unknown_violated : ovSet ovDesc [] [kw "foo"] [] = .error .keyError := by decide

/-- Finding: what follows an accepted keyword is dropped without a word. -/
theorem ov_dropped_violated : ovSet ovDesc [] (spaced [kw "hidden", kw "foo"]) [] = ovSet ovDesc [] [kw "hidden"] [] := by decide

/-- Non-trivial instances. -/
example : (ovSet ovDesc [("overflow-y".toList, ("clip".toList, "important".toList)), ("fill".toList, ("red".toList, []))]
    (spaced [kw "hidden", kw "auto"]) []).map (Option.map (ovGet fun _ _ => true)) = .ok (some "hidden auto".toList) := by decide

end SvgPy.Components
