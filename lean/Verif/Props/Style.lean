import Verif.Model.Style
import Verif.Lemmas.PyDict

/-! Properties C28, C29 and C30: active rules, cascade, inheritance. -/

set_option linter.unusedSimpArgs false

namespace SvgPy.Style

variable {α : Type}

/-! ### C28 -/

mutual
/-- Specification: every plain rule below a rule, in source order, together with
the media texts of the rules that enclose it. -/
def occurrences : Rule α → List (List String × α)
  | .imported m rs => (occurrencesL rs).map (fun p => (m :: p.1, p.2))
  | .media m rs => (occurrencesL rs).map (fun p => (m :: p.1, p.2))
  | .plain r => [([], r)]
/-- The same for a list of rules. -/
def occurrencesL : List (Rule α) → List (List String × α)
  | [] => []
  | r :: rs => occurrences r ++ occurrencesL rs
end

/-- Specification: a media text applies when it is empty or `all`, or the active
window matches it. -/
def Applies (win : Option (String → Bool)) (m : String) : Prop :=
  m = "" ∨ m = "all" ∨ ∃ f, win = some f ∧ f m = true

private theorem passes_iff (win : Option (String → Bool)) (m : String) :
    passes win m = true ↔ Applies win m := by
  unfold passes Applies
  by_cases h : m ∈ ["", "all"]
  · simp only [h, if_true, true_iff]
    simp only [List.mem_cons, List.not_mem_nil, or_false] at h
    tauto
  · simp only [h, if_false]
    simp only [List.mem_cons, List.not_mem_nil, or_false, not_or] at h
    cases win <;> simp [h]

open Classical in
private theorem filter_map_cons (win : Option (String → Bool)) (m : String) (l : List (List String × α)) :
    ((l.map (fun p => (m :: p.1, p.2))).filter (fun p => decide (∀ x ∈ p.1, Applies win x))).map (·.2) =
      if Applies win m then (l.filter (fun p => decide (∀ x ∈ p.1, Applies win x))).map (·.2) else [] := by
  by_cases h : Applies win m
  · simp only [h, if_true]
    induction l with
    | nil => rfl
    | cons p l ih =>
      simp only [List.map_cons, List.filter_cons, List.mem_cons, forall_eq_or_imp, h, true_and]
      by_cases h2 : ∀ x ∈ p.1, Applies win x
      · rw [if_pos (by simpa using h2), if_pos (by simpa using h2), List.map_cons, List.map_cons, ih]
      · rw [if_neg (by simpa using h2), if_neg (by simpa using h2), ih]
  · simp only [h, if_false]
    rw [List.map_eq_nil_iff, List.filter_eq_nil_iff]
    intro p hp
    simp only [List.mem_map] at hp
    obtain ⟨q, _, rfl⟩ := hp
    simp [h]

open Classical in
mutual
private theorem flattenRule_spec (win : Option (String → Bool)) : ∀ r : Rule α, flattenRule win r =
    ((occurrences r).filter (fun p => decide (∀ x ∈ p.1, Applies win x))).map (·.2)
  | .imported m rs => by
    rw [flattenRule, occurrences, filter_map_cons, flattenRules_spec win rs]
    by_cases h : Applies win m
    · simp [h, (passes_iff win m).mpr h]
    · have : passes win m = false := by
        rw [← Bool.not_eq_true, passes_iff]; exact h
      simp [h, this]
  | .media m rs => by
    rw [flattenRule, occurrences, filter_map_cons, flattenRules_spec win rs]
    by_cases h : Applies win m
    · simp [h, (passes_iff win m).mpr h]
    · have : passes win m = false := by
        rw [← Bool.not_eq_true, passes_iff]; exact h
      simp [h, this]
  | .plain r => by simp [flattenRule, occurrences]
/-- **C28**.  The flattened list is exactly the plain rules all of whose enclosing
`@import`/`@media` rules apply, in source order, with repetitions. -/
theorem flattenRules_spec (win : Option (String → Bool)) : ∀ rs : List (Rule α), flattenRules win rs =
    ((occurrencesL rs).filter (fun p => decide (∀ x ∈ p.1, Applies win x))).map (·.2)
  | [] => by simp [flattenRules, occurrencesL]
  | r :: rs => by
    rw [flattenRules, occurrencesL, List.filter_append, List.map_append, flattenRule_spec win r,
      flattenRules_spec win rs]
end

/-- Non-trivial instance: nested media rules of which one does not apply. -/
example : flattenRules (some (fun m => m == "screen"))
    [.plain 1, .media "screen" [.plain 2, .media "print" [.plain 3]], .imported "all" [.plain 4, .plain 1]] =
    [1, 2, 4, 1] := by
  simp [flattenRules, flattenRule, passes]

/-! ### C29 -/

/-- The namespaces in force after some rules: the element's, then those declared by
the `@namespace` rules so far. -/
def namespacesAfter (ns : Dict String String) : List CascadeRule → Dict String String
  | [] => ns
  | .ns pre (some u) :: rs =>
    namespacesAfter (if u = "" then ns else Dict.set ns (if pre = "" then "svg" else pre) u) rs
  | _ :: rs => namespacesAfter ns rs

/-- Specification: the declarations of the rules that match, in order. -/
def matching (sel : String → Dict String String → Bool) (ns : Dict String String) :
    List CascadeRule → List (String × String × String)
  | [] => []
  | .style s ds :: rs => (if sel s ns then ds else []) ++ matching sel ns rs
  | r :: rs => matching sel (namespacesAfter ns [r]) rs

/-- Specification: the value of the last declaration of `p` in a list. -/
def lastValue (p : String) (ds : List (String × String × String)) : Option String :=
  ((ds.filter (fun d => d.1 = p)).getLast?).map (fun d => d.2.1)

private theorem lastValue_cons (p : String) (d : String × String × String)
    (ds : List (String × String × String)) :
    lastValue p (d :: ds) = (lastValue p ds).or (if d.1 = p then some d.2.1 else none) := by
  unfold lastValue
  by_cases h : d.1 = p
  · simp only [List.filter_cons, h, decide_true, if_true, List.getLast?_cons]
    cases (List.filter (fun d => decide (d.1 = p)) ds).getLast? <;> simp
  · simp [List.filter_cons, h]

private theorem applyDecls_spec (p : String) (ds : List (String × String × String))
    (st im : Dict String String) :
    Dict.get? (applyDecls (st, im) ds).1 p = (lastValue p ds).or (Dict.get? st p) ∧
    Dict.get? (applyDecls (st, im) ds).2 p =
      (lastValue p (ds.filter (fun d => d.2.2 = "important"))).or (Dict.get? im p) := by
  induction ds generalizing st im with
  | nil => simp [applyDecls, lastValue]
  | cons d ds ih =>
    obtain ⟨k, v, pr⟩ := d
    simp only [applyDecls]
    obtain ⟨h1, h2⟩ := ih (Dict.set st k v) (if pr = "important" then Dict.set im k v else im)
    refine ⟨?_, ?_⟩
    · rw [h1, lastValue_cons, Dict.get?_set]
      by_cases h : k = p <;> cases lastValue p ds <;> simp [h]
    · rw [h2]
      by_cases hp : pr = "important"
      · simp only [hp, if_true, List.filter_cons, decide_true, lastValue_cons, Dict.get?_set]
        by_cases h : k = p <;>
          cases lastValue p (List.filter (fun d => decide (d.2.2 = "important")) ds) <;> simp [h]
      · simp [hp, List.filter_cons]

private theorem lastValue_append (p : String) (a b : List (String × String × String)) :
    lastValue p (a ++ b) = (lastValue p b).or (lastValue p a) := by
  induction a with
  | nil => simp [lastValue]
  | cons d a ih => rw [List.cons_append, lastValue_cons, lastValue_cons, ih, Option.or_assoc]

private theorem cascadeLoop_spec (sel : String → Dict String String → Bool) (p : String)
    (rs : List CascadeRule) (c c' : Cascade) (h : cascadeLoop sel c rs = .ok c') :
    Dict.get? c'.style p = (lastValue p (matching sel c.namespaces rs)).or (Dict.get? c.style p) ∧
    Dict.get? c'.important p = (lastValue p ((matching sel c.namespaces rs).filter
      (fun d => d.2.2 = "important"))).or (Dict.get? c.important p) := by
  induction rs generalizing c with
  | nil =>
    simp only [cascadeLoop, Except.ok.injEq] at h
    subst h
    simp [matching, lastValue]
  | cons r rs ih =>
    simp only [cascadeLoop] at h
    cases r with
    | other =>
      simp only [cascadeRule] at h
      have := ih c h
      simpa [matching, namespacesAfter] using this
    | ns pre uri =>
      cases uri with
      | none => simp [cascadeRule] at h
      | some u =>
        simp only [cascadeRule] at h
        by_cases hu : u = ""
        · simp only [hu, ne_eq, not_true_eq_false, if_false] at h
          have := ih c h
          simpa [matching, namespacesAfter, hu] using this
        · simp only [hu, ne_eq, not_false_eq_true, if_true] at h
          have := ih _ h
          simpa [matching, namespacesAfter, hu] using this
    | style s ds =>
      simp only [cascadeRule] at h
      by_cases hs : sel s c.namespaces = true
      · simp only [hs, if_true] at h
        have := ih _ h
        obtain ⟨a1, a2⟩ := applyDecls_spec p ds c.style c.important
        simp only [matching, hs, if_true, List.filter_append, lastValue_append, Option.or_assoc]
        simp only [a1, a2] at this
        exact this
      · simp only [hs, Bool.false_eq_true, if_false] at h
        have := ih _ h
        simpa [matching, hs] using this

/-- **C29**.  Whenever the cascade returns, each property has the value of its last
declaration among the matching rules, and in the important part the value of its
last important declaration among them. -/
theorem getCssStyle_spec (sel : String → Dict String String → Bool) (ns : Dict String String)
    (rules : List CascadeRule) (st im : Dict String String)
    (h : getCssStyle sel ns rules = .ok (st, im)) (p : String) :
    Dict.get? st p = lastValue p (matching sel ns rules) ∧
    Dict.get? im p = lastValue p ((matching sel ns rules).filter (fun d => d.2.2 = "important")) := by
  unfold getCssStyle at h
  cases hc : cascadeLoop sel ⟨[], [], ns⟩ rules with
  | error e => simp [hc] at h
  | ok c =>
    simp only [hc, Except.ok.injEq, Prod.mk.injEq] at h
    obtain ⟨rfl, rfl⟩ := h
    simpa [Dict.get?] using cascadeLoop_spec sel p rules _ _ hc

/-- The cascade fails exactly when some `@namespace` rule was written with a quoted
string instead of `url()`: its URI is then `None` (a crash in the code). -/
theorem getCssStyle_error_iff (sel : String → Dict String String → Bool) (ns : Dict String String)
    (rules : List CascadeRule) :
    (∃ e, getCssStyle sel ns rules = .error e) ↔ ∃ pre, CascadeRule.ns pre none ∈ rules := by
  have key : ∀ (rs : List CascadeRule) (c : Cascade), (∃ e, cascadeLoop sel c rs = .error e) ↔
      ∃ pre, CascadeRule.ns pre none ∈ rs := by
    intro rs
    induction rs with
    | nil => simp [cascadeLoop]
    | cons r rs ih =>
      intro c
      cases r with
      | other => simp [cascadeLoop, cascadeRule, ih]
      | style s ds =>
        by_cases hs : sel s c.namespaces = true <;> simp [cascadeLoop, cascadeRule, hs, ih]
      | ns pre uri =>
        cases uri with
        | none => simp [cascadeLoop, cascadeRule]
        | some u => by_cases hu : u = "" <;> simp [cascadeLoop, cascadeRule, hu, ih]
  rw [← key rules ⟨[], [], ns⟩]
  unfold getCssStyle
  cases cascadeLoop sel ⟨[], [], ns⟩ rules <;> simp

/-- Non-trivial instance. -/
example : getCssStyle (fun s _ => s == "a") []
    [.style "a" [("fill", "red", "important"), ("stroke", "blue", "")], .style "b" [("fill", "x", "")],
     .ns "" (some "u"), .style "a" [("fill", "green", "")]] =
    .ok ([("fill", "green"), ("stroke", "blue")], [("fill", "red")]) := by
  decide

/-! ### C30: specification -/

/-- The value an element specifies for a property: an important rule, else its
style attribute, else its presentation attribute, else a normal rule. -/
def Elem.specified (toDict : String → Dict String String) (e : Elem) (p : String) : Option String :=
  (Dict.get? e.important p).or
    (((Dict.get? e.attrib "style").bind (fun s => Dict.get? (toDict s) p)).or
      ((Dict.get? e.attrib p).or (Dict.get? e.rules p)))

/-- The value that counts: `inherit` means not specified. -/
def Elem.own (toDict : String → Dict String String) (e : Elem) (p : String) : Option String :=
  match e.specified toDict p with
  | some v => if v = "inherit" then none else some v
  | none => none

/-- The first specified value on the way to the root. -/
def nearest (toDict : String → Dict String String) (p : String) : List Elem → Option String
  | [] => none
  | e :: es =>
    match e.own toDict p with
    | some v => some v
    | none => nearest toDict p es

/-- How the value of a property is reported: family and feature lists are split. -/
def present (P : Parsers) (p v : String) : Val :=
  if p = "font-family" then P.family v
  else if p ∈ wordKeys then .list (P.split v) else .text v

/-- The inherited properties that have an initial value, and that value, as the SVG
and CSS specifications list them (SVG 1.1 for `pointer-events`). -/
def initialTable : Dict String String :=
  [("clip-rule", "nonzero"), ("fill-rule", "nonzero"), ("color", "black"),
   ("fill", "black"), ("color-interpolation", "sRGB"), ("color-rendering", "auto"),
   ("cursor", "auto"), ("font-kerning", "auto"), ("image-rendering", "auto"),
   ("shape-rendering", "auto"), ("text-rendering", "auto"), ("direction", "ltr"),
   ("fill-opacity", "1"), ("stroke-opacity", "1"), ("stroke-width", "1"),
   ("font-feature-settings", "normal"), ("font-language-override", "normal"), ("font-stretch", "normal"),
   ("font-style", "normal"), ("font-variant-alternates", "normal"), ("font-variant-caps", "normal"),
   ("font-variant-east-asian", "normal"), ("font-variant-ligatures", "normal"), ("font-variant-numeric", "normal"),
   ("font-variant-position", "normal"), ("font-weight", "normal"), ("letter-spacing", "normal"),
   ("line-height", "normal"), ("paint-order", "normal"), ("white-space", "normal"),
   ("word-spacing", "normal"), ("font-size", "medium"), ("font-size-adjust", "none"),
   ("marker-end", "none"), ("marker-mid", "none"), ("marker-start", "none"),
   ("stroke", "none"), ("stroke-dasharray", "none"), ("font-synthesis", "weight style"),
   ("pointer-events", "visiblePainted"), ("stroke-dashoffset", "0"), ("stroke-linecap", "butt"),
   ("stroke-linejoin", "miter"), ("stroke-miterlimit", "4"), ("tab-size", "8"),
   ("text-anchor", "start"), ("text-orientation", "mixed"), ("visibility", "visible"),
   ("writing-mode", "horizontal-tb")]

/-- The inherited properties that are not shorthands. -/
def IsInherited (p : String) : Prop :=
  p ∈ Dict.keys initialTable ++ ["font-family", "lang", "{http://www.w3.org/XML/1998/namespace}lang"]

/-- The value of a property nobody specifies. -/
def initialValue (P : Parsers) (p : String) : Option Val :=
  if p = "font-family" then some (P.family P.defaultFamily)
  else (Dict.get? initialTable p).map (fun v => if p ∈ wordKeys then .list [v] else .text v)

/-- Dictionaries have distinct keys, and no rule declares a property called `style`. -/
def Elem.WF (e : Elem) : Prop :=
  (Dict.keys e.rules).Nodup ∧ (Dict.keys e.attrib).Nodup ∧ (Dict.keys e.important).Nodup ∧
    Dict.get? e.rules "style" = none

/-- The shorthand parsers only produce longhands of their shorthand. -/
def Parsers.WF (P : Parsers) : Prop :=
  (∀ v, ∀ k ∈ Dict.keys (P.font v), k ∈ fontKeys) ∧
  (∀ v, ∀ k ∈ Dict.keys (P.fontVariant v), k ∈ fontVariantKeys)

/-! ### C30: proofs -/

private theorem merged_get (toDict : String → Dict String String) (hT : ∀ s, (Dict.keys (toDict s)).Nodup)
    (e : Elem) (he : e.WF) (p : String) (hp : p ≠ "style") :
    Dict.get? (e.merged toDict) p = e.specified toDict p := by
  obtain ⟨h1, h2, h3, h4⟩ := he
  have hs : Dict.get? (Dict.update e.rules e.attrib) "style" = Dict.get? e.attrib "style" := by
    rw [Dict.get?_update _ _ _ h2, h4]; cases Dict.get? e.attrib "style" <;> rfl
  have hd : Dict.get? (Dict.del (Dict.update e.rules e.attrib) "style") p =
      (Dict.get? e.attrib p).or (Dict.get? e.rules p) := by
    rw [Dict.get?_del _ _ _ (Dict.nodup_update _ _ h1), if_neg hp.symm, Dict.get?_update _ _ _ h2]
  unfold Elem.merged Elem.specified
  simp only [hs]
  rw [Dict.get?_update _ _ _ h3]
  cases hA : Dict.get? e.attrib "style" with
  | none => simp [hd]
  | some s => simp only [Option.bind_some]; rw [Dict.get?_update _ _ _ (hT s), hd]

private theorem effective_merged (toDict : String → Dict String String)
    (hT : ∀ s, (Dict.keys (toDict s)).Nodup) (e : Elem) (he : e.WF) (p : String) (hp : p ≠ "style") :
    effective (e.merged toDict) p = e.own toDict p := by
  unfold effective Elem.own
  rw [merged_get toDict hT e he p hp]
  cases e.specified toDict p <;> rfl

private theorem popAll_spec (ks : List String) (d : Dict String (Option Val)) (hd : (Dict.keys d).Nodup) :
    (Dict.keys (popAll d ks)).Nodup ∧
      ∀ p, Dict.get? (popAll d ks) p = if p ∈ ks then none else Dict.get? d p := by
  induction ks generalizing d with
  | nil => simp [popAll, hd]
  | cons k ks ih =>
    have : popAll d (k :: ks) = popAll (Dict.del d k) ks := rfl
    rw [this]
    obtain ⟨h1, h2⟩ := ih (Dict.del d k) (Dict.nodup_del d k hd)
    refine ⟨h1, fun p => ?_⟩
    rw [h2, Dict.get?_del _ _ _ hd]
    by_cases h : p ∈ ks
    · simp [h]
    · by_cases hk : k = p
      · simp [hk]
      · simp [h, hk, Ne.symm hk]

private theorem get_setNew (s : Dict String Val) (k : String) (v : Val) (p : String) (h : k ≠ p) :
    Dict.get? (setNew s k v) p = Dict.get? s p := by
  unfold setNew
  split
  · rfl
  · rw [Dict.get?_set, if_neg h]

private theorem foldl_setNew (ps : Dict String Val) (s : Dict String Val) (p : String)
    (h : p ∉ Dict.keys ps) :
    Dict.get? (ps.foldl (fun s q => setNew s q.1 q.2) s) p = Dict.get? s p := by
  induction ps generalizing s with
  | nil => rfl
  | cons q ps ih =>
    simp only [Dict.keys, List.map_cons, List.mem_cons, not_or] at h
    simp only [List.foldl_cons]
    rw [ih _ h.2, get_setNew _ _ _ _ (Ne.symm h.1)]

/-- What an operation leaves alone at a property. -/
private def SameAt (p : String) (a b : St) : Prop :=
  Dict.get? b.style p = Dict.get? a.style p ∧ Dict.get? b.props p = Dict.get? a.props p

private theorem updateFontVariant_frame (P : Parsers) (hP : P.WF) (v : Val) (st : St)
    (hd : (Dict.keys st.props).Nodup) :
    (Dict.keys (updateFontVariant P v st).props).Nodup ∧
      ∀ p, p ∉ fontVariantKeys → SameAt p st (updateFontVariant P v st) := by
  obtain ⟨h1, h2⟩ := popAll_spec fontVariantKeys st.props hd
  refine ⟨h1, fun p hp => ⟨?_, ?_⟩⟩
  · exact foldl_setNew _ _ _ (fun h => hp (hP.2 v p h))
  · simp only [updateFontVariant, h2, hp, if_false]

private theorem fontLoop_frame (P : Parsers) (hP : P.WF) (ps : Dict String Val)
    (hps : ∀ k ∈ Dict.keys ps, k ∈ fontKeys) (st : St) (hd : (Dict.keys st.props).Nodup) :
    (Dict.keys (fontLoop P ps st).props).Nodup ∧
      ∀ p, p ∉ fontVariantKeys → p ∉ fontKeys → SameAt p st (fontLoop P ps st) := by
  induction ps generalizing st with
  | nil => exact ⟨hd, fun p _ _ => ⟨rfl, rfl⟩⟩
  | cons q ps ih =>
    obtain ⟨k, v⟩ := q
    have hps' : ∀ k ∈ Dict.keys ps, k ∈ fontKeys := fun k hk => hps k (by simp [Dict.keys] at hk ⊢; tauto)
    have hk : k ∈ fontKeys := hps k (by simp [Dict.keys])
    simp only [fontLoop]
    by_cases hc : Dict.contains st.style k = true
    · simp only [hc, if_true]
      exact ih hps' st hd
    · simp only [hc, Bool.false_eq_true, if_false]
      by_cases hv : k = "font-variant"
      · simp only [hv, if_true]
        obtain ⟨a1, a2⟩ := updateFontVariant_frame P hP v
          { st with style := Dict.set st.style "font-variant" v } hd
        obtain ⟨b1, b2⟩ := ih hps' _ a1
        refine ⟨b1, fun p hp1 hp2 => ⟨?_, ?_⟩⟩
        · rw [(b2 p hp1 hp2).1, (a2 p hp1).1, Dict.get?_set, if_neg]
          rintro rfl; exact hp2 (by decide)
        · rw [(b2 p hp1 hp2).2, (a2 p hp1).2]
      · simp only [hv, if_false]
        obtain ⟨b1, b2⟩ := ih hps' { st with style := Dict.set st.style k v } hd
        refine ⟨b1, fun p hp1 hp2 => ⟨?_, ?_⟩⟩
        · rw [(b2 p hp1 hp2).1, Dict.get?_set, if_neg]
          rintro rfl; exact hp2 hk
        · rw [(b2 p hp1 hp2).2]

private theorem updateFont_frame (P : Parsers) (hP : P.WF) (v : String) (st : St)
    (hd : (Dict.keys st.props).Nodup) :
    (Dict.keys (updateFont P v st).props).Nodup ∧
      ∀ p, p ∉ fontVariantKeys → p ∉ fontKeys → SameAt p st (updateFont P v st) := by
  obtain ⟨h1, h2⟩ := fontLoop_frame P hP (P.font v) (hP.1 v) st hd
  obtain ⟨h3, h4⟩ := popAll_spec fontKeys _ h1
  refine ⟨h3, fun p hp1 hp2 => ⟨(h2 p hp1 hp2).1, ?_⟩⟩
  simp only [updateFont, h4, hp2, if_false, (h2 p hp1 hp2).2]

/-- The shorthand `key` cannot touch `p`. -/
private def Apart (key p : String) : Prop :=
  (key = "font" → p ∉ fontVariantKeys ∧ p ∉ fontKeys) ∧ (key = "font-variant" → p ∉ fontVariantKeys)

private theorem stepValue_frame (P : Parsers) (hP : P.WF) (st st' : St) (key v : String)
    (hd : (Dict.keys st.props).Nodup) (h : stepValue P st key v = .ok st') :
    (Dict.keys st'.props).Nodup ∧ ∀ p, key ≠ p → Apart key p → SameAt p st st' := by
  unfold stepValue at h
  by_cases h1 : key = "font"
  · subst h1
    simp only [if_true, Except.ok.injEq] at h
    subst h
    obtain ⟨a1, a2⟩ := updateFont_frame P hP v { st with style := Dict.set st.style "font" (.text v) } hd
    refine ⟨a1, fun p hne hap => ?_⟩
    obtain ⟨b1, b2⟩ := a2 p (hap.1 rfl).1 (hap.1 rfl).2
    refine ⟨?_, b2⟩
    rw [b1, Dict.get?_set, if_neg hne]
  · simp only [h1, if_false] at h
    by_cases h2 : key = "font-family"
    · subst h2
      simp only [if_true] at h
      by_cases hc : Dict.contains st.props "font-family" = true
      · simp only [hc, if_true, Except.ok.injEq] at h
        subst h
        refine ⟨Dict.nodup_del _ _ hd, fun p hne _ => ⟨?_, ?_⟩⟩
        · simp only [Dict.get?_set, if_neg hne]
        · simp only [Dict.get?_del _ _ _ hd, if_neg hne]
      · simp [hc] at h
    · simp only [h2, if_false] at h
      by_cases h3 : key = "font-variant"
      · subst h3
        simp only [if_true, Except.ok.injEq] at h
        subst h
        obtain ⟨a1, a2⟩ := updateFontVariant_frame P hP (.text v)
          { st with style := Dict.set st.style "font-variant" (.text v) } hd
        refine ⟨a1, fun p hne hap => ?_⟩
        obtain ⟨b1, b2⟩ := a2 p (hap.2 rfl)
        exact ⟨by rw [b1, Dict.get?_set, if_neg hne], b2⟩
      · simp only [h3, if_false] at h
        by_cases h4 : key = "marker"
        · simp [h4] at h
        · simp only [h4, if_false, Except.ok.injEq] at h
          subst h
          refine ⟨Dict.nodup_del _ _ hd, fun p hne _ => ⟨?_, ?_⟩⟩
          · simp only [Dict.get?_set, if_neg hne]
          · simp only [Dict.get?_del _ _ _ hd, if_neg hne]

private theorem stepValue_hit (P : Parsers) (st st' : St) (p v : String)
    (hd : (Dict.keys st.props).Nodup) (h : stepValue P st p v = .ok st')
    (h1 : p ≠ "font") (h2 : p ≠ "font-variant") :
    Dict.get? st'.style p = some (present P p v) ∧ Dict.get? st'.props p = none := by
  unfold stepValue at h
  simp only [h1, h2, if_false] at h
  by_cases hf : p = "font-family"
  · simp only [hf, if_true] at h
    by_cases hc : Dict.contains st.props "font-family" = true
    · simp only [hc, if_true, Except.ok.injEq] at h
      subst h
      simp [hf, present, Dict.get?_set, Dict.get?_del _ _ _ hd]
    · simp [hc] at h
  · simp only [hf, if_false] at h
    by_cases h4 : p = "marker"
    · simp [h4] at h
    · simp only [h4, if_false, Except.ok.injEq] at h
      subst h
      simp [hf, present, Dict.get?_set, Dict.get?_del _ _ _ hd]

private theorem keyLoop_spec (P : Parsers) (hP : P.WF) (css : Dict String String) (p : String)
    (h1 : p ≠ "font") (h2 : p ≠ "font-variant")
    (hap : ∀ k v, effective css k = some v → Apart k p)
    (ks : List String) (hks : ks.Nodup) (st st' : St) (hd : (Dict.keys st.props).Nodup)
    (h : keyLoop P css ks st = .ok st') :
    (Dict.keys st'.props).Nodup ∧
      (p ∉ ks ∨ effective css p = none → SameAt p st st') ∧
      (∀ v, p ∈ ks → effective css p = some v →
        Dict.get? st'.style p = some (present P p v) ∧ Dict.get? st'.props p = none) := by
  induction ks generalizing st with
  | nil =>
    simp only [keyLoop, Except.ok.injEq] at h
    subst h
    exact ⟨hd, fun _ => ⟨rfl, rfl⟩, by simp⟩
  | cons k ks ih =>
    simp only [List.nodup_cons] at hks
    simp only [keyLoop] at h
    cases he : effective css k with
    | none =>
      simp only [he] at h
      obtain ⟨a, b, c⟩ := ih hks.2 st hd h
      refine ⟨a, fun hh => b ?_, fun v hm hv => c v ?_ hv⟩
      · rcases hh with hh | hh
        · exact Or.inl (fun hm => hh (by simp [hm]))
        · exact Or.inr hh
      · rcases List.mem_cons.mp hm with rfl | hm
        · simp [he] at hv
        · exact hm
    | some w =>
      simp only [he] at h
      cases hs : stepValue P st k w with
      | error e => simp [hs] at h
      | ok st1 =>
        simp only [hs] at h
        obtain ⟨a1, a2⟩ := stepValue_frame P hP st st1 k w hd hs
        obtain ⟨b1, b2, b3⟩ := ih hks.2 st1 a1 h
        refine ⟨b1, fun hh => ?_, fun v hm hv => ?_⟩
        · have hne : k ≠ p := by
            rintro rfl
            rcases hh with hh | hh
            · simp at hh
            · simp [he] at hh
          have hs1 := a2 p hne (hap k w he)
          have hs2 := b2 (by
            rcases hh with hh | hh
            · exact Or.inl (fun hm => hh (by simp [hm]))
            · exact Or.inr hh)
          exact ⟨hs2.1.trans hs1.1, hs2.2.trans hs1.2⟩
        · by_cases hkp : k = p
          · subst hkp
            have : w = v := by rw [he] at hv; exact Option.some.inj hv
            subst this
            obtain ⟨c1, c2⟩ := stepValue_hit P st st1 k w hd hs h1 h2
            have hs2 := b2 (Or.inl hks.1)
            exact ⟨hs2.1.trans c1, hs2.2.trans c2⟩
          · exact b3 v (by simpa [Ne.symm hkp] using hm) hv

/-- The state of one property during the walk to the root. -/
private def Found (P : Parsers) (p : String) (st0 st : St) : Option String → Prop
  | some v => Dict.get? st.style p = some (present P p v) ∧ Dict.get? st.props p = none
  | none => SameAt p st0 st

private theorem elemStep_display (P : Parsers) (css : Dict String String) (st st' : St)
    (h : elemStep P css st = .ok st') : ∃ st1, keyLoop P css (Dict.keys st.props) st = .ok st1 ∧
      st'.props = st1.props ∧ (∀ p, p ≠ "display" → Dict.get? st'.style p = Dict.get? st1.style p) ∧
      Dict.get? st'.style "display" = if Dict.get? css "display" = some "none" then some (.text "none")
        else Dict.get? st1.style "display" := by
  unfold elemStep at h
  cases hk : keyLoop P css (Dict.keys st.props) st with
  | error e => simp [hk] at h
  | ok st1 =>
    simp only [hk, Except.ok.injEq] at h
    refine ⟨st1, rfl, ?_⟩
    subst h
    by_cases hdi : Dict.get? css "display" = some "none"
    · simp only [hdi, if_true, true_and]
      exact ⟨fun p hp => by rw [Dict.get?_set, if_neg hp.symm], by rw [Dict.get?_set, if_pos rfl]⟩
    · simp [hdi]

/-- Conditions on the property: it is not itself a shorthand, and when it is one of
the longhands of a font shorthand, no element uses that shorthand. -/
def Plain (toDict : String → Dict String String) (chain : List Elem) (p : String) : Prop :=
  p ≠ "font" ∧ p ≠ "font-variant" ∧
  (p ∈ fontKeys ∨ p ∈ fontVariantKeys → ∀ e ∈ chain, e.own toDict "font" = none) ∧
  (p ∈ fontVariantKeys → ∀ e ∈ chain, e.own toDict "font-variant" = none)

private theorem plain_apart (toDict : String → Dict String String)
    (hT : ∀ s, (Dict.keys (toDict s)).Nodup) (chain : List Elem) (p : String)
    (hp : Plain toDict chain p) (e : Elem) (hm : e ∈ chain) (he : e.WF) (k v : String)
    (hk : effective (e.merged toDict) k = some v) : Apart k p := by
  refine ⟨?_, ?_⟩
  · rintro rfl
    rw [effective_merged toDict hT e he _ (by decide)] at hk
    have h := hp.2.2.1
    constructor
    · intro hc; have := h (Or.inr hc) e hm; simp [this] at hk
    · intro hc; have := h (Or.inl hc) e hm; simp [this] at hk
  · rintro rfl
    rw [effective_merged toDict hT e he _ (by decide)] at hk
    intro hc
    have := hp.2.2.2 hc e hm
    simp [this] at hk

private theorem chainLoop_spec (P : Parsers) (hP : P.WF) (toDict : String → Dict String String)
    (hT : ∀ s, (Dict.keys (toDict s)).Nodup) (chain : List Elem) (p : String) (hps : p ≠ "style")
    (hpd : p ≠ "display") (hp : Plain toDict chain p) (hw : ∀ e ∈ chain, e.WF)
    (st st' : St) (hd : (Dict.keys st.props).Nodup) (hin : p ∈ Dict.keys st.props)
    (h : chainLoop P toDict chain st = .ok st') :
    (Dict.keys st'.props).Nodup ∧ Found P p st st' (nearest toDict p chain) := by
  -- once found, the property is not touched any more
  have after : ∀ (chain : List Elem), Plain toDict chain p → (∀ e ∈ chain, e.WF) → ∀ (st st' : St),
      (Dict.keys st.props).Nodup → p ∉ Dict.keys st.props → chainLoop P toDict chain st = .ok st' →
      (Dict.keys st'.props).Nodup ∧ SameAt p st st' := by
    intro chain
    induction chain with
    | nil =>
      intro _ _ st st' hd _ h
      simp only [chainLoop, Except.ok.injEq] at h
      subst h
      exact ⟨hd, rfl, rfl⟩
    | cons e es ih =>
      intro hp hw st st' hd hn h
      simp only [chainLoop] at h
      cases hs : elemStep P (e.merged toDict) st with
      | error er => simp [hs] at h
      | ok st2 =>
        simp only [hs] at h
        obtain ⟨st1, k1, k2, k3, _⟩ := elemStep_display P _ _ _ hs
        obtain ⟨a, b, _⟩ := keyLoop_spec P hP (e.merged toDict) p hp.1 hp.2.1
          (plain_apart toDict hT (e :: es) p hp e (by simp) (hw e (by simp))) _ hd st st1 hd k1
        have hsame := b (Or.inl hn)
        have hp' : Plain toDict es p := ⟨hp.1, hp.2.1, fun h e' he' => hp.2.2.1 h e' (by simp [he']),
          fun h e' he' => hp.2.2.2 h e' (by simp [he'])⟩
        have hn2 : p ∉ Dict.keys st2.props := by
          rw [← Dict.get?_eq_none_iff, k2, hsame.2, Dict.get?_eq_none_iff]; exact hn
        obtain ⟨c, d⟩ := ih hp' (fun e' he' => hw e' (by simp [he'])) st2 st' (k2 ▸ a) hn2 h
        refine ⟨c, ?_, ?_⟩
        · rw [d.1, k3 p hpd, hsame.1]
        · rw [d.2, k2, hsame.2]
  induction chain generalizing st with
  | nil =>
    simp only [chainLoop, Except.ok.injEq] at h
    subst h
    exact ⟨hd, rfl, rfl⟩
  | cons e es ih =>
    simp only [chainLoop] at h
    cases hs : elemStep P (e.merged toDict) st with
    | error er => simp [hs] at h
    | ok st2 =>
      simp only [hs] at h
      obtain ⟨st1, k1, k2, k3, _⟩ := elemStep_display P _ _ _ hs
      obtain ⟨a, b, c⟩ := keyLoop_spec P hP (e.merged toDict) p hp.1 hp.2.1
        (plain_apart toDict hT (e :: es) p hp e (by simp) (hw e (by simp))) _ hd st st1 hd k1
      have hp' : Plain toDict es p := ⟨hp.1, hp.2.1, fun h e' he' => hp.2.2.1 h e' (by simp [he']),
        fun h e' he' => hp.2.2.2 h e' (by simp [he'])⟩
      have hw' : ∀ e' ∈ es, e'.WF := fun e' he' => hw e' (by simp [he'])
      have heff := effective_merged toDict hT e (hw e (by simp)) p hps
      cases ho : e.own toDict p with
      | some v =>
        obtain ⟨c1, c2⟩ := c v hin (heff.trans ho)
        have hn2 : p ∉ Dict.keys st2.props := by
          rw [← Dict.get?_eq_none_iff, k2]; exact c2
        obtain ⟨d1, d2⟩ := after es hp' hw' st2 st' (k2 ▸ a) hn2 h
        simp only [nearest, ho, Found]
        exact ⟨d1, by rw [d2.1, k3 p hpd, c1], by rw [d2.2, k2, c2]⟩
      | none =>
        have hsame := b (Or.inr (heff.trans ho))
        have hin2 : p ∈ Dict.keys st2.props := by
          by_contra hc
          rw [← Dict.get?_eq_none_iff, k2, hsame.2, Dict.get?_eq_none_iff] at hc
          exact hc hin
        obtain ⟨d1, d2⟩ := ih hp' hw' st2 (k2 ▸ a) hin2 h
        refine ⟨d1, ?_⟩
        simp only [nearest, ho]
        cases hn : nearest toDict p es with
        | some v => simpa [Found, hn] using d2
        | none =>
          simp only [Found, hn] at d2 ⊢
          exact ⟨by rw [d2.1, k3 p hpd, hsame.1], by rw [d2.2, k2, hsame.2]⟩

private theorem fillDefaults_spec (ps : Dict String (Option Val)) (hd : (Dict.keys ps).Nodup)
    (s : Dict String Val) (p : String) :
    Dict.get? (fillDefaults ps s) p = (Dict.get? ps p).join.or (Dict.get? s p) := by
  induction ps generalizing s with
  | nil => simp [fillDefaults, Dict.get?]
  | cons q ps ih =>
    obtain ⟨k, v⟩ := q
    simp only [Dict.keys, List.map_cons, List.nodup_cons] at hd
    cases v with
    | none =>
      simp only [fillDefaults, ih hd.2, Dict.get?]
      by_cases h : k = p
      · have : Dict.get? ps p = none := by rw [Dict.get?_eq_none_iff, ← h]; exact hd.1
        simp [h, this]
      · simp [h]
    | some v =>
      simp only [fillDefaults, ih hd.2, Dict.get?, Dict.get?_set]
      by_cases h : k = p
      · have : Dict.get? ps p = none := by rw [Dict.get?_eq_none_iff, ← h]; exact hd.1
        simp [h, this]
      · simp [h]

private theorem inherited_nodup : (Dict.keys inherited).Nodup := by decide +kernel

private theorem inherited_initial : ∀ p ∈ Dict.keys inherited, p ≠ "font-family" → p ≠ "font-variant" →
    (Dict.get? inherited p).join =
      (Dict.get? initialTable p).map (fun v => if p ∈ wordKeys then .list [v] else .text v) := by
  decide +kernel

private theorem isInherited_mem : ∀ p, IsInherited p → p ∈ Dict.keys inherited := by
  unfold IsInherited
  decide +kernel

private theorem display_not_inherited : "display" ∉ Dict.keys inherited := by decide +kernel

private theorem inherited_not_initStyle (e : Elem) (p : String) (h : p ∈ Dict.keys inherited) :
    Dict.get? (initStyle e) p = none := by
  rw [Dict.get?_eq_none_iff]
  have : Dict.keys (initStyle e) = Dict.keys nonInherited := by
    simp [initStyle, Dict.keys]
  rw [this]
  revert h
  revert p
  decide +kernel

/-- **C30** (inherited values).  Whenever the computation returns, each inherited
property has the value specified by the element itself or by its nearest ancestor
that specifies something other than `inherit`, or else its initial value.  Missing
from the full statement: the `font` and `font-variant` shorthands and their
longhands when a shorthand is used on the way to the root, and the inputs on which
the code raises an exception (next theorems). -/
theorem inherited_nearest_partial (P : Parsers) (hP : P.WF) (toDict : String → Dict String String)
    (hT : ∀ s, (Dict.keys (toDict s)).Nodup) (self : Elem) (ancestors : List Elem)
    (hw : ∀ e ∈ self :: ancestors, e.WF) (p : String) (hI : IsInherited p)
    (hp : Plain toDict (self :: ancestors) p) (style : Dict String Val)
    (h : getInheritedStyle P toDict self ancestors = .ok style) :
    Dict.get? style p = match nearest toDict p (self :: ancestors) with
      | some v => some (present P p v)
      | none => initialValue P p := by
  have hin := isInherited_mem p hI
  unfold getInheritedStyle at h
  cases hc : chainLoop P toDict (self :: ancestors) ⟨initStyle self, inherited⟩ with
  | error e => simp [hc] at h
  | ok st =>
    simp only [hc, Except.ok.injEq] at h
    have hps : p ≠ "style" := by rintro rfl; revert hin; decide +kernel
    have hpd : p ≠ "display" := by rintro rfl; revert hin; decide +kernel
    obtain ⟨a, b⟩ := chainLoop_spec P hP toDict hT (self :: ancestors) p hps hpd hp hw _ st
      inherited_nodup hin hc
    have hf := fillDefaults_spec st.props a st.style p
    have hsty : Dict.get? style p = if p = "font-family" ∧ Dict.get? (fillDefaults st.props st.style) p = none
        then some (P.family P.defaultFamily) else Dict.get? (fillDefaults st.props st.style) p := by
      rw [← h]
      by_cases hn : Dict.get? (fillDefaults st.props st.style) "font-family" = none
      · simp only [hn, if_true, Dict.get?_set]
        by_cases hpf : p = "font-family"
        · simp [hpf, hn]
        · simp [hpf, Ne.symm hpf]
      · simp only [hn, if_false]
        by_cases hpf : p = "font-family"
        · simp [hpf, hn]
        · simp [hpf]
    rw [hsty, hf]
    cases hn : nearest toDict p (self :: ancestors) with
    | some v =>
      simp only [hn, Found] at b
      simp [b.1, b.2]
    | none =>
      simp only [hn, Found, SameAt] at b
      rw [b.1, b.2, inherited_not_initStyle self p hin]
      unfold initialValue
      by_cases hpf : p = "font-family"
      · subst hpf
        have : Dict.get? inherited "font-family" = some none := by decide +kernel
        simp [this]
      · simp [hpf, inherited_initial p hin hpf hp.2.1]

/-- **C30** (display).  Whenever the computation returns, display is reported as
`none` exactly when the element or an ancestor specifies `none`, or the element has
the presentation attribute `display="none"`. -/
theorem display_none_iff (P : Parsers) (hP : P.WF) (toDict : String → Dict String String)
    (hT : ∀ s, (Dict.keys (toDict s)).Nodup) (self : Elem) (ancestors : List Elem)
    (hw : ∀ e ∈ self :: ancestors, e.WF) (style : Dict String Val)
    (h : getInheritedStyle P toDict self ancestors = .ok style) :
    Dict.get? style "display" = some (.text "none") ↔
      (∃ e ∈ self :: ancestors, e.specified toDict "display" = some "none") ∨
        Dict.get? self.attrib "display" = some "none" := by
  have loop : ∀ (chain : List Elem), (∀ e ∈ chain, e.WF) → ∀ (st st' : St),
      (Dict.keys st.props).Nodup → "display" ∉ Dict.keys st.props →
      chainLoop P toDict chain st = .ok st' →
      (Dict.keys st'.props).Nodup ∧ "display" ∉ Dict.keys st'.props ∧
      (Dict.get? st'.style "display" = some (.text "none") ↔
        (∃ e ∈ chain, e.specified toDict "display" = some "none") ∨
          Dict.get? st.style "display" = some (.text "none")) := by
    intro chain
    induction chain with
    | nil =>
      intro _ st st' hd hn h
      simp only [chainLoop, Except.ok.injEq] at h
      subst h
      simp [hd, hn]
    | cons e es ih =>
      intro hw st st' hd hn h
      simp only [chainLoop] at h
      cases hs : elemStep P (e.merged toDict) st with
      | error er => simp [hs] at h
      | ok st2 =>
        simp only [hs] at h
        obtain ⟨st1, k1, k2, _, k4⟩ := elemStep_display P _ _ _ hs
        obtain ⟨a, b, _⟩ := keyLoop_spec P hP (e.merged toDict) "display" (by decide) (by decide)
          (fun k v _ => ⟨fun _ => by decide, fun _ => by decide⟩) _ hd st st1 hd k1
        have hsame := b (Or.inl hn)
        have hn2 : "display" ∉ Dict.keys st2.props := by
          rw [← Dict.get?_eq_none_iff, k2, hsame.2, Dict.get?_eq_none_iff]; exact hn
        obtain ⟨c1, c2, c3⟩ := ih (fun e' he' => hw e' (by simp [he'])) st2 st' (k2 ▸ a) hn2 h
        refine ⟨c1, c2, ?_⟩
        rw [c3, k4, hsame.1, merged_get toDict hT e (hw e (by simp)) _ (by decide)]
        by_cases hsp : e.specified toDict "display" = some "none"
        · simp [hsp]
        · simp [hsp]
  unfold getInheritedStyle at h
  cases hc : chainLoop P toDict (self :: ancestors) ⟨initStyle self, inherited⟩ with
  | error e => simp [hc] at h
  | ok st =>
    simp only [hc, Except.ok.injEq] at h
    obtain ⟨a, b, c⟩ := loop _ hw _ st inherited_nodup display_not_inherited hc
    have hsty : Dict.get? style "display" = Dict.get? st.style "display" := by
      rw [← h]
      have hf := fillDefaults_spec st.props a st.style "display"
      rw [(Dict.get?_eq_none_iff _ _).mpr b] at hf
      by_cases hn : Dict.get? (fillDefaults st.props st.style) "font-family" = none
      · simp only [hn, if_true, Dict.get?_set]
        rw [if_neg (by decide), hf]; rfl
      · simp only [hn, if_false]
        rw [hf]; rfl
    rw [hsty, c]
    have hi : Dict.get? (initStyle self) "display" =
        some (.text ((Dict.get? self.attrib "display").getD "inline")) := by
      simp [initStyle, nonInherited, Dict.get?]
    rw [hi]
    cases Dict.get? self.attrib "display" with
    | none => simp
    | some v => simp

/-- Initial values of the properties that are not inherited, from the index of
properties of SVG 2. -/
def ownInitial : Dict String String :=
  [("alignment-baseline", "baseline"), ("baseline-shift", "0"), ("clip", "auto"),
   ("clip-path", "none"), ("dominant-baseline", "auto"), ("filter", "none"),
   ("flood-color", "black"), ("flood-opacity", "1"), ("inline-size", "0"),
   ("lighting-color", "white"), ("mask", "none"), ("opacity", "1"), ("overflow", "visible"),
   ("stop-color", "black"), ("stop-opacity", "1"), ("text-decoration", "none"),
   ("transform", "none"), ("unicode-bidi", "normal"), ("vector-effect", "none")]

private theorem chainLoop_apart (P : Parsers) (hP : P.WF) (toDict : String → Dict String String)
    (p : String) (hpd : p ≠ "display") (h1 : p ≠ "font") (h2 : p ≠ "font-variant")
    (hf : p ∉ fontKeys) (hv : p ∉ fontVariantKeys) (chain : List Elem) :
    ∀ (st st' : St), (Dict.keys st.props).Nodup → p ∉ Dict.keys st.props →
      chainLoop P toDict chain st = .ok st' →
      (Dict.keys st'.props).Nodup ∧ p ∉ Dict.keys st'.props ∧
        Dict.get? st'.style p = Dict.get? st.style p := by
  induction chain with
  | nil =>
    intro st st' hd hn h
    simp only [chainLoop, Except.ok.injEq] at h
    subst h
    exact ⟨hd, hn, rfl⟩
  | cons e es ih =>
    intro st st' hd hn h
    simp only [chainLoop] at h
    cases hs : elemStep P (e.merged toDict) st with
    | error er => simp [hs] at h
    | ok st2 =>
      simp only [hs] at h
      obtain ⟨st1, k1, k2, k3, _⟩ := elemStep_display P _ _ _ hs
      obtain ⟨a, b, _⟩ := keyLoop_spec P hP (e.merged toDict) p h1 h2
        (fun k v _ => ⟨fun _ => ⟨hv, hf⟩, fun _ => hv⟩) _ hd st st1 hd k1
      have hsame := b (Or.inl hn)
      have hn2 : p ∉ Dict.keys st2.props := by
        rw [← Dict.get?_eq_none_iff, k2, hsame.2, Dict.get?_eq_none_iff]; exact hn
      obtain ⟨c1, c2, c3⟩ := ih st2 st' (k2 ▸ a) hn2 h
      exact ⟨c1, c2, by rw [c3, k3 p hpd, hsame.1]⟩

private theorem ownInitial_facts : ∀ p ∈ Dict.keys ownInitial, p ≠ "display" ∧ p ≠ "font" ∧
    p ≠ "font-variant" ∧ p ∉ fontKeys ∧ p ∉ fontVariantKeys ∧ p ∉ Dict.keys inherited ∧
    p ≠ "font-family" ∧
    (p ≠ "mask" → Dict.get? nonInherited p = Dict.get? ownInitial p) := by
  decide +kernel

private theorem get_initStyle (e : Elem) (p : String) :
    Dict.get? (initStyle e) p =
      (Dict.get? nonInherited p).map (fun v => .text ((Dict.get? e.attrib p).getD v)) := by
  unfold initStyle
  induction nonInherited with
  | nil => rfl
  | cons q l ih =>
    obtain ⟨k, v⟩ := q
    simp only [List.map_cons, Dict.get?]
    by_cases h : k = p
    · simp [h]
    · simp [h]
      exact ih

private theorem style_own (P : Parsers) (hP : P.WF) (toDict : String → Dict String String)
    (self : Elem) (ancestors : List Elem) (p : String) (hp : p ∈ Dict.keys ownInitial)
    (style : Dict String Val) (h : getInheritedStyle P toDict self ancestors = .ok style) :
    Dict.get? style p =
      (Dict.get? nonInherited p).map (fun v => .text ((Dict.get? self.attrib p).getD v)) := by
  obtain ⟨f1, f2, f3, f4, f5, f6, f7, _⟩ := ownInitial_facts p hp
  unfold getInheritedStyle at h
  cases hc : chainLoop P toDict (self :: ancestors) ⟨initStyle self, inherited⟩ with
  | error e => simp [hc] at h
  | ok st =>
    simp only [hc, Except.ok.injEq] at h
    obtain ⟨a, b, c⟩ := chainLoop_apart P hP toDict p f1 f2 f3 f4 f5 _ _ st inherited_nodup f6 hc
    rw [← get_initStyle, ← c, ← h]
    have hf := fillDefaults_spec st.props a st.style p
    rw [(Dict.get?_eq_none_iff _ _).mpr b] at hf
    by_cases hn : Dict.get? (fillDefaults st.props st.style) "font-family" = none
    · simp only [hn, if_true, Dict.get?_set]
      rw [if_neg f7.symm, hf]; rfl
    · simp only [hn, if_false]
      rw [hf]; rfl

/-- **C30** (properties that are not inherited).  Whenever the computation
returns, such a property has the value of the element's own attribute or its
initial value, whatever the ancestors say, if neither a rule nor the style
attribute of the element specify it.  Missing: those, and the initial value of
`mask` (next theorems). -/
theorem own_value_partial (P : Parsers) (hP : P.WF) (toDict : String → Dict String String)
    (self : Elem) (ancestors : List Elem) (p : String) (hp : p ∈ Dict.keys ownInitial)
    (hm : p ≠ "mask") (ho : self.specified toDict p = Dict.get? self.attrib p)
    (style : Dict String Val) (h : getInheritedStyle P toDict self ancestors = .ok style) :
    Dict.get? style p =
      match self.specified toDict p with
      | some v => some (.text v)
      | none => (Dict.get? ownInitial p).map .text := by
  rw [style_own P hP toDict self ancestors p hp style h, (ownInitial_facts p hp).2.2.2.2.2.2.2 hm, ho]
  have hsome : ∃ v, Dict.get? ownInitial p = some v := by
    cases hg : Dict.get? ownInitial p with
    | some v => exact ⟨v, rfl⟩
    | none => exact absurd hp ((Dict.get?_eq_none_iff _ _).mp hg)
  obtain ⟨v, hv⟩ := hsome
  cases Dict.get? self.attrib p <;> simp [hv]

example : "opacity" ∈ Dict.keys ownInitial ∧ "opacity" ≠ "mask" ∧
    (⟨[], [], [("opacity", "0.5")]⟩ : Elem).specified (fun _ => []) "opacity" = some "0.5" := by
  decide +kernel

/-- **C30** is violated for properties that are not inherited: whatever the
rules and the style attribute of an element specify for them, only the
presentation attribute is looked at. -/
theorem own_rule_violated (P : Parsers) (hP : P.WF) (toDict : String → Dict String String)
    (self : Elem) (ancestors : List Elem) (p : String) (hp : p ∈ Dict.keys ownInitial)
    (hm : p ≠ "mask") (ho : Dict.get? self.attrib p = none)
    (style : Dict String Val) (h : getInheritedStyle P toDict self ancestors = .ok style) :
    Dict.get? style p = (Dict.get? ownInitial p).map .text := by
  rw [style_own P hP toDict self ancestors p hp style h, (ownInitial_facts p hp).2.2.2.2.2.2.2 hm, ho]
  rfl

example : (⟨[], [("opacity", "0.5")], []⟩ : Elem).specified (fun _ => []) "opacity" = some "0.5" ∧
    Dict.get? (⟨[], [("opacity", "0.5")], []⟩ : Elem).attrib "opacity" = none := by
  decide +kernel

/-- **C30** is violated for `mask`: an element without a mask has the value
`no`, which is not a value of the property. -/
theorem own_mask_violated (P : Parsers) (hP : P.WF) (toDict : String → Dict String String)
    (self : Elem) (ancestors : List Elem) (ho : Dict.get? self.attrib "mask" = none)
    (style : Dict String Val) (h : getInheritedStyle P toDict self ancestors = .ok style) :
    Dict.get? style "mask" = some (.text "no") := by
  rw [style_own P hP toDict self ancestors "mask" (by decide +kernel) style h, ho]
  decide +kernel

/-! #### Where the code falls short of C30 -/

/-- A family of trivial parsers for the examples below. -/
private def P0 : Parsers :=
  ⟨fun v => if v = "caption" then [] else [("font-size", .text "12px"), ("font-family", .text "A")],
    fun _ => [], .text, fun s => [s], "Arial"⟩

private def inlineStyle : String → Dict String String
  | "display:inline" => [("display", "inline")]
  | _ => []

private theorem P0_wf : P0.WF := by
  refine ⟨fun v k hk => ?_, fun v k hk => by simp [P0, Dict.keys] at hk⟩
  by_cases h : v = "caption"
  · simp [P0, h, Dict.keys] at hk
  · simp [P0, h, Dict.keys] at hk
    rcases hk with rfl | rfl <;> decide

/-- Non-trivial instance of `inherited_nearest_partial`: the fill comes from the
grandparent because the parent says `inherit`. -/
example : ∃ style, getInheritedStyle P0 (fun _ => []) ⟨[], [], []⟩
      [⟨[("fill", "inherit")], [], []⟩, ⟨[], [], [("fill", "red")]⟩] = .ok style ∧
    Dict.get? style "fill" = some (.text "red") ∧ Dict.get? style "stroke" = some (.text "none") := by
  refine ⟨_, rfl, ?_, ?_⟩ <;> decide +kernel

/-- **C30** is violated for display: the style attribute says `inline`, overriding
the presentation attribute `none`, yet the element is reported as hidden. -/
theorem display_override_violated :
    ∃ (self : Elem) (style : Dict String Val), self.WF ∧
      getInheritedStyle P0 inlineStyle self [] = .ok style ∧
      self.specified inlineStyle "display" = some "inline" ∧
      Dict.get? style "display" = some (.text "none") := by
  refine ⟨⟨[], [], [("display", "none"), ("style", "display:inline")]⟩, _, ?_, rfl, ?_, ?_⟩
  · refine ⟨by decide, by decide, by decide, by decide⟩
  · decide +kernel
  · decide +kernel

/-- **C30** is violated by an exception: an element with both `font` and
`font-family` makes the computation fail with `KeyError`. -/
theorem font_and_family_violated :
    getInheritedStyle P0 (fun _ => []) ⟨[], [], [("font", "12px A"), ("font-family", "B")]⟩ [] =
      .error .keyError := by
  decide +kernel

/-- **C30** is violated for system fonts: after `font: caption` the longhands have
no value at all, not even the initial one. -/
theorem font_system_violated :
    ∃ style, getInheritedStyle P0 (fun _ => []) ⟨[], [], [("font", "caption")]⟩ [] = .ok style ∧
      Dict.get? style "font-size" = none := by
  refine ⟨_, rfl, ?_⟩
  decide +kernel

/-- **C30** is violated by an exception for the `marker` shorthand. -/
theorem marker_violated :
    getInheritedStyle P0 (fun _ => []) ⟨[], [], [("marker", "url(#m)")]⟩ [] = .error .notImplemented := by
  decide +kernel

/-- The only exceptions come from `marker` and from `font` together with
`font-family`: without these on the way to the root the computation returns. -/
theorem inherited_returns (P : Parsers) (hP : P.WF) (toDict : String → Dict String String)
    (hT : ∀ s, (Dict.keys (toDict s)).Nodup) (self : Elem) (ancestors : List Elem)
    (hw : ∀ e ∈ self :: ancestors, e.WF)
    (hm : ∀ e ∈ self :: ancestors, e.own toDict "marker" = none)
    (hf : ∀ e ∈ self :: ancestors, e.own toDict "font" = none ∨ e.own toDict "font-family" = none) :
    ∃ style, getInheritedStyle P toDict self ancestors = .ok style := by
  -- the loop over the keys
  have keys : ∀ (css : Dict String String), effective css "marker" = none →
      (effective css "font" = none ∨ effective css "font-family" = none) →
      ∀ (ks : List String), ks.Nodup → ∀ st : St, (Dict.keys st.props).Nodup →
      ("font-family" ∈ ks → effective css "font-family" ≠ none → "font-family" ∈ Dict.keys st.props) →
      ∃ st', keyLoop P css ks st = .ok st' ∧ (Dict.keys st'.props).Nodup := by
    intro css h1 h2 ks
    induction ks with
    | nil => intro _ st hd _; exact ⟨st, rfl, hd⟩
    | cons k ks ih =>
      intro hks st hd hff
      simp only [List.nodup_cons] at hks
      simp only [keyLoop]
      cases he : effective css k with
      | none =>
        exact ih hks.2 st hd (fun hm => hff (by simp [hm]))
      | some v =>
        have hkm : k ≠ "marker" := by rintro rfl; simp [h1] at he
        have hex : ∃ st', stepValue P st k v = .ok st' := by
          unfold stepValue
          by_cases e1 : k = "font"
          · simp [e1]
          · by_cases e2 : k = "font-family"
            · subst e2
              have : Dict.contains st.props "font-family" = true :=
                (Dict.contains_iff _ _).mpr (hff (by simp) (by simp [he]))
              simp [this]
            · by_cases e3 : k = "font-variant" <;> simp [e1, e2, e3, hkm]
        obtain ⟨st1, hst⟩ := hex
        obtain ⟨a1, a2⟩ := stepValue_frame P hP st st1 k v hd hst
        simp only [hst]
        refine ih hks.2 st1 a1 (fun hm hne => ?_)
        have hne' : k ≠ "font-family" := by rintro rfl; exact hks.1 hm
        have hnf : k ≠ "font" := by
          rintro rfl
          rcases h2 with h2 | h2
          · simp [h2] at he
          · exact hne h2
        have hsame := a2 "font-family" hne' ⟨fun h => absurd h hnf, fun _ => by decide⟩
        by_contra hc
        rw [← Dict.get?_eq_none_iff, hsame.2, Dict.get?_eq_none_iff] at hc
        exact hc (hff (by simp [hm]) hne)
  have loop : ∀ (chain : List Elem), (∀ e ∈ chain, e.WF) →
      (∀ e ∈ chain, e.own toDict "marker" = none) →
      (∀ e ∈ chain, e.own toDict "font" = none ∨ e.own toDict "font-family" = none) →
      ∀ st : St, (Dict.keys st.props).Nodup → ∃ st', chainLoop P toDict chain st = .ok st' := by
    intro chain
    induction chain with
    | nil => intro _ _ _ st _; exact ⟨st, rfl⟩
    | cons e es ih =>
      intro hw hm hf st hd
      have hwe := hw e (by simp)
      obtain ⟨st1, k1, k2⟩ := keys (e.merged toDict)
        (by rw [effective_merged toDict hT e hwe _ (by decide)]; exact hm e (by simp))
        (by rw [effective_merged toDict hT e hwe _ (by decide),
              effective_merged toDict hT e hwe _ (by decide)]; exact hf e (by simp))
        (Dict.keys st.props) hd st hd (fun h _ => h)
      simp only [chainLoop, elemStep, k1]
      apply ih (fun e' he' => hw e' (by simp [he'])) (fun e' he' => hm e' (by simp [he']))
        (fun e' he' => hf e' (by simp [he']))
      split
      · exact k2
      · exact k2
  obtain ⟨st', h⟩ := loop _ hw hm hf ⟨initStyle self, inherited⟩ inherited_nodup
  unfold getInheritedStyle
  rw [h]
  exact ⟨_, rfl⟩

end SvgPy.Style
