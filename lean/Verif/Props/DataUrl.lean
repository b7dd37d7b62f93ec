import Verif.Lemmas.PyStr
import Verif.Model.DataUrl
import Verif.Props.CaseMap

/-!
C112: a `data:` URL gives its data and its content type.
-/

set_option linter.unusedSimpArgs false
set_option linter.unusedVariables false

namespace SvgPy.DataUrl

open SvgPy.PyStr SvgPy.Url SvgPy.UrlSplit SvgPy.CaseMap

/-! ### Specification -/

namespace Spec

/-- A `data:` URL: the parts of the media type before the comma, and the data after it. -/
structure DataURL where
  /-- The media type. -/
  mime : Str
  /-- Parameters. -/
  params : List (Str × Str)
  /-- Whether `;base64` stands at the end. -/
  base64 : Bool
  /-- The data. -/
  body : Str

/-- The media type with its parameters. -/
def typeText (d : DataURL) : Str := d.mime ++ (d.params.map fun p => ';' :: p.1 ++ '=' :: p.2).flatten

/-- The text. -/
def urlText (d : DataURL) : Str :=
  "data:".toList ++ typeText d ++ (if d.base64 then ";base64".toList else []) ++ ',' :: d.body

/-- A word: not empty, without white space and signs that have a meaning in a URL or in a media type. -/
def Plain (s : Str) : Prop := s ≠ [] ∧ ∀ c ∈ s, isSpace c = false ∧ c ∉ [';', ',', '?', '#', '=']

/-- A well-formed one. -/
structure Valid (d : DataURL) : Prop where
  mime : Plain d.mime
  slash : d.mime.head? ≠ some '/'
  flag : d.mime ≠ "base64".toList
  params : ∀ p ∈ d.params, Plain p.1 ∧ Plain p.2
  body : ∀ c ∈ d.body, c ≠ '?' ∧ c ≠ '#'

/-- The value of the last parameter with the name, without case. -/
def lastValue (lower : Str → Str) (name : Str) : List (Str × Str) → Option Str
  | [] => none
  | p :: ps =>
    match lastValue lower name ps with
    | some v => some v
    | none => if lower p.1 = lower name then some p.2 else none

/-- The name of the header. -/
def headerName : Option Str := some "Content-Type".toList

end Spec

open Spec

/-! ### The path of the URL -/

theorem cutOr_none (c : Char) (s : Str) (h : c ∉ s) : cutOr c s = (s, []) := by
  unfold cutOr
  rw [(cut_none_iff c s).2 h]
  rfl

theorem cutOr_append (c : Char) (a b : Str) (h : c ∉ a) : cutOr c (a ++ c :: b) = (a, b) := by
  unfold cutOr
  rw [cut_append c a b h]
  rfl

theorem split_data (p tail : Str) (h1 : p ≠ []) (h2 : p.head? ≠ some '/') (h3 : ∀ c ∈ p, c ≠ '?' ∧ c ≠ '#')
    (h4 : ∃ c ∈ p, c.isDigit = false) (h5 : tail = [] ∨ ∃ t, tail = '?' :: t ∨ tail = '#' :: t) :
    ∃ q f, urlsplit ("data:".toList ++ p ++ tail) = .ok ⟨"data".toList, [], p, q, f⟩ := by
  have hs : splitScheme ("data:".toList ++ p ++ tail) = ("data".toList, p ++ tail) := by
    have hc : cut ':' ("data:".toList ++ p ++ tail) = some ("data".toList, p ++ tail) := by
      rw [List.append_assoc]
      exact cut_append ':' "data".toList (p ++ tail) (by decide)
    unfold splitScheme
    rw [hc]
    have hany : (p ++ tail).any (fun c => !c.isDigit) = true := by
      obtain ⟨c, hc, hd⟩ := h4
      rw [List.any_eq_true]
      exact ⟨c, List.mem_append_left _ hc, by simp [hd]⟩
    simp only [hany, Bool.or_true]
    rw [if_neg (by decide), if_neg (by decide), if_pos (by decide)]
    rfl
  have hn : splitNetloc (p ++ tail) = ([], p ++ tail) := by
    cases p with
    | nil => exact absurd rfl h1
    | cons x p =>
      have hx : x ≠ '/' := by simpa using h2
      unfold splitNetloc
      split
      · rename_i r e
        simp only [List.cons_append, List.cons.injEq] at e
        exact absurd e.1 hx
      · rfl
  have hq : '?' ∉ p := fun h => (h3 _ h).1 rfl
  have hh : '#' ∉ p := fun h => (h3 _ h).2 rfl
  unfold urlsplit
  simp only [hs, hn]
  rcases h5 with rfl | ⟨t, rfl | rfl⟩
  · rw [List.append_nil, cutOr_none '#' p hh, cutOr_none '?' p hq]
    exact ⟨_, _, rfl⟩
  · cases hc : cut '#' t with
    | none =>
      have : '#' ∉ p ++ '?' :: t := by
        have := (cut_none_iff '#' t).1 hc
        simp [hh, this]
      rw [cutOr_none '#' _ this]
      simp only [cutOr_append '?' p t hq]
      exact ⟨_, _, rfl⟩
    | some ab =>
      obtain ⟨a, b⟩ := ab
      obtain ⟨rfl, ha⟩ := (cut_some_iff '#' t a b).1 hc
      have : '#' ∉ p ++ '?' :: a := by simp [hh, ha]
      rw [show p ++ '?' :: (a ++ '#' :: b) = (p ++ '?' :: a) ++ '#' :: b by simp, cutOr_append '#' _ b this]
      simp only [cutOr_append '?' p a hq]
      exact ⟨_, _, rfl⟩
  · simp only [cutOr_append '#' p t hh, cutOr_none '?' p hq]
    exact ⟨_, _, rfl⟩

/-- The path of a `data:` URL is what stands before the query and the fragment. -/
theorem construct_data (lib : Lib) (hl : lib.lower "data".toList = "data".toList) (p tail : Str) (h1 : p ≠ [])
    (h2 : p.head? ≠ some '/') (h3 : ∀ c ∈ p, c ≠ '?' ∧ c ≠ '#')
    (h4 : ∃ c ∈ p, c.isDigit = false) (h5 : tail = [] ∨ ∃ t, tail = '?' :: t ∨ tail = '#' :: t) :
    ∃ u, (construct lib ("data:".toList ++ p ++ tail) none).1 = .ok u ∧ u.protocol = "data:".toList ∧
      getPathname u = p := by
  obtain ⟨q, f, hu⟩ := split_data p tail h1 h2 h3 h4 h5
  have hp : setProtocol lib blank "data".toList = ({ blank with protocol := "data:".toList }, none) := by
    unfold setProtocol
    rw [if_neg (by decide), show rstripColon "data".toList = "data".toList by decide, hl]
    rfl
  have hc : cleanPath lib "data:".toList p = p := by
    unfold cleanPath
    rw [if_pos (Or.inr rfl)]
    rfl
  have hpath : ∀ u : URL, u.protocol = "data:".toList → setPathname lib u p = ({ u with pathname := p }, none) := by
    intro u hu
    unfold setPathname
    rw [if_neg h1, hu, if_neg (fun h => absurd h.2.1 (by decide)), hc]
  have hparse : parseUrl lib blank ("data:".toList ++ p ++ tail) =
      (⟨"data:".toList, lib.quoteUser (lib.unquote []), lib.quoteUser (lib.unquote []), [], [], [], p, parseQuery q,
        lib.quoteHash (lib.unquote (f.dropWhile (· == '#')))⟩, none) := by
    unfold parseUrl
    rw [hu]
    have hcond : ¬(("data".toList = [] ∧ True) ∨ (opaqueScheme "data".toList = true ∧ p = [])) := by
      rintro (h | h)
      · exact absurd h.1 (by decide)
      · exact h1 h.2
    simp only
    rw [if_neg hcond, hp]
    simp only [andThen]
    rw [show parseNetloc lib { blank with protocol := "data:".toList } [] =
      ({ blank with protocol := "data:".toList }, none) from rfl]
    simp only [setUsername, setPassword, userinfo]
    rw [hpath _ rfl]
    rfl
  unfold construct
  rw [hparse]
  refine ⟨_, rfl, rfl, ?_⟩
  have : isabs p = false := by
    unfold isabs
    simpa using h2
  unfold getPathname
  simp only [this]
  rfl

/-! ### The media type -/

theorem strip_space_append (a s : Str) (ha : ∀ x ∈ a, isSpace x = true) : strip (a ++ s) = strip s := by
  induction a with
  | nil => rfl
  | cons x a ih =>
    rw [List.cons_append, strip_cons_space x _ (ha x List.mem_cons_self)]
    exact ih fun y hy => ha y (List.mem_cons_of_mem _ hy)

theorem trimmed_of_plain (s : Str) (h : ∀ c ∈ s, isSpace c = false) : Trimmed s :=
  ⟨fun x hx => h x (List.mem_of_mem_head? hx), fun x hx => h x (List.mem_of_mem_getLast? hx)⟩

/-- The parts of the media type. -/
def parts (d : DataURL) : List Str := d.mime :: d.params.map fun p => p.1 ++ '=' :: p.2

theorem join_parts (d : DataURL) : join [';'] (parts d) = typeText d := by
  unfold parts typeText
  obtain ⟨mime, params, b, body⟩ := d
  simp only
  induction params generalizing mime with
  | nil => simp [join]
  | cons p ps ih =>
    have := ih (p.1 ++ '=' :: p.2)
    rw [List.map_cons, join, this]
    · simp
    · simp

theorem join_snoc (c : Char) (ps : List Str) (x : Str) (h : ps ≠ []) :
    join [c] (ps ++ [x]) = join [c] ps ++ c :: x := by
  induction ps with
  | nil => exact absurd rfl h
  | cons p ps ih =>
    cases ps with
    | nil => simp [join]
    | cons q ps =>
      have := ih (by simp)
      show p ++ [c] ++ join [c] (q :: ps ++ [x]) = p ++ [c] ++ join [c] (q :: ps) ++ c :: x
      rw [this]
      simp

/-- All parts, with the flag. -/
def allParts (d : DataURL) : List Str := parts d ++ (if d.base64 then ["base64".toList] else [])

theorem join_all (d : DataURL) :
    join [';'] (allParts d) = typeText d ++ (if d.base64 then ";base64".toList else []) := by
  unfold allParts
  cases d.base64 with
  | false => simp [join_parts]
  | true =>
    simp only [if_true]
    rw [join_snoc ';' _ _ (by simp [parts]), join_parts]
    rfl

theorem part_plain (d : DataURL) (hv : Valid d) (x : Str) (hx : x ∈ allParts d) :
    x ≠ [] ∧ ∀ c ∈ x, isSpace c = false ∧ c ∉ [';', ',', '?', '#'] := by
  have hb : "base64".toList ≠ [] ∧ ∀ c ∈ "base64".toList, isSpace c = false ∧ c ∉ [';', ',', '?', '#'] := by decide
  unfold allParts parts at hx
  have hp : ∀ s, Plain s → s ≠ [] ∧ ∀ c ∈ s, isSpace c = false ∧ c ∉ [';', ',', '?', '#'] := fun s h =>
    ⟨h.1, fun c hc => ⟨(h.2 c hc).1, fun hm => (h.2 c hc).2 (by
      simp only [List.mem_cons, List.not_mem_nil, or_false] at hm ⊢
      tauto)⟩⟩
  rw [List.cons_append, List.mem_cons, List.mem_append] at hx
  rcases hx with rfl | hx | hx
  · exact hp _ hv.mime
  · obtain ⟨p, hpm, rfl⟩ := List.mem_map.1 hx
    obtain ⟨h1, h2⟩ := hv.params p hpm
    refine ⟨by simp, ?_⟩
    intro c hc
    rw [List.mem_append, List.mem_cons] at hc
    rcases hc with hc | rfl | hc
    · exact (hp _ h1).2 c hc
    · decide
    · exact (hp _ h2).2 c hc
  · cases hb64 : d.base64 with
    | false => rw [hb64] at hx; simp at hx
    | true =>
      rw [hb64] at hx
      simp only [if_true, List.mem_singleton] at hx
      rw [hx]
      exact hb

theorem mem_join (c : Char) (ps : List Str) (x : Char) (h : x ∈ join [c] ps) : x = c ∨ ∃ p ∈ ps, x ∈ p := by
  induction ps with
  | nil => simp [join] at h
  | cons p ps ih =>
    cases ps with
    | nil => exact Or.inr ⟨p, List.mem_cons_self, h⟩
    | cons q ps =>
      rw [join] at h
      · rw [List.mem_append, List.mem_append, List.mem_singleton] at h
        rcases h with (h | h) | h
        · exact Or.inr ⟨p, List.mem_cons_self, h⟩
        · exact Or.inl h
        · rcases ih h with h | ⟨r, hr, h⟩
          · exact Or.inl h
          · exact Or.inr ⟨r, List.mem_cons_of_mem _ hr, h⟩
      · simp

/-- What is found in the part before the comma. -/
theorem split_type (d : DataURL) (hv : Valid d) :
    (splitOn ';' (strip (typeText d ++ (if d.base64 then ";base64".toList else [])))).map strip = allParts d := by
  rw [← join_all]
  have hsp : ∀ c ∈ join [';'] (allParts d), isSpace c = false := by
    intro c hc
    rcases mem_join _ _ _ hc with rfl | ⟨x, hx, hc⟩
    · decide
    · exact ((part_plain d hv x hx).2 c hc).1
  rw [strip_of_trimmed _ (trimmed_of_plain _ hsp), splitOn_join ';' _ (by simp [allParts, parts])
    (fun x hx h => ((part_plain d hv x hx).2 _ h).2 (by simp))]
  conv_rhs => rw [← List.map_id (allParts d)]
  apply List.map_congr_left
  intro x hx
  exact strip_of_trimmed _ (trimmed_of_plain _ fun c hc => ((part_plain d hv x hx).2 c hc).1)

theorem no_flag (d : DataURL) (hv : Valid d) : "base64".toList ∉ parts d := by
  unfold parts
  rw [List.mem_cons]
  rintro (h | h)
  · exact hv.flag h.symm
  · obtain ⟨p, _, h⟩ := List.mem_map.1 h
    have : '=' ∈ "base64".toList := by rw [← h]; simp
    exact absurd this (by decide)

theorem comma_free (d : DataURL) (hv : Valid d) :
    ',' ∉ typeText d ++ (if d.base64 then ";base64".toList else []) := by
  rw [← join_all]
  intro h
  rcases mem_join _ _ _ h with h | ⟨x, hx, h⟩
  · exact absurd h (by decide)
  · exact ((part_plain d hv x hx).2 _ h).2 (by simp)

/-- The headers with the content type. -/
def headers (lib : Lib) (t : Str) : Headers := CMap.empty.setitem (lowKey lib) contentTypeKey t

theorem loadPath_eq {β : Type} (lib : Lib) (b64 : Str → Py β) (d : DataURL) (hv : Valid d) :
    loadPath lib b64 (typeText d ++ (if d.base64 then ";base64".toList else []) ++ ',' :: d.body) =
      if d.base64 then (b64 (lib.unquote (strip d.body))).map fun b => (some (.bytes b), headers lib (typeText d))
      else .ok (some (.text (lib.unquote (strip d.body))), headers lib (typeText d)) := by
  unfold loadPath
  rw [cut_append ',' _ _ (comma_free d hv)]
  have hne : ¬(strip (typeText d ++ (if d.base64 then ";base64".toList else []))).length = 0 := by
    intro h
    have h0 := List.length_eq_zero_iff.1 h
    have := split_type d hv
    rw [h0] at this
    have h2 : d.mime = [] := by
      have := congrArg List.head? this
      simpa [splitOn, allParts, parts, strip, lstrip, rstrip] using this.symm
    exact hv.mime.1 h2
  simp only [if_neg hne, split_type d hv]
  cases hb : d.base64 with
  | false =>
    have : "base64".toList ∉ allParts d := by
      unfold allParts
      rw [hb]
      simpa using no_flag d hv
    rw [if_neg this]
    unfold allParts
    rw [hb]
    simp only [Bool.false_eq_true, if_false, List.append_nil, join_parts]
    rfl
  | true =>
    have he : allParts d = parts d ++ ["base64".toList] := by
      unfold allParts
      rw [hb]
      rfl
    rw [he, if_pos (by simp)]
    rw [List.erase_append_right _ (no_flag d hv)]
    simp only [List.erase_cons_head, List.append_nil, join_parts, if_true]
    cases b64 (lib.unquote (strip d.body)) <;> rfl

/-! ### The content type -/

/-- The value of the last pair with the key. -/
def lastOf (low : Option Str → Option Str) (l : Option Str) : List (Option Str × Str) → Option Str
  | [] => none
  | p :: ps =>
    match lastOf low l ps with
    | some v => some v
    | none => if l = low p.1 then some p.2 else none

theorem foldl_val (low : Option Str → Option Str) (ps : List (Option Str × Str)) (a : Abs (Option Str) Str)
    (l : Option Str) : (ps.foldl (fun a p => a.set low p.1 p.2) a).val l = (lastOf low l ps).or (a.val l) := by
  induction ps generalizing a with
  | nil => simp [lastOf]
  | cons p ps ih =>
    rw [List.foldl_cons, ih, lastOf]
    cases lastOf low l ps with
    | some v => simp
    | none =>
      simp only [Option.none_or, Abs.set]
      split <;> simp

theorem update_get (low : Option Str → Option Str) (ps : List (Option Str × Str)) (k : Option Str) :
    ((CMap.empty : Headers).update low ps).getitem low k =
      match lastOf low (low k) ps with
      | some v => .ok v
      | none => .error .keyError := by
  have h := (run_observe (κ := Option Str) (β := Str) low [.update ps]).2.2.2.2.2 k
  have e : (((Abs.empty : Abs (Option Str) Str).run low [.update ps]).2).val (low k) = lastOf low (low k) ps := by
    simp only [Abs.run, Abs.step]
    rw [foldl_val]
    simp [Abs.empty]
  rw [e] at h
  have e2 : ((CMap.empty : Headers).update low ps).getitem low k =
      (((CMap.empty : Headers).run low [.update ps]).2).getitem low k := rfl
  rw [e2, h]
  cases lastOf low (low k) ps <;> rfl

theorem lastOf_some (lib : Lib) (n : Str) (ps : List (Str × Str)) :
    lastOf (lowKey lib) (lowKey lib (some n)) (ps.map fun p => (some p.1, p.2)) = lastValue lib.lower n ps := by
  induction ps with
  | nil => rfl
  | cons p ps ih =>
    rw [List.map_cons, lastOf, ih, lastValue]
    cases lastValue lib.lower n ps with
    | some v => rfl
    | none =>
      simp only [lowKey, Option.map_some, Option.some.injEq]
      by_cases h : lib.lower p.1 = lib.lower n
      · rw [if_pos h.symm, if_pos h]
      · rw [if_neg (fun e => h e.symm), if_neg h]

theorem lastOf_none (lib : Lib) (ps : List (Str × Str)) :
    lastOf (lowKey lib) (lowKey lib none) (ps.map fun p => (some p.1, p.2)) = none := by
  induction ps with
  | nil => rfl
  | cons p ps ih =>
    rw [List.map_cons, lastOf, ih]
    simp [lowKey]

/-- The content type as it is understood: the media type, and the last value for each name. -/
def Understood (lib : Lib) (mime : Str) (params : List (Str × Str)) (m : Headers) : Prop :=
  m.getitem (lowKey lib) none = .ok mime ∧
  ∀ n, m.getitem (lowKey lib) (some n) =
    match lastValue lib.lower n params with
    | some v => .ok v
    | none => .error .keyError

theorem headers_items (lib : Lib) (t : Str) : (headers lib t).items = [(contentTypeKey, t)] := rfl

theorem headers_get (lib : Lib) (t : Str) : (headers lib t).getitem (lowKey lib) contentTypeKey = .ok t := by
  have := update_get (lowKey lib) [(contentTypeKey, t)] contentTypeKey
  simp only [lastOf, if_true] at this
  exact this

theorem foldl_params (lib : Lib) (ps : List (Str × Str)) (h : ∀ p ∈ ps, Plain p.1 ∧ Plain p.2) (m : Headers) :
    (ps.map fun p => p.1 ++ '=' :: p.2).foldl (addParameter lib) m =
      m.update (lowKey lib) (ps.map fun p => (some p.1, p.2)) := by
  induction ps generalizing m with
  | nil => rfl
  | cons p ps ih =>
    obtain ⟨h1, h2⟩ := h p List.mem_cons_self
    have hk : '=' ∉ p.1 := fun hm => (h1.2 _ hm).2 (by simp)
    have hw : '=' ∉ p.2 := fun hm => (h2.2 _ hm).2 (by simp)
    have hs : splitOn '=' (p.1 ++ '=' :: p.2) = [p.1, p.2] := by
      rw [splitOn_append '=' _ _ hk, splitOn_notMem '=' _ hw]
    rw [List.map_cons, List.foldl_cons, ih (fun q hq => h q (List.mem_cons_of_mem _ hq))]
    unfold addParameter
    rw [hs]
    rfl

/-- C112: the content type of a header is understood. -/
theorem content_type_spec (lib : Lib) (d : DataURL) (hv : Valid d) (hs : Headers)
    (hh : hs.items = [(headerName, typeText d)]) :
    ∃ m, getContentType lib hs = some m ∧ Understood lib d.mime d.params m := by
  have hd : Valid { d with base64 := false } := ⟨hv.mime, hv.slash, hv.flag, hv.params, hv.body⟩
  have h1 : (splitOn ';' (typeText d)).map strip = parts d := by
    have := split_type { d with base64 := false } hd
    simp only [Bool.false_eq_true, if_false, List.append_nil] at this
    have ht : strip (typeText d) = typeText d := by
      rw [← join_parts]
      apply strip_of_trimmed
      apply trimmed_of_plain
      intro c hc
      rcases mem_join _ _ _ hc with rfl | ⟨x, hx, hc⟩
      · decide
      · exact ((part_plain { d with base64 := false } hd x (by simpa [allParts, parts] using hx)).2 c hc).1
    have e : typeText { d with base64 := false } = typeText d := rfl
    rw [e, ht] at this
    rw [this]
    simp [allParts, parts]
  have h2 : (CMap.empty.update (lowKey lib) hs.items : Headers).getitem (lowKey lib) contentTypeKey =
      .ok (typeText d) := by
    rw [hh, update_get, show headerName = contentTypeKey from rfl]
    simp only [lastOf, if_true]
  unfold getContentType
  simp only [h2, h1, parts]
  refine ⟨_, rfl, ?_⟩
  rw [foldl_params lib d.params hv.params]
  have e : ((CMap.empty : Headers).setitem (lowKey lib) none d.mime).update (lowKey lib)
      (d.params.map fun p => (some p.1, p.2)) =
      (CMap.empty : Headers).update (lowKey lib) ((none, d.mime) :: d.params.map fun p => (some p.1, p.2)) := rfl
  rw [e]
  constructor
  · rw [update_get, lastOf, lastOf_none]
    simp
  · intro n
    rw [update_get, lastOf, lastOf_some]
    cases lastValue lib.lower n d.params with
    | some v => rfl
    | none => simp [lowKey]

/-! ### Loading -/

/-- What is loaded from a `data:` URL. -/
def Loaded {β : Type} (lib : Lib) (b64 : Str → Py β) (d : DataURL) (r : Py (Option (Data β) × Headers)) : Prop :=
  ∃ hs : Headers, hs.items = [(headerName, typeText d)] ∧
    (∃ m, getContentType lib hs = some m ∧ Understood lib d.mime d.params m) ∧
    r = if d.base64 then (b64 (lib.unquote (strip d.body))).map fun b => (some (.bytes b), hs)
      else .ok (some (.text (lib.unquote (strip d.body))), hs)

theorem load_eq {β : Type} (lib : Lib) (hl : lib.lower "data".toList = "data".toList) (b64 : Str → Py β)
    (p tail : Str) (h2 : p.head? ≠ some '/') (h3 : ∀ c ∈ p, c ≠ '?' ∧ c ≠ '#')
    (h4 : ∃ c ∈ p, c.isDigit = false) (h5 : tail = [] ∨ ∃ t, tail = '?' :: t ∨ tail = '#' :: t) :
    load lib b64 ("data:".toList ++ p ++ tail) = some (loadPath lib b64 p) := by
  have h1 : p ≠ [] := by
    obtain ⟨c, hc, _⟩ := h4
    exact List.ne_nil_of_mem hc
  obtain ⟨u, e1, e2, e3⟩ := construct_data lib hl p tail h1 h2 h3 h4 h5
  unfold load
  rw [e1]
  simp only [if_pos e2, e3]

theorem path_ok (d : DataURL) (hv : Valid d) :
    (typeText d ++ (if d.base64 then ";base64".toList else []) ++ ',' :: d.body).head? ≠ some '/' ∧
    ∀ c ∈ typeText d ++ (if d.base64 then ";base64".toList else []) ++ ',' :: d.body, c ≠ '?' ∧ c ≠ '#' := by
  constructor
  · obtain ⟨mime, ps, b, body⟩ := d
    cases mime with
    | nil => exact absurd rfl hv.mime.1
    | cons x mime =>
      have := hv.slash
      simpa [typeText] using this
  · intro c hc
    rw [List.mem_append, List.mem_cons, ← join_all] at hc
    rcases hc with hc | rfl | hc
    · rcases mem_join _ _ _ hc with rfl | ⟨x, hx, hc⟩
      · decide
      · have := ((part_plain d hv x hx).2 c hc).2
        constructor
        · rintro rfl; exact this (by simp)
        · rintro rfl; exact this (by simp)
    · decide
    · exact hv.body c hc

theorem load_text {β : Type} (lib : Lib) (hl : lib.lower "data".toList = "data".toList) (b64 : Str → Py β)
    (d : DataURL) (hv : Valid d) (tail : Str) (h5 : tail = [] ∨ ∃ t, tail = '?' :: t ∨ tail = '#' :: t) :
    ∃ r, load lib b64 (urlText d ++ tail) = some r ∧ Loaded lib b64 d r := by
  have e : urlText d ++ tail = "data:".toList ++
      (typeText d ++ (if d.base64 then ";base64".toList else []) ++ ',' :: d.body) ++ tail := by
    unfold urlText
    simp only [List.append_assoc]
  obtain ⟨h2, h3⟩ := path_ok d hv
  rw [e, load_eq lib hl b64 _ tail h2 h3 ⟨',', by simp, by decide⟩ h5, loadPath_eq lib b64 d hv]
  exact ⟨_, rfl, headers lib (typeText d), headers_items lib _,
    content_type_spec lib d hv _ (headers_items lib _), rfl⟩

/-- C112: a `data:` URL gives its data, decoded, and its media type as the content type; the fragment does not
matter. -/
theorem load_spec {β : Type} (lib : Lib) (hl : lib.lower "data".toList = "data".toList) (b64 : Str → Py β)
    (d : DataURL) (hv : Valid d) (fragment : Option Str) :
    ∃ r, load lib b64 (urlText d ++ (fragment.map ('#' :: ·)).getD []) = some r ∧ Loaded lib b64 d r :=
  load_text lib hl b64 d hv _ (by
    cases fragment with
    | none => exact Or.inl rfl
    | some t => exact Or.inr ⟨t, Or.inr rfl⟩)

/-- C112: without a media type the data are ASCII text. -/
theorem load_default {β : Type} (lib : Lib) (hl : lib.lower "data".toList = "data".toList) (b64 : Str → Py β)
    (body : Str) (hb : ∀ c ∈ body, c ≠ '?' ∧ c ≠ '#') :
    ∃ hs : Headers, load lib b64 ("data:,".toList ++ body) = some (.ok (some (.text (lib.unquote (strip body))), hs)) ∧
      hs.items = [(headerName, "text/plain;charset=US-ASCII".toList)] ∧
      ∃ m, getContentType lib hs = some m ∧
        Understood lib "text/plain".toList [("charset".toList, "US-ASCII".toList)] m := by
  have e : "data:,".toList ++ body = "data:".toList ++ (',' :: body) ++ [] := by simp
  have h := load_eq lib hl b64 (',' :: body) [] (by simp) (by
    intro c hc
    rcases List.mem_cons.1 hc with rfl | hc
    · decide
    · exact hb c hc) ⟨',', by simp, by decide⟩ (Or.inl rfl)
  rw [← e] at h
  refine ⟨headers lib "text/plain;charset=US-ASCII".toList, ?_, rfl, ?_⟩
  · rw [h]
    unfold loadPath
    rw [show ',' :: body = [] ++ ',' :: body from rfl, cut_append ',' [] body (by simp)]
    simp only [show strip ([] : Str) = [] from rfl, List.length_nil, if_true]
    rw [if_neg (by decide +kernel)]
    rfl
  · exact content_type_spec lib ⟨"text/plain".toList, [("charset".toList, "US-ASCII".toList)], false, []⟩
      ⟨⟨by decide, by decide⟩, by decide, by decide, by
        intro p hp
        rw [List.mem_singleton] at hp
        subst hp
        exact ⟨⟨by decide, by decide⟩, by decide, by decide⟩, by simp⟩ _ rfl

/-- C112: a URL without a comma gives no data. -/
theorem load_nothing {β : Type} (lib : Lib) (hl : lib.lower "data".toList = "data".toList) (b64 : Str → Py β)
    (p : Str) (h2 : p.head? ≠ some '/') (h3 : ∀ c ∈ p, c ≠ '?' ∧ c ≠ '#' ∧ c ≠ ',')
    (h4 : ∃ c ∈ p, c.isDigit = false) :
    load lib b64 ("data:".toList ++ p) = some (.ok (none, .empty)) := by
  have h := load_eq lib hl b64 p [] h2 (fun c hc => ⟨(h3 c hc).1, (h3 c hc).2.1⟩) h4 (Or.inl rfl)
  rw [List.append_nil] at h
  rw [h]
  unfold loadPath
  rw [(cut_none_iff ',' p).2 fun hc => (h3 _ hc).2.2 rfl]

theorem charset_eq (lib : Lib) (d : DataURL) (hs : Headers)
    (h : ∃ m, getContentType lib hs = some m ∧ Understood lib d.mime d.params m) :
    charset lib hs = (lastValue lib.lower "charset".toList d.params).getD "utf-8".toList := by
  obtain ⟨m, h1, h2⟩ := h
  unfold charset
  rw [h1]
  simp only
  rw [h2.2]
  cases lastValue lib.lower "charset".toList d.params <;> rfl

/-- C112: a document in a base64 URL is decoded with its charset, which is UTF-8 if there is none. -/
theorem document_spec {β : Type} (lib : Lib) (hl : lib.lower "data".toList = "data".toList) (b64 : Str → Py β)
    (decode : Str → β → Py Str) (d : DataURL) (hv : Valid d) (hb : d.base64 = true) (b : β)
    (hd : b64 (lib.unquote (strip d.body)) = .ok b) :
    documentText lib b64 decode (urlText d) =
      some (decode ((lastValue lib.lower "charset".toList d.params).getD "utf-8".toList) b) := by
  obtain ⟨r, h1, hs, h2, h3, h4⟩ := load_text lib hl b64 d hv [] (Or.inl rfl)
  rw [List.append_nil] at h1
  unfold documentText
  rw [h1, h4, hb, hd]
  simp only [if_true, Except.map]
  rw [charset_eq lib d hs h3]

/-! ### What does not hold -/

/-- C112: a document in a URL that is not base64 cannot be read: the data are a text already. -/
theorem document_text_violated {β : Type} (lib : Lib) (hl : lib.lower "data".toList = "data".toList)
    (b64 : Str → Py β) (decode : Str → β → Py Str) (d : DataURL) (hv : Valid d) (hb : d.base64 = false) :
    documentText lib b64 decode (urlText d) = some (.error .attributeError) := by
  obtain ⟨r, h1, hs, h2, h3, h4⟩ := load_text lib hl b64 d hv [] (Or.inl rfl)
  rw [List.append_nil] at h1
  unfold documentText
  rw [h1, h4, hb]
  rfl

/-- C112: data after a question mark are lost. -/
theorem query_violated {β : Type} (lib : Lib) (hl : lib.lower "data".toList = "data".toList)
    (b64 : Str → Py β) (d : DataURL) (hv : Valid d) (rest : Str) :
    ∃ r, load lib b64 (urlText d ++ '?' :: rest) = some r ∧ Loaded lib b64 d r :=
  load_text lib hl b64 d hv _ (Or.inr ⟨rest, Or.inl rfl⟩)

/-- A library for the cases: no text is quoted. -/
def caseLib : Lib := ⟨fun s => s.map Char.toLower, .ok, id, id, id, id, id, fun _ => false⟩

/-- Bytes as texts. -/
def caseB64 (s : Str) : Py Str := .ok s.reverse

/-- The data and the content type. -/
def shown (r : Option (Py (Option (Data Str) × Headers))) : Option (Option (Data Str) × List (Option Str × Str)) :=
  match r with
  | some (.ok (d, hs)) => some (d, hs.items)
  | _ => none

/-- C112: parameters without a media type give an empty media type and not `text/plain`. -/
theorem no_mime_violated :
    shown (load caseLib caseB64 "data:;charset=utf-8,x".toList) =
      some (some (.text "x".toList), [(headerName, ";charset=utf-8".toList)]) ∧
    shown (load caseLib caseB64 "data:;base64,x".toList) =
      some (some (.bytes "x".toList), [(headerName, [])]) := ⟨by decide +kernel, by decide +kernel⟩

/-- C112: the flag is understood in lower case only. -/
theorem flag_case_violated :
    shown (load caseLib caseB64 "data:a/b;BASE64,xy".toList) =
      some (some (.text "xy".toList), [(headerName, "a/b;BASE64".toList)]) := by decide +kernel

/-- C112: a parameter with an equals sign in its value, or with quotes and spaces, is not understood as such. -/
theorem parameter_violated :
    (getContentType caseLib (headers caseLib "a/b; k=x=y".toList)).map CMap.items =
      some [(none, "a/b".toList)] ∧
    (getContentType caseLib (headers caseLib "a/b; charset=\"utf-8\"".toList)).map CMap.items =
      some [(none, "a/b".toList), (some "charset".toList, "\"utf-8\"".toList)] := by decide +kernel

/-! ### Cases -/

/-- The URL `data:image/svg+xml;charset=latin1;Charset=ascii;base64,olleh`. -/
def caseUrl : DataURL :=
  ⟨"image/svg+xml".toList, [("charset".toList, "latin1".toList), ("Charset".toList, "ascii".toList)], true, "olleh".toList⟩

theorem case_valid : Valid caseUrl := by
  have hb : ∀ c ∈ "olleh".toList, c ≠ '?' ∧ c ≠ '#' := by decide +kernel
  have hp : ∀ p ∈ [("charset".toList, "latin1".toList), ("Charset".toList, "ascii".toList)],
      Plain p.1 ∧ Plain p.2 := by
    unfold Plain
    decide +kernel
  have hm : Plain "image/svg+xml".toList := by
    unfold Plain
    decide +kernel
  exact ⟨hm, by decide +kernel, by decide +kernel, hp, hb⟩

example : caseLib.lower "data".toList = "data".toList ∧
    urlText caseUrl = "data:image/svg+xml;charset=latin1;Charset=ascii;base64,olleh".toList ∧
    lastValue caseLib.lower "CHARSET".toList caseUrl.params = some "ascii".toList := by decide

example : shown (load caseLib caseB64 (urlText caseUrl ++ "#frag".toList)) = some (some (.bytes "hello".toList),
    [(headerName, "image/svg+xml;charset=latin1;Charset=ascii".toList)]) := by decide +kernel

example : documentText caseLib caseB64 (fun c b => .ok (c ++ b)) (urlText caseUrl) =
    some (.ok "asciihello".toList) := by decide +kernel

example : Valid { caseUrl with base64 := false } :=
  ⟨case_valid.mime, case_valid.slash, case_valid.flag, case_valid.params, case_valid.body⟩

/-- The conditions of `load_nothing`. -/
example : ("abc".toList).head? ≠ some '/' ∧ (∀ c ∈ "abc".toList, c ≠ '?' ∧ c ≠ '#' ∧ c ≠ ',') ∧
    ∃ c ∈ "abc".toList, c.isDigit = false := ⟨by decide +kernel, by decide +kernel, 'a', by decide +kernel, by decide +kernel⟩

end SvgPy.DataUrl
