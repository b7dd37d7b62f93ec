import Verif.Props.UrlText
import Verif.Props.UrlPath

/-! Property C72: relative references. -/

set_option linter.unusedSimpArgs false

namespace SvgPy.Url

open SvgPy.UrlSplit

/-! ### Specification: RFC 3986, 5.2.3 -/

/-- A query or a fragment with its delimiter, if there is one. -/
def marked (c : Char) : Option Str → Str
  | none => []
  | some s => c :: s

/-- The text of a reference that consists of a path, a query and a fragment. -/
def refText (path : Str) (query fragment : Option Str) : Str := path ++ marked '?' query ++ marked '#' fragment

/-! ### Lemmas -/

theorem splitScheme_none (s : Str) (h : ':' ∉ s) : splitScheme s = ([], s) := by
  unfold splitScheme; rw [(PyStr.cut_none_iff ':' s).2 h]

theorem splitNetloc_none (s : Str) (h : ∀ r, s ≠ '/' :: '/' :: r) : splitNetloc s = ([], s) := by
  unfold splitNetloc
  split
  · rename_i r; exact absurd rfl (h r)
  · rfl

theorem urlsplit_ref (path : Str) (query fragment : Option Str) (hc : ':' ∉ refText path query fragment)
    (hs : ∀ r, refText path query fragment ≠ '/' :: '/' :: r) (hp : '?' ∉ path ∧ '#' ∉ path) (hq : '#' ∉ marked '?' query) :
    urlsplit (refText path query fragment) = .ok ⟨[], [], path, query.getD [], fragment.getD []⟩ := by
  unfold urlsplit
  rw [splitScheme_none _ hc]
  simp only
  rw [splitNetloc_none _ hs]
  simp only
  rw [if_neg (by simp)]
  have hf : cutOr '#' (refText path query fragment) = (path ++ marked '?' query, fragment.getD []) := by
    unfold refText
    have hn : '#' ∉ path ++ marked '?' query := by
      intro hm
      rcases List.mem_append.1 hm with hm | hm
      · exact hp.2 hm
      · exact hq hm
    cases fragment with
    | none => simp only [marked, List.append_nil]; exact cutOr_none _ _ hn
    | some f => exact cutOr_some _ _ _ hn
  have hqq : cutOr '?' (path ++ marked '?' query) = (path, query.getD []) := by
    cases query with
    | none => simp only [marked, List.append_nil]; exact cutOr_none _ _ hp.1
    | some f => exact cutOr_some _ _ _ hp.1
  rw [hf]
  simp only
  rw [hqq]

theorem dirname_eq (dir last : Str) (hl : '/' ∉ last) (hd : dir.getLast? ≠ some '/') :
    dirname (dir ++ '/' :: last) = if dir = [] then ['/'] else dir := by
  unfold dirname
  rw [rcut_some _ _ _ hl]
  simp only
  by_cases h0 : dir = []
  · subst h0; rfl
  · obtain ⟨a, x, rfl⟩ : ∃ a x, dir = a ++ [x] := ⟨dir.dropLast, dir.getLast h0, (List.dropLast_append_getLast h0).symm⟩
    have hx : x ≠ '/' := by simpa using hd
    have hall : ¬ (a ++ [x]).all (· == '/') = true := by
      rw [List.all_eq_true]
      intro hh
      have := hh x (by simp)
      exact hx (by simpa using this)
    rw [if_neg hall, if_neg h0]
    unfold rstripSlash
    simp [hx]

theorem joinPath_eq (dir last ref : Str) (hl : '/' ∉ last) (hd : dir.getLast? ≠ some '/') (hr : isabs ref = false) :
    joinPath (dirname (dir ++ '/' :: last)) ref = dir ++ '/' :: ref := by
  rw [dirname_eq dir last hl hd]
  unfold joinPath
  rw [hr]
  simp only [Bool.false_eq_true, if_false]
  by_cases h0 : dir = []
  · rw [if_pos h0, if_pos (.inr rfl), h0]; rfl
  · rw [if_neg h0, if_neg (by rintro (x | x); exact h0 x; exact hd x)]

theorem slash_noop (s : Str) (h : '\\' ∉ s) : s.map (fun c => if c = '\\' then '/' else c) = s := map_noop s h

/-! ### Resolution -/

/-- **C72** A reference with a relative path is resolved against the base: the path takes the place of
the last segment of the path of the base and dot segments are removed; query and fragment are those of
the reference; everything else is that of the base.  Missing: references without a path, with an
absolute path and a query, or with a host, see `reference_violated`, and everything excluded in
`path_partial` and `text_partial`. -/
theorem reference_partial (lib : Lib) (b : URL) (path : Str) (query fragment : Option Str) (dir last : Str) (segs : List Str) (file : Str)
    (hier : b.protocol ∉ ["file:".toList, "about:".toList, "blob:".toList, "data:".toList])
    (hbase : b.pathname = dir ++ '/' :: last) (hlast : '/' ∉ last) (hdir : dir.getLast? ≠ some '/') (habs : dir = [] ∨ ∃ c r, dir = '/' :: c :: r ∧ c ≠ '/')
    (hne : path ≠ [] ∧ path.head? ≠ some '/')
    (hchars : ∀ x ∈ path ++ dir, x ∉ "?#:\\".toList) (hq : ∀ x ∈ query.getD [], x ∉ "#:\\".toList) (hf : ∀ x ∈ fragment.getD [], x ∉ ":\\".toList)
    (hquote : lib.quotePath ((lib.unquote (dir ++ '/' :: path)).map fun c => if c = '\\' then '/' else c) = pathOf (segs ++ [file]))
    (hs : ∀ s ∈ segs, s ≠ [] ∧ '/' ∉ s ∧ '\\' ∉ s) (hl : '/' ∉ file ∧ '\\' ∉ file) (h1 : file ≠ ".".toList) (h2 : file ≠ "..".toList)
    (r : URL)
    (hr : r = { b with
      pathname := pathOf (removeDots [] (segs ++ [file]))
      params := parseQuery (query.getD [])
      hash := lib.quoteHash (lib.unquote ((fragment.getD []).dropWhile (· == '#'))) })
    (hnormal : Normal lib r) :
    (construct lib (refText path query fragment) (some b)).1 = .ok r := by
  simp only [List.mem_cons, List.not_mem_nil, or_false, not_or] at hier
  have ho : opaqueProtocol b.protocol = false := by
    unfold opaqueProtocol
    rw [beq_eq_false_iff_ne.2 hier.2.1, beq_eq_false_iff_ne.2 hier.2.2.1, beq_eq_false_iff_ne.2 hier.2.2.2]
    rfl
  have hp : ∀ c ∈ "?#:\\".toList, c ∉ path ∧ c ∉ dir := fun c hc =>
    ⟨fun hm => hchars c (List.mem_append_left _ hm) hc, fun hm => hchars c (List.mem_append_right _ hm) hc⟩
  have tailNot : ∀ c : Char, c = ':' ∨ c = '\\' → c ∉ marked '?' query ∧ c ∉ marked '#' fragment := by
    intro c hc
    constructor
    · cases query with
      | none => simp [marked]
      | some q =>
        intro hm
        rcases List.mem_cons.1 hm with e | hm
        · rcases hc with rfl | rfl <;> exact absurd e (by decide)
        · exact hq c hm (by rcases hc with rfl | rfl <;> decide)
    · cases fragment with
      | none => simp [marked]
      | some q =>
        intro hm
        rcases List.mem_cons.1 hm with e | hm
        · rcases hc with rfl | rfl <;> exact absurd e (by decide)
        · exact hf c hm (by rcases hc with rfl | rfl <;> decide)
  have hhash : '#' ∉ marked '?' query := by
    cases query with
    | none => simp [marked]
    | some q =>
      intro hm
      rcases List.mem_cons.1 hm with e | hm
      · exact absurd e (by decide)
      · exact hq _ hm (by decide)
  have notRef : ∀ (pre : Str) (c : Char), (c = ':' ∨ c = '\\') → c ∉ pre → c ∉ refText pre query fragment := by
    intro pre c hc hpre hm
    unfold refText at hm
    rcases List.mem_append.1 hm with hm | hm
    · rcases List.mem_append.1 hm with hm | hm
      · exact hpre hm
      · exact (tailNot c hc).1 hm
    · exact (tailNot c hc).2 hm
  obtain ⟨p0, ps, hps⟩ : ∃ p0 ps, path = p0 :: ps := by
    cases path with
    | nil => exact absurd rfl hne.1
    | cons a l => exact ⟨a, l, rfl⟩
  have hp0 : p0 ≠ '/' := by have := hne.2; rw [hps] at this; simpa using this
  have hrefabs : isabs (refText path query fragment) = false := by
    rw [hps]
    unfold isabs refText
    simp [hp0]
  have hsplit1 := urlsplit_ref path query fragment (notRef path ':' (.inl rfl) (hp ':' (by decide)).1)
    (by
      intro r e
      rw [hps] at e
      simp [refText] at e
      exact hp0 e.1)
    ⟨(hp '?' (by decide)).1, (hp '#' (by decide)).1⟩ hhash
  have hparse : parseUrl lib blank (refText path query fragment) = (blank, some .valueError) := by
    unfold parseUrl
    rw [hsplit1]
    simp only
    rw [if_pos (.inl ⟨trivial, trivial⟩)]
  have hbp : getPathname b = dir ++ '/' :: last := by
    unfold getPathname
    rw [ho, hbase]
    rcases habs with e | ⟨c, r', e, _⟩
    · rw [e]; rfl
    · rw [e]; rfl
  have hjoined : joined lib b (refText path query fragment) = refText (dir ++ '/' :: path) query fragment := by
    unfold joined
    rw [if_pos hier.1, hbp, joinPath_eq dir last _ hlast hdir hrefabs, slash_noop]
    · simp [refText]
    · intro hm
      rcases List.mem_append.1 hm with hm | hm
      · exact (hp '\\' (by decide)).2 hm
      · rcases List.mem_cons.1 hm with hm | hm
        · exact absurd hm (by decide)
        · exact notRef path '\\' (.inr rfl) (hp '\\' (by decide)).1 hm
  have notJ : ∀ c : Char, c ∈ "?#:\\".toList → c ≠ '/' → c ∉ dir ++ '/' :: path := by
    intro c hc h0 hm
    rcases List.mem_append.1 hm with hm | hm
    · exact (hp c hc).2 hm
    · rcases List.mem_cons.1 hm with hm | hm
      · exact h0 hm
      · exact (hp c hc).1 hm
  have hsplit2 := urlsplit_ref (dir ++ '/' :: path) query fragment (notRef _ ':' (.inl rfl) (notJ ':' (by decide) (by decide)))
    (by
      intro r e
      rcases habs with e' | ⟨c, r', e', hc⟩
      · rw [e', hps] at e
        simp [refText] at e
        exact hp0 e.1
      · rw [e'] at e
        simp [refText] at e
        exact hc e.1)
    ⟨notJ '?' (by decide) (by decide), notJ '#' (by decide) (by decide)⟩ hhash
  have hpath := path_partial lib b (dir ++ '/' :: path) segs file (by simp) (notJ '\\' (by decide) (by decide))
    (by
      simp only [List.mem_cons, List.not_mem_nil, or_false, not_or]
      exact hier.2) hquote hs hl h1 h2
  have hres : resolve lib b (refText path query fragment) = (r, none) := by
    unfold resolve
    rw [hrefabs, hjoined, hsplit2]
    simp only [Bool.false_eq_true, if_false]
    rw [hpath, hr]
    rfl
  unfold construct
  simp only
  rw [if_neg (by rw [ho]; exact Bool.false_ne_true), hparse]
  simp only [if_true]
  rw [hres]
  simp only
  have := text_partial lib r blank hnormal
  unfold setHref at this
  rw [this]

/-- A non-trivial instance: `../c?k=v#f` against `http://me:pw@example.org:8080/a/b`. -/
example : (construct plain (refText "../c".toList (some "k=v".toList) (some "f".toList)) (some full)).1 =
    .ok { full with pathname := "/c".toList } := by
  apply reference_partial plain full "../c".toList (some "k=v".toList) (some "f".toList) "/a".toList "b".toList ["a".toList, "..".toList] "c".toList
  · decide
  · rfl
  · decide
  · decide
  · exact .inr ⟨'a', [], rfl, by decide⟩
  · decide
  · decide
  · decide
  · decide
  · decide
  · decide
  · decide
  · decide
  · decide
  · rfl
  · exact {
      scheme := ⟨'h', "ttp".toList, by decide, by decide, by decide, by decide⟩
      hier := by decide
      user := ⟨by decide, by decide, by decide, by decide, by decide⟩
      hostname := ⟨by decide, by decide, by decide, by decide⟩
      port := .inr ⟨by decide, 8080, by decide, by decide⟩
      host := by decide
      path := ⟨⟨_, rfl⟩, by decide, by decide⟩
      query := ⟨by decide, by decide, by decide⟩
      fragment := ⟨by decide, by decide⟩ }

/-- A library in which question marks in paths are quoted, as `quote` does. -/
def quoting : Lib := { plain with quotePath := fun s => (s.map fun c => if c = '?' then "%3F".toList else [c]).flatten }

/-- The text of the resolved URL. -/
def resolved (lib : Lib) (url base : String) : Option Str :=
  match constructStr lib url.toList base.toList with
  | .ok u => some (href lib u)
  | .error _ => none

/-- **C72** is violated: a reference that consists of a fragment or a query loses the last segment of
the base; the query of a reference with an absolute path becomes part of the path; the host of `//k/x`
and the protocol are lost; a URL with an invalid port is taken for a relative path. -/
theorem reference_violated :
    resolved plain "#f" "http://h/a/b" = some "http://h/a/#f".toList ∧
      resolved plain "?q=1" "http://h/a/b" = some "http://h/a/?q=1".toList ∧
      resolved quoting "/x?q=1" "http://h/a/b" = some "http://h/x%3Fq=1".toList ∧
      resolved plain "//k/x" "http://h/a/b" = some "/x".toList ∧
      resolved plain "http://k:99999/" "http://h/a/b" = some "http://h/a/http:/k:99999/".toList := by decide +kernel

/-- **C72** (bases as text).  A base given as text works as the URL object made from it does, an error in it is
an error, and the empty text is no base. -/
theorem reference_text (lib : Lib) (url base : Str) (hb : base ≠ []) :
    (∀ b, (construct lib base none).1 = .ok b → constructStr lib url base = (construct lib url (some b)).1) ∧
    (∀ e, (construct lib base none).1 = .error e → constructStr lib url base = .error e) ∧
    constructStr lib url [] = (construct lib url none).1 := by
  refine ⟨fun b h => ?_, fun e h => ?_, by simp [constructStr]⟩
  · simp [constructStr, hb, h]
  · simp [constructStr, hb, h]

end SvgPy.Url
