import Verif.Model.Factory
import Verif.Lemmas.PyDict
import Verif.Props.QName

/-! **C134**: the classes of elements, and what the factories for elements and documents
give. -/

set_option linter.unusedSimpArgs false
set_option linter.unusedVariables false

namespace SvgPy.Factory

open SvgPy.QName

/-! ### Specification -/

/-- The elements of SVG 2 that have a class of their own here. -/
def svgNames : List Str := ["a", "circle", "defs", "desc", "ellipse", "g", "hatch", "hatchpath", "line",
  "linearGradient", "marker", "meshgradient", "meshpatch", "meshrow", "metadata", "path", "pattern",
  "polygon", "polyline", "radialGradient", "rect", "script", "solidcolor", "stop", "style", "svg",
  "symbol", "text", "textPath", "title", "tspan", "use", "view"].map String.toList

/-- The elements of HTML that have a class of their own here. -/
def htmlNames : List Str := ["audio", "canvas", "iframe", "link", "video"].map String.toList

/-- The middle part of an interface name: the element's name with a capital first letter, but for a
few that are written otherwise. -/
def interface (n : Str) : Str :=
  if n = "svg".toList then "SVG".toList
  else if n = "tspan".toList then "TSpan".toList
  else if n = "meshgradient".toList then "MeshGradient".toList
  else if n = "iframe".toList then "IFrame".toList
  else match n with
    | [] => []
    | c :: cs => Char.ofNat (c.toNat - 32) :: cs

/-- A name without prefix, braces or white space. -/
def Plain (n : Str) : Prop :=
  n ≠ [] ∧ ':' ∉ n ∧ '{' ∉ n ∧ ∀ c ∈ n, c ∉ ['\t', '\n', '\x0c', '\r', ' ']

/-- A namespace: absent, or a non-empty text without white space. -/
def GoodNs (ns : Option Str) : Prop :=
  ∀ u, ns = some u → u ≠ [] ∧ ∀ c ∈ u, c ∉ ['\t', '\n', '\x0c', '\r', ' ']

/-- The namespace of SVG. -/
def svgUri : Str := "http://www.w3.org/2000/svg".toList

/-- The namespace of XHTML. -/
def xhtmlUri : Str := "http://www.w3.org/1999/xhtml".toList

private theorem svgNs_eq : svgNs = svgUri := rfl

private theorem xhtmlNs_eq : xhtmlNs = xhtmlUri := rfl

/-! ### Classes -/

private theorem get_svg (n : Str) (h : n ∈ svgNames) : classMap.get? n = some (.svg (interface n)) :=
  (by decide +kernel : ∀ n ∈ svgNames, classMap.get? n = some (.svg (interface n))) n h

private theorem get_html (n : Str) (h : n ∈ htmlNames) : classMap.get? n = some (.html (interface n)) :=
  (by decide +kernel : ∀ n ∈ htmlNames, classMap.get? n = some (.html (interface n))) n h

private theorem get_none (n : Str) (h1 : n ∉ svgNames) (h2 : n ∉ htmlNames) : classMap.get? n = none := by
  rw [Dict.get?_eq_none_iff]
  intro h
  have := (by decide +kernel : ∀ k ∈ Dict.keys classMap, k ∈ svgNames ∨ k ∈ htmlNames) n h
  rcases this with h | h
  · exact h1 h
  · exact h2 h

/-- **C134** (classes, right part).  An SVG element has the class of its interface; an HTML element has
the class of its interface or, having none here, the class of HTML elements — unless it shares its name
with an SVG element; an element of SVG, of no namespace or of any other that has no class of its own is
an `SVGElement`.  Missing: elements of other namespaces are not kept apart, see `class_violated`. -/
theorem class_partial (ns : Option Str) (n : Str) :
    (n ∈ svgNames → ns = some svgUri →
      lookup classMap .element ns n = some (.svg (interface n))) ∧
    (n ∈ htmlNames → ns = some xhtmlUri →
      lookup classMap .element ns n = some (.html (interface n))) ∧
    (n ∉ svgNames → n ∉ htmlNames → ns = some xhtmlUri →
      lookup classMap .element ns n = some (.html [])) ∧
    (n ∉ svgNames → n ∉ htmlNames → ns ≠ some xhtmlUri →
      lookup classMap .element ns n = some (.svg [])) := by
  refine ⟨fun h _ => ?_, fun h _ => ?_, fun h1 h2 h => ?_, fun h1 h2 h => ?_⟩
  · simp only [lookup, get_svg n h, Option.getD_some]
  · simp only [lookup, get_html n h, Option.getD_some]
  · rw [← xhtmlNs_eq] at h
    simp only [lookup, get_none n h1 h2, Option.getD_none]
    rw [if_pos h]
  · rw [← xhtmlNs_eq] at h
    simp only [lookup, get_none n h1 h2, Option.getD_none]
    rw [if_neg h]

example : "rect".toList ∈ svgNames ∧ "video".toList ∈ htmlNames ∧ "clipPath".toList ∉ svgNames ∧
    "clipPath".toList ∉ htmlNames ∧ "source".toList ∉ svgNames ∧ "source".toList ∉ htmlNames := by decide +kernel

/-- **C134** (violated).  The name alone decides once it is in the table: whatever the namespace, a
`style`, `title`, `script` or `a` of HTML gets the class of the SVG element of that name, a `rect` of a
foreign vocabulary is an `SVGRectElement`, and an SVG element called `video` is an HTML one. -/
theorem class_violated (ns : Option Str) :
    (∀ n ∈ svgNames, lookup classMap .element ns n = some (.svg (interface n))) ∧
    (∀ n ∈ htmlNames, lookup classMap .element ns n = some (.html (interface n))) ∧
    lookup classMap .element (some xhtmlUri) "style".toList
      = some (.svg "Style".toList) ∧
    lookup classMap .element (some "urn:foo".toList) "rect".toList = some (.svg "Rect".toList) ∧
    lookup classMap .element (some svgUri) "video".toList
      = some (.html "Video".toList) := by
  refine ⟨fun n h => ?_, fun n h => ?_, by decide +kernel, by decide +kernel, by decide +kernel⟩
  · simp only [lookup, get_svg n h, Option.getD_some]
  · simp only [lookup, get_html n h, Option.getD_some]

/-- **C134** (violated).  `clipPath`, `foreignObject`, `mesh` and `switch` are SVG elements without a
class of their own. -/
theorem class_missing_violated :
    ∀ n ∈ ["clipPath", "foreignObject", "mesh", "switch", "filter", "mask", "image"].map String.toList,
      lookup classMap .element (some svgNs) n = some (.svg []) := by decide +kernel

/-- **C134** (other nodes).  Comments and processing instructions get their own classes in every
document, every other kind of node is left to lxml; an element always gets a class. -/
theorem class_other (m : Dict Str Cls) (ns : Option Str) (n : Str) :
    lookup m .comment ns n = some .comment ∧ lookup m .pi ns n = some .pi ∧
    lookup m .other ns n = none ∧ lookup m .element ns n ≠ none := by simp [lookup]

/-- **C134** (own classes).  After an update every name in it has the class given there, and every other
name the class it had before. -/
theorem class_update (m other : Dict Str Cls) (h : (Dict.keys other).Nodup) (ns : Option Str) (n : Str) :
    (∀ c, (n, c) ∈ other → lookup (updateMap m other) .element ns n = some c) ∧
    (n ∉ other.map (·.1) → lookup (updateMap m other) .element ns n = lookup m .element ns n) := by
  constructor
  · intro c hc
    have := (Dict.mem_iff_get? other h n c).1 hc
    simp only [lookup, updateMap, Dict.get?_update m other n h, this]
    simp
  · intro hn
    have : Dict.get? other n = none := by rw [Dict.get?_eq_none_iff]; exact hn
    simp only [lookup, updateMap, Dict.get?_update m other n h, this]
    simp

example : (Dict.keys [("clipPath".toList, Cls.svg "ClipPath".toList)]).Nodup := by simp [Dict.keys]

/-! ### Elements -/

private theorem ws_false (s : Str) (h : ∀ c ∈ s, c ∉ ['\t', '\n', '\x0c', '\r', ' ']) :
    hasAsciiWhitespace s = false := by
  rw [hasAsciiWhitespace, List.any_eq_false]
  intro c hc
  have := h c hc
  simp only [List.mem_cons, List.not_mem_nil, or_false, not_or] at this
  simp [this]

private theorem cut_none (c : Char) (s : Str) (h : c ∉ s) : PyStr.cut c s = none := by
  induction s with
  | nil => rfl
  | cons a s ih =>
    simp only [List.mem_cons, not_or] at h
    have ha : a ≠ c := fun e => h.1 e.symm
    simp [PyStr.cut, ha, ih h.2]

/-- The plain name resolves to itself. -/
private theorem resolve_plain (f : Str → Option Str) (ns : Option Str) (n : Str) (hn : Plain n) (hs : GoodNs ns) :
    resolve f ns n = .ok (mk ns n) := by
  obtain ⟨h0, hc, hb, hw⟩ := hn
  have h1 : matchBraces n = none := by
    unfold matchBraces
    split
    · exact absurd (List.mem_cons_self ..) hb
    · rfl
  have h2 : splitPrefix n = none := cut_none _ _ hc
  have h3 : analyse f n = (none, n, none) := by simp [analyse, h1, h2]
  have h4 := ws_false n hw
  cases ns with
  | none => simp [resolve, cleanNs, h0, h4, h3, finish]
  | some u =>
    obtain ⟨hu, huw⟩ := hs u rfl
    have h5 := ws_false u huw
    simp [resolve, cleanNs, h0, h4, h3, finish, hu, h5]

/-- **C134** (elements).  With a plain name the new element has that name and that namespace and the
class for them, and belongs to no document; a name that XML does not allow is a `ValueError`. -/
theorem element_plain (xmlName : Str → Bool) (m : Dict Str Cls) (ns : Option Str) (n : Str)
    (nsmap : Option Nsmap) (hn : Plain n) (hs : GoodNs ns) :
    (xmlName n = true → ∃ x, (createElementNs xmlName m ns n nsmap).1 = .ok x ∧ x.ns = ns ∧ x.localName = n ∧
      x.cls = lookup m .element ns n ∧ x.owner = none) ∧
    (xmlName n = false → (createElementNs xmlName m ns n nsmap).1 = .error .valueError) := by
  have h := resolve_plain namespaceMap.get? ns n hn hs
  constructor
  · intro hx
    refine ⟨⟨ns, n, fillNsmap nsmap, lookup m .element ns n, none⟩, ?_, rfl, rfl, rfl, rfl⟩
    simp only [createElementNs, h, mk, hx, if_true]
  · intro hx
    simp only [createElementNs, h, mk, hx]
    simp

example : Plain "rect".toList ∧ GoodNs (some svgNs) := by
  constructor
  · unfold Plain; decide +kernel
  · intro u hu
    cases hu
    decide +kernel

/-- **C134** (names with a namespace).  A name written `{u}l` gives an element `l` of the namespace `u`, also
when the same namespace is given; with another namespace it is a `NamespaceError`. -/
theorem element_braced (xmlName : Str → Bool) (m : Dict Str Cls) (ns : Option Str) (u l : Str)
    (nsmap : Option Nsmap) (hu : u ≠ []) (hl : l ≠ []) (hb : '}' ∉ u)
    (hw : ∀ c ∈ u ++ l, c ∉ ['\t', '\n', '\x0c', '\r', ' ']) (hx : xmlName l = true) (hs : GoodNs ns) :
    ((ns = none ∨ ns = some u) → ∃ x,
      (createElementNs xmlName m ns ("{".toList ++ u ++ "}".toList ++ l) nsmap).1 = .ok x ∧ x.ns = some u ∧
      x.localName = l ∧ x.cls = lookup m .element (some u) l ∧ x.owner = none) ∧
    (ns ≠ none → ns ≠ some u →
      (createElementNs xmlName m ns ("{".toList ++ u ++ "}".toList ++ l) nsmap).1 = .error (.dom "NamespaceError")) := by
  have hm : matchBraces ("{".toList ++ u ++ "}".toList ++ l) = some (u, l) := by
    show PyStr.cut '}' (u ++ "}".toList ++ l) = _
    rw [show u ++ "}".toList ++ l = u ++ '}' :: l by simp]
    exact PyStr.cut_append _ _ _ hb
  have hws : hasAsciiWhitespace ("{".toList ++ u ++ "}".toList ++ l) = false := by
    unfold hasAsciiWhitespace
    rw [List.any_eq_false]
    intro c hc
    have hc : c = '{' ∨ c ∈ u ∨ c = '}' ∨ c ∈ l := by simpa using hc
    rcases hc with rfl | hc | rfl | hc
    · decide
    · have := hw c (by simp [hc]); simpa [and_assoc] using this
    · decide
    · have := hw c (by simp [hc]); simpa [and_assoc] using this
  have hne : "{".toList ++ u ++ "}".toList ++ l ≠ [] := by simp
  have hres : QName.resolve namespaceMap.get? ns ("{".toList ++ u ++ "}".toList ++ l) = finish ns none l (some u) := by
    unfold QName.resolve
    have hc : cleanNs ns = .ok ns := by
      cases ns with
      | none => rfl
      | some v =>
        obtain ⟨hv, hvw⟩ := hs v rfl
        simp [cleanNs, hv, ws_false v hvw]
    rw [hc]
    simp only
    have ha : analyse namespaceMap.get? ("{".toList ++ u ++ "}".toList ++ l) = (none, l, some u) := by
      unfold analyse
      rw [hm]
    rw [if_neg hne, hws, ha]
    rfl
  constructor
  · intro h
    have hf : finish ns none l (some u) = .ok (mk (some u) l) := by
      rcases h with rfl | rfl <;> simp [finish, hl, hu]
    refine ⟨⟨some u, l, fillNsmap nsmap, lookup m .element (some u) l, none⟩, ?_, rfl, rfl, rfl, rfl⟩
    simp only [createElementNs, hres, hf, mk, hx, if_true]
  · intro h1 h2
    have hf : finish ns none l (some u) = .error (.dom "NamespaceError") := by
      simp [finish, hl, hu, h1, Ne.symm h2]
    simp only [createElementNs, hres, hf]

example : "{urn:x}p".toList = "{".toList ++ "urn:x".toList ++ "}".toList ++ "p".toList ∧ '}' ∉ "urn:x".toList ∧
    (∀ c ∈ "urn:x".toList ++ "p".toList, c ∉ ['\t', '\n', '\x0c', '\r', ' ']) := by
  decide

/-- **C134** (no namespace).  The factory without a namespace gives an element of none, although the
default namespace declared on it is SVG's. -/
theorem element_no_namespace (xmlName : Str → Bool) (m : Dict Str Cls) (n : Str) (hn : Plain n)
    (hx : xmlName n = true) :
    ∃ x, (createElement xmlName m n none).1 = .ok x ∧ x.ns = none ∧ x.localName = n ∧
      x.nsmap = [(none, svgUri)] := by
  have h := resolve_plain namespaceMap.get? none n hn (by simp [GoodNs])
  refine ⟨⟨none, n, fillNsmap none, lookup m .element none n, none⟩, ?_, rfl, rfl, ?_⟩
  · simp only [createElement, createElementNs, h, mk, hx, if_true]
  · simp [fillNsmap, Dict.contains, Dict.get?, Dict.set, svgNs_eq]

/-- **C134** (prefixes, right part).  The prefixes `html`, `xlink`, `xml` and `xmlns` with their own
namespaces give the element of that namespace.  Missing: prefixes of the caller's own map, see
`prefix_violated`. -/
theorem prefix_partial (xmlName : Str → Bool) (m : Dict Str Cls) (p u l : Str) (nsmap : Option Nsmap)
    (hp : (p, u) ∈ [("html".toList, "http://www.w3.org/1999/xhtml".toList),
      ("xlink".toList, "http://www.w3.org/1999/xlink".toList),
      ("xml".toList, "http://www.w3.org/XML/1998/namespace".toList),
      ("xmlns".toList, "http://www.w3.org/2000/xmlns/".toList)])
    (hl : Plain l) (hx : xmlName l = true) :
    ∃ x, (createElementNs xmlName m (some u) (p ++ ':' :: l) nsmap).1 = .ok x ∧ x.ns = some u ∧
      x.localName = l ∧ x.cls = lookup m .element (some u) l := by
  obtain ⟨l0, l1, l2, l3⟩ := hl
  have key : p ≠ [] ∧ ':' ∉ p ∧ p.head? ≠ some '{' ∧ hasAsciiWhitespace p = false ∧
      hasAsciiWhitespace u = false ∧ u ≠ [] ∧ namespaceMap.get? p = some u := by
    have := (by decide +kernel : ∀ q ∈ [("html".toList, "http://www.w3.org/1999/xhtml".toList),
      ("xlink".toList, "http://www.w3.org/1999/xlink".toList),
      ("xml".toList, "http://www.w3.org/XML/1998/namespace".toList),
      ("xmlns".toList, "http://www.w3.org/2000/xmlns/".toList)], q.1 ≠ [] ∧ ':' ∉ q.1 ∧ q.1.head? ≠ some '{' ∧
        hasAsciiWhitespace q.1 = false ∧ hasAsciiWhitespace q.2 = false ∧ q.2 ≠ [] ∧
        namespaceMap.get? q.1 = some q.2) (p, u) hp
    exact this
  obtain ⟨k1, k2, k3, k4, k5, k6, k7⟩ := key
  have h := (resolve_prefixed namespaceMap.get? (some u) p l k1 k2 k3 l0 k4 (ws_false l l3)
    (fun n e => by cases e; exact k5) (by rw [k7]; simpa using k6)).1 u k6 rfl k7
  refine ⟨⟨some u, l, fillNsmap nsmap, lookup m .element (some u) l, none⟩, ?_, rfl, rfl, rfl⟩
  simp only [createElementNs, h, hx, if_true]

/-- **C134** (violated).  The map of prefixes that the caller gives is not asked: any prefix other than
those four is a `NamespaceError`, also when the map binds it to the very namespace given. -/
theorem prefix_violated (xmlName : Str → Bool) (m : Dict Str Cls) (p l : Str) (ns : Option Str)
    (nsmap : Option Nsmap)
    (hp : Plain p) (hl : Plain l) (hs : GoodNs ns)
    (h4 : p ∉ ["html".toList, "xlink".toList, "xml".toList, "xmlns".toList]) :
    (createElementNs xmlName m ns (p ++ ':' :: l) nsmap).1 = .error (.dom "NamespaceError") := by
  obtain ⟨p0, p1, p2, p3⟩ := hp
  obtain ⟨l0, l1, l2, l3⟩ := hl
  have hg : namespaceMap.get? p = none := by
    rw [Dict.get?_eq_none_iff]
    exact h4
  have h := (resolve_prefixed namespaceMap.get? ns p l p0 p1
    (fun e => p2 (List.mem_of_mem_head? e)) l0 (ws_false p p3) (ws_false l l3)
    (fun n e => ws_false n (hs n e).2) (by rw [hg]; simp)).2 (by rw [hg]; simp)
  simp only [createElementNs, h]

example : Plain "p".toList ∧ Plain "b".toList ∧ GoodNs (some "urn:foo".toList) ∧
    "p".toList ∉ ["html".toList, "xlink".toList, "xml".toList, "xmlns".toList] ∧
    (createElementNs (fun _ => true) classMap (some "urn:foo".toList) "p:b".toList
      (some [(some "p".toList, "urn:foo".toList)])).1 = .error (.dom "NamespaceError") := by
  refine ⟨by unfold Plain; decide +kernel, by unfold Plain; decide +kernel, ?_, by decide +kernel, by rfl⟩
  intro u hu
  cases hu
  decide +kernel

/-! ### The caller's map of prefixes -/

/-- **C134** (the map handed on).  The new element declares every prefix of the caller's map, and SVG's
namespace as the default one unless the map has its own. -/
theorem element_nsmap (xmlName : Str → Bool) (m : Dict Str Cls) (ns : Option Str) (n : Str)
    (nsmap : Option Nsmap) (x : Elem) (h : (createElementNs xmlName m ns n nsmap).1 = .ok x) :
    (∀ p, x.nsmap.get? (some p) = (nsmap.getD []).get? (some p)) ∧
    x.nsmap.get? none = some (((nsmap.getD []).get? none).getD svgUri) := by
  have hx : x.nsmap = fillNsmap nsmap := by
    simp only [createElementNs] at h
    split at h
    · simp at h
    · split at h
      · cases h; rfl
      · simp at h
  rw [hx]
  constructor
  · intro p
    simp only [fillNsmap]
    split
    · rfl
    · rw [Dict.get?_set]; simp
  · simp only [fillNsmap]
    split
    · rename_i hc
      simp only [Dict.contains] at hc
      cases hg : Dict.get? (nsmap.getD []) none with
      | none => rw [hg] at hc; simp at hc
      | some v => simp
    · rename_i hc
      have hg : Dict.get? (nsmap.getD []) none = none := by
        simpa [Dict.contains] using hc
      rw [Dict.get?_set, hg]; simp [svgNs_eq]

/-- **C134** (the caller's map, right part).  A map with a default namespace is left as it is, and no
other entry of a map is changed.  Missing: a map without one, see `map_written_violated`. -/
theorem map_kept_partial (xmlName : Str → Bool) (m : Dict Str Cls) (ns : Option Str) (n : Str) (d : Nsmap) :
    (none ∈ d.map (·.1) → (createElementNs xmlName m ns n (some d)).2 = some d) ∧
    ∃ d', (createElementNs xmlName m ns n (some d)).2 = some d' ∧ ∀ p, d'.get? (some p) = d.get? (some p) := by
  have ha : (createElementNs xmlName m ns n (some d)).2 = some (fillNsmap (some d)) := by
    simp only [createElementNs]
    split
    · rfl
    · split <;> rfl
  rw [ha]
  constructor
  · intro h
    have := (Dict.contains_iff d none).2 h
    simp [fillNsmap, this]
  · refine ⟨_, rfl, fun p => ?_⟩
    simp only [fillNsmap, Option.getD_some]
    split
    · rfl
    · rw [Dict.get?_set]; simp

/-- **C134** (violated).  A map without a default namespace gets one written into it: the dictionary of
the caller is changed, even when the call fails. -/
theorem map_written_violated (xmlName : Str → Bool) (m : Dict Str Cls) (ns : Option Str) (n : Str) (d : Nsmap)
    (h : none ∉ d.map (·.1)) :
    (createElementNs xmlName m ns n (some d)).2 ≠ some d ∧
    ∃ d', (createElementNs xmlName m ns n (some d)).2 = some d' ∧
      d'.get? none = some svgUri := by
  have ha : (createElementNs xmlName m ns n (some d)).2 = some (fillNsmap (some d)) := by
    simp only [createElementNs]
    split
    · rfl
    · split <;> rfl
  have hg : Dict.get? d none = none := by rw [Dict.get?_eq_none_iff]; exact h
  have hf : (fillNsmap (some d)).get? none = some svgUri := by
    simp [fillNsmap, Dict.contains, hg, Dict.get?_set, svgNs_eq]
  rw [ha]
  refine ⟨fun e => ?_, _, rfl, hf⟩
  rw [Option.some.inj e, hg] at hf
  simp at hf

example : (none : Option Str) ∉ ([(some "p".toList, "urn:foo".toList)] : Nsmap).map (·.1) := by simp

/-! ### Documents -/

/-- **C134** (documents without a root).  Without a name, or with an empty one, the document is empty and
nothing else happens. -/
theorem document_empty (xmlName : Str → Bool) (m : Dict Str Cls) (id : Nat) (ns : Option Str)
    (qn : Option Str) (nsmap : Option Nsmap) (h : qn = none ∨ qn = some []) :
    ∃ d, createDocument xmlName m id ns qn nsmap = (.ok d, nsmap) ∧ d.root = none ∧ d.id = id := by
  rcases h with rfl | rfl
  · exact ⟨_, rfl, rfl, rfl⟩
  · exact ⟨_, rfl, rfl, rfl⟩

/-- **C134** (content types).  The content type goes by the namespace given: `image/svg+xml` for SVG,
`application/xhtml+xml` for XHTML and `application/xml` for everything else. -/
theorem document_type (xmlName : Str → Bool) (m : Dict Str Cls) (id : Nat) (ns : Option Str)
    (qn : Option Str) (nsmap : Option Nsmap) (d : Doc) (h : (createDocument xmlName m id ns qn nsmap).1 = .ok d) :
    (ns = some svgUri → d.contentType = "image/svg+xml".toList) ∧
    (ns = some xhtmlUri → d.contentType = "application/xhtml+xml".toList) ∧
    (ns ≠ some svgUri → ns ≠ some xhtmlUri →
      d.contentType = "application/xml".toList) := by
  have hd : d.contentType = contentType ns := by
    simp only [createDocument] at h
    split at h
    · cases h; rfl
    · split at h
      · split at h
        · simp at h
        · cases h; rfl
      · cases h; rfl
  rw [hd]
  refine ⟨?_, ?_, ?_⟩
  · rintro rfl; rfl
  · rintro rfl; decide +kernel
  · intro h1 h2
    rw [← svgNs_eq] at h1
    rw [← xhtmlNs_eq] at h2
    rw [contentType, if_neg h1, if_neg h2]

/-- **C134** (the root).  With a plain name the root is the element with that name and namespace and the
class for them, and it belongs to the new document. -/
theorem document_root (xmlName : Str → Bool) (m : Dict Str Cls) (id : Nat) (ns : Option Str) (n : Str)
    (nsmap : Option Nsmap) (hn : Plain n) (hs : GoodNs ns) (hx : xmlName n = true) :
    ∃ d x, (createDocument xmlName m id ns (some n) nsmap).1 = .ok d ∧ d.root = some x ∧ d.id = id ∧
      x.ns = ns ∧ x.localName = n ∧ x.cls = lookup m .element ns n ∧ x.owner = some d.id := by
  have h := resolve_plain namespaceMap.get? ns n hn hs
  have hl : 0 < n.length := List.length_pos_of_ne_nil hn.1
  refine ⟨⟨id, contentType ns, true, some ⟨ns, n, fillNsmap nsmap, lookup m .element ns n, some id⟩⟩, _, ?_, rfl, rfl, rfl, rfl, rfl, rfl⟩
  simp [createDocument, hl, docCreateElementNs, createElementNs, h, mk, hx]

/-- **C134** (failure).  A document is not made when its root cannot be: the error is that of the
element. -/
theorem document_fails (xmlName : Str → Bool) (m : Dict Str Cls) (id : Nat) (ns : Option Str) (n : Str)
    (nsmap : Option Nsmap) (hn : n ≠ []) (e : PyErr) (he : (createElementNs xmlName m ns n nsmap).1 = .error e) :
    (createDocument xmlName m id ns (some n) nsmap).1 = .error e := by
  have hl : 0 < n.length := List.length_pos_of_ne_nil hn
  have : ∃ a, createElementNs xmlName m ns n nsmap = (.error e, a) := ⟨_, Prod.ext he rfl⟩
  obtain ⟨a, ha⟩ := this
  simp [createDocument, hl, docCreateElementNs, ha]

/-- **C134** (SVG documents).  A new SVG document is an `image/svg+xml` document whose root is the `svg`
element of SVG, an `SVGSVGElement`. -/
theorem svg_document (xmlName : Str → Bool) (id : Nat) (nsmap : Option Nsmap) (hx : xmlName "svg".toList = true) :
    ∃ d x, (createSvgDocument xmlName classMap id nsmap).1 = .ok d ∧ d.root = some x ∧
      d.contentType = "image/svg+xml".toList ∧ x.ns = some svgUri ∧
      x.localName = "svg".toList ∧ x.cls = some (.svg "SVG".toList) ∧ x.owner = some d.id := by
  obtain ⟨d, x, h1, h2, h3, h4, h5, h6, h7⟩ := document_root xmlName classMap id (some svgNs) "svg".toList nsmap
    (by unfold Plain; decide +kernel) (by intro u hu; cases hu; decide +kernel) hx
  refine ⟨d, x, h1, h2, (document_type _ _ _ _ _ _ d h1).1 rfl, h4, h5, ?_, h7⟩
  rw [h6]
  decide +kernel

/-- **C134** (violated).  The content type is that of the namespace argument, not that of the root: a
root named `{http://www.w3.org/2000/svg}svg` without namespace argument gives an SVG root in an
`application/xml` document. -/
theorem document_type_violated (id : Nat) :
    ∃ d x, (createDocument (fun _ => true) classMap id none
        (some "{http://www.w3.org/2000/svg}svg".toList) none).1 = .ok d ∧
      d.root = some x ∧ x.ns = some svgUri ∧
      x.cls = some (.svg "SVG".toList) ∧ d.contentType = "application/xml".toList := by
  refine ⟨⟨id, "application/xml".toList, true, some ⟨some svgNs, "svg".toList, [(none, svgNs)],
    some (.svg "SVG".toList), some id⟩⟩, _, ?_, rfl, rfl, rfl, rfl⟩
  have h : createElementNs (fun _ => true) classMap none "{http://www.w3.org/2000/svg}svg".toList none =
    (.ok ⟨some svgNs, "svg".toList, [(none, svgNs)], some (.svg "SVG".toList), none⟩, none) := by
    rfl
  have hc : contentType none = "application/xml".toList := rfl
  have hl : 0 < "{http://www.w3.org/2000/svg}svg".toList.length := by decide +kernel
  simp only [createDocument, hl, if_true, docCreateElementNs, h, hc]
  simp

/-- **C134** (no implementation).  A document without a DOM implementation makes no elements. -/
theorem document_no_implementation (xmlName : Str → Bool) (m : Dict Str Cls) (d : Doc) (ns : Option Str)
    (n : Str) (nsmap : Option Nsmap) (h : d.hasImpl = false) :
    docCreateElementNs xmlName m d ns n nsmap = (.error .valueError, nsmap) := by
  simp [docCreateElementNs, h]

end SvgPy.Factory
