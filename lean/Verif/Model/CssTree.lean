import Verif.Model.Py

/-!
The tree of CSS rules: `CSSParser.parse_rules`, `fromstring` and `parse`, the constructors of `CSSRule`,
`CSSGroupingRule`, `CSSMediaRule` and `CSSImportRule`, `insert_rule` and `delete_rule`,
`/repo/svgpy/css/__init__.py` 662-767, 1119-1220, 1626-1819, and the places where sheets are made,
`/repo/svgpy/style.py` 191-219 and 270-274.

Simplifications: the text is what tinycss2 has made of it, the selectors, declarations and media
queries in it are left out. Rules and sheets are objects in a store, known by their number; a web
gives the text behind each address, an address that cannot be loaded has empty text (`URLError` is
caught, css/__init__.py 1768-1770).
-/

namespace SvgPy.CssTree

/-- The kinds of rules without rules inside. -/
inductive Leaf
  | style
  | fontFace
  | fontFeatureValues
  | namespaceRule
  deriving DecidableEq

/-- The type of a rule object. -/
inductive Kind
  | leaf (k : Leaf)
  | media
  | importRule
  deriving DecidableEq

/-- A list of rules as read by tinycss2. `skipped` are at-rules with another keyword and errors. An
`@import` rule has an address or none. -/
inductive Text
  | nil
  | leaf (k : Leaf) (next : Text)
  | media (content next : Text)
  | importRule (url : Option Nat) (next : Text)
  | skipped (next : Text)
  deriving DecidableEq

/-- A rule object: its type, `parent_style_sheet`, `parent_rule`, `css_rules` of a `@media` rule and
`style_sheet` of an `@import` rule. -/
structure Rule where
  kind : Kind
  parentSheet : Option Nat
  parentRule : Option Nat
  children : List Nat
  sheet : Option Nat
  deriving DecidableEq

/-- A style sheet object: `owner_rule` and `css_rules`. -/
structure Sheet where
  owner : Option Nat
  rules : List Nat
  deriving DecidableEq

/-- The objects made so far: `nr` rules and `ns` sheets. -/
structure Heap where
  nr : Nat
  rule : Nat → Rule
  ns : Nat
  sheet : Nat → Sheet

/-- A new rule object, css/__init__.py 677-693. -/
def Heap.newRule (h : Heap) (k : Kind) (ps pr : Option Nat) : Heap :=
  { h with nr := h.nr + 1, rule := fun i => if i = h.nr then ⟨k, ps, pr, [], none⟩ else h.rule i }

/-- A new `CSSStyleSheet`, css/__init__.py 1629-1638. -/
def Heap.newSheet (h : Heap) (owner : Option Nat) : Heap :=
  { h with ns := h.ns + 1, sheet := fun i => if i = h.ns then ⟨owner, []⟩ else h.sheet i }

/-- Changing the list `css_rules` of a `@media` rule. -/
def Heap.setChildren (h : Heap) (x : Nat) (cs : List Nat) : Heap :=
  { h with rule := fun i => if i = x then { h.rule x with children := cs } else h.rule i }

/-- Changing the list `css_rules` of a sheet. -/
def Heap.setRules (h : Heap) (s : Nat) (cs : List Nat) : Heap :=
  { h with sheet := fun i => if i = s then { h.sheet s with rules := cs } else h.sheet i }

/-- `self._style_sheet = …`. -/
def Heap.setSheet (h : Heap) (x s : Nat) : Heap :=
  { h with rule := fun i => if i = x then { h.rule x with sheet := some s } else h.rule i }

/-- `CSSParser.parse_rules`, css/__init__.py 1773-1819, with the constructors of the rules, 1122-1177
and 1198-1220. `load u h x` is `CSSParser.parse` for the `@import` rule `x`. `none` is a recursion
without end. -/
def parseRules (load : Nat → Heap → Nat → Option (Heap × Nat)) :
    Text → Heap → Option Nat → Option Nat → Option (Heap × List Nat)
  | .nil, h, _, _ => some (h, [])
  | .skipped next, h, ps, pr => parseRules load next h ps pr
  | .leaf k next, h, ps, pr =>
    match parseRules load next (h.newRule (.leaf k) ps pr) ps pr with
    | none => none
    | some (h', ids) => some (h', h.nr :: ids)
  | .media content next, h, ps, pr =>
    match parseRules load content (h.newRule .media ps pr) ps (some h.nr) with
    | none => none
    | some (h1, cs) =>
      match parseRules load next (h1.setChildren h.nr cs) ps pr with
      | none => none
      | some (h', ids) => some (h', h.nr :: ids)
  | .importRule none next, h, ps, pr =>
    match parseRules load next
        (((h.newRule .importRule ps pr).newSheet (some h.nr)).setSheet h.nr h.ns) ps pr with
    | none => none
    | some (h', ids) => some (h', h.nr :: ids)
  | .importRule (some u) next, h, ps, pr =>
    match load u (h.newRule .importRule ps pr) h.nr with
    | none => none
    | some (h1, s) =>
      match parseRules load next (h1.setSheet h.nr s) ps pr with
      | none => none
      | some (h', ids) => some (h', h.nr :: ids)

/-- `CSSParser.parse`, css/__init__.py 1717-1771; the first number bounds the depth of the
recursion. -/
def parseUrl (web : Nat → Text) : Nat → Nat → Heap → Option Nat → Option (Heap × Nat)
  | 0, _, _, _ => none
  | k + 1, u, h, owner =>
    match parseRules (fun u h x => parseUrl web k u h (some x)) (web u) (h.newSheet owner)
        (some h.ns) owner with
    | none => none
    | some (h1, ids) => some (h1.setRules h.ns ((h1.sheet h.ns).rules ++ ids), h.ns)

/-- `CSSParser.fromstring`, css/__init__.py 1689-1714. -/
def fromString (web : Nat → Text) (k : Nat) (t : Text) (h : Heap) (ps pr : Option Nat) :
    Option (Heap × List Nat) :=
  parseRules (fun u h x => parseUrl web k u h (some x)) t h ps pr

/-- The sheet of a `style` element, style.py 212-219. -/
def styleElement (web : Nat → Text) (k : Nat) (t : Text) (h : Heap) : Option (Heap × Nat) :=
  match fromString web k t (h.newSheet none) (some h.ns) none with
  | none => none
  | some (h1, ids) => some (h1.setRules h.ns ((h1.sheet h.ns).rules ++ ids), h.ns)

/-- Where `list[index:index] = …` puts its items. -/
def slicePos (i : Int) (len : Nat) : Nat :=
  if i < 0 then (i + len).toNat else min i.toNat len

/-- `list[index:index] = new`. -/
def splice (l : List Nat) (i : Int) (new : List Nat) : List Nat :=
  l.take (slicePos i l.length) ++ new ++ l.drop (slicePos i l.length)

/-- `del list[index]`. -/
def delIndex (l : List Nat) (i : Int) : Py (List Nat) :=
  if 0 ≤ i ∧ i < l.length then .ok (l.eraseIdx i.toNat)
  else if i < 0 ∧ 0 ≤ i + l.length then .ok (l.eraseIdx (i + l.length).toNat)
  else .error .indexError

/-- `CSSStyleSheet.insert_rule`, css/__init__.py 1669-1684. -/
def sheetInsert (web : Nat → Text) (k : Nat) (t : Text) (i : Int) (s : Nat) (h : Heap) :
    Option (Heap × Int) :=
  match fromString web k t h (some s) (h.sheet s).owner with
  | none => none
  | some (h1, ids) => some (h1.setRules s (splice (h1.sheet s).rules i ids), i)

/-- `CSSGroupingRule.insert_rule`, css/__init__.py 752-767. -/
def groupInsert (web : Nat → Text) (k : Nat) (t : Text) (i : Int) (x : Nat) (h : Heap) :
    Option (Heap × Int) :=
  match fromString web k t h (h.rule x).parentSheet (some x) with
  | none => none
  | some (h1, ids) => some (h1.setChildren x (splice (h1.rule x).children i ids), i)

/-- `CSSStyleSheet.delete_rule`, css/__init__.py 1660-1667. -/
def sheetDelete (i : Int) (s : Nat) (h : Heap) : Py Heap :=
  match delIndex (h.sheet s).rules i with
  | .error e => .error e
  | .ok l => .ok (h.setRules s l)

/-- `CSSGroupingRule.delete_rule`, css/__init__.py 743-750. -/
def groupDelete (i : Int) (x : Nat) (h : Heap) : Py Heap :=
  match delIndex (h.rule x).children i with
  | .error e => .error e
  | .ok l => .ok (h.setChildren x l)

/-- Nothing made yet. -/
def empty : Heap := ⟨0, fun _ => ⟨.leaf .style, none, none, [], none⟩, 0, fun _ => ⟨none, []⟩⟩

/-- What a program can do. `link` is the sheet of a `link` element or a processing instruction,
style.py 191-193 and 270-274. Only `@media` rules have the methods of grouping rules. -/
inductive Step (web : Nat → Text) (h : Heap) : Heap → Prop
  | style {k t h' s} : styleElement web k t h = some (h', s) → Step web h h'
  | link {k u h' s} : parseUrl web k u h none = some (h', s) → Step web h h'
  | sheetInsert {k t i s h' j} : s < h.ns → sheetInsert web k t i s h = some (h', j) → Step web h h'
  | groupInsert {k t i x h' j} : x < h.nr → (h.rule x).kind = .media →
      groupInsert web k t i x h = some (h', j) → Step web h h'
  | sheetDelete {i s h'} : s < h.ns → sheetDelete i s h = .ok h' → Step web h h'
  | groupDelete {i x h'} : x < h.nr → (h.rule x).kind = .media →
      groupDelete i x h = .ok h' → Step web h h'

/-- What a program can reach. -/
inductive Reach (web : Nat → Text) : Heap → Prop
  | empty : Reach web empty
  | step {h h'} : Reach web h → Step web h h' → Reach web h'

end SvgPy.CssTree
