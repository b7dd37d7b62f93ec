import Verif.Model.Navigation
import Verif.Props.UrlHref

/-! Properties C117 (navigation) and C118 (origins). -/

set_option linter.unusedSimpArgs false
set_option linter.unusedVariables false

namespace SvgPy.Navigation

open SvgPy.Url

/-! ### Specification: navigation -/

/-- What can be done to a location: assigning to one of its fields, assigning an address to the
`location` of the document, and reloading. -/
inductive Act
  | field (f : Field) (text : Str)
  | go (src : Str)
  | reload

/-- One action. -/
def step {D : Type} (lib : Lib) (load : Str → Py D) (cwd : Str) (w : Page D) : Act → Out D
  | .field f s => change lib load (setter lib f s) w
  | .go src => setLocation lib load cwd src w
  | .reload => navigate lib load w

/-- Actions one after the other; errors are caught. -/
def run {D : Type} (lib : Lib) (load : Str → Py D) (cwd : Str) (w : Page D) : List Act → Page D
  | [] => w
  | a :: as => run lib load cwd (step lib load cwd w a).1 as

/-- The document is the one at the address of the location; there is none at addresses `about:…`. -/
def Shows {D : Type} (lib : Lib) (load : Str → Py D) (w : Page D) : Prop :=
  if w.url.protocol = "about:".toList then w.root = none else ∃ d, w.root = some d ∧ load (href lib w.url) = .ok d

/-- The field of the address is replaced as the URL does it, and no other part of the address: for host and
host name, host name and port are one. -/
def Assigned (lib : Lib) (old : URL) : Field → Str → URL → Prop
  | .hash, s, u => setHash lib old s = (u, none) ∧ ∃ h, u = { old with hash := h }
  | .host, s, u => setHost lib old s = (u, none) ∧ ∃ n h p, u = { old with hostname := n, host := h, port := p }
  | .hostname, s, u => setHostname lib old s = (u, none) ∧ ∃ n h p, u = { old with hostname := n, host := h, port := p }
  | .href, s, u => setHref lib blank s = (u, none)
  | .pathname, s, u => setPathname lib old s = (u, none) ∧ ∃ p, u = { old with pathname := p }
  | .port, s, u => setPort old s = (u, none) ∧ ∃ h, u = { old with host := h, port := s }
  | .protocol, s, u => setProtocol lib old s = (u, none) ∧ ∃ p, u = { old with protocol := p }
  | .search, s, u => setSearch old s = (u, none) ∧ ∃ d, u = { old with params := d }

/-- The location that an action asks for: a field of the old one is replaced; the text is an address,
relative to the old one or to the working directory if the old one is `about:…`; the old one. -/
inductive Asked (lib : Lib) (cwd : Str) (old : URL) : Act → URL → Prop
  | field (f : Field) (s : Str) (u : URL) (h : Assigned lib old f s u) : Asked lib cwd old (.field f s) u
  | absolute (src : Str) (v u : URL) (h : "about:".toList <+: href lib old → constructStr lib src cwd = .ok v)
      (h' : ¬ "about:".toList <+: href lib old → constructStr lib src (href lib old) = .ok v)
      (h'' : setHref lib blank (href lib v) = (u, none)) : Asked lib cwd old (.go src) u
  | reload : Asked lib cwd old .reload old

/-- Two locations are the same but for a host that has not been brought up to date. -/
def SameAddress (lib : Lib) (u v : URL) : Prop :=
  href lib u = href lib v ∧ u.protocol = v.protocol ∧ u.hostname = v.hostname ∧ u.port = v.port ∧ u.pathname = v.pathname ∧
    getSearch lib u = getSearch lib v ∧ getHash u = getHash v

/-! ### Lemmas -/

theorem readHost_frame (u : URL) : ∃ h, readHost u = { u with host := h } := by
  unfold readHost
  split
  · exact ⟨_, rfl⟩
  · exact ⟨u.host, rfl⟩

theorem readHost_readHost (u : URL) : readHost (readHost u) = readHost u := by
  unfold readHost
  by_cases h : u.port.length > 0 ∧ defaultPort u.protocol = u.port
  · rw [if_pos h, if_pos h]
  · rw [if_neg h, if_neg h]

theorem href_readHost (lib : Lib) (u : URL) : href lib (readHost u) = href lib u := by
  have h := readHost_readHost u
  obtain ⟨x, hx⟩ := readHost_frame u
  unfold href
  rw [h]
  rw [hx]
  rfl

theorem protocol_readHost (u : URL) : (readHost u).protocol = u.protocol := by
  obtain ⟨x, hx⟩ := readHost_frame u
  rw [hx]

theorem same_readHost (lib : Lib) (u : URL) : SameAddress lib (readHost u) u := by
  refine ⟨href_readHost lib u, ?_⟩
  obtain ⟨x, hx⟩ := readHost_frame u
  rw [hx]
  exact ⟨rfl, rfl, rfl, rfl, rfl, rfl⟩

theorem setPort_frame (u : URL) (p : Str) (h : (setPort u p).2 = none) : ∃ x, (setPort u p).1 = { u with host := x, port := p } := by
  unfold setPort at h ⊢
  split
  · rename_i h0
    exact ⟨u.hostname, by rw [h0]⟩
  · rename_i h0
    rw [if_neg h0] at h
    split
    · rename_i h1
      rw [if_pos h1] at h
      cases h
    · exact ⟨_, rfl⟩

theorem setPort_frame' (u : URL) (p : Str) : ∃ x q, (setPort u p).1 = { u with host := x, port := q } := by
  by_cases h : (setPort u p).2 = none
  · obtain ⟨x, hx⟩ := setPort_frame u p h
    exact ⟨x, p, hx⟩
  · rcases setPort_cases u p with ⟨_, e⟩ | ⟨_, e⟩
    · rw [e] at h
      exact absurd rfl h
    · rw [e]
      exact ⟨u.host, u.port, rfl⟩

theorem portState_frame (u : URL) (p : Option Str) (b : Bool) : ∃ x q, (portState u p b).1 = { u with host := x, port := q } := by
  unfold portState
  cases b <;> cases p <;> simp only
  · exact ⟨u.host, [], rfl⟩
  · exact setPort_frame' u _
  · exact setPort_frame' u _
  · split
    · exact setPort_frame' u _
    · exact ⟨u.host, u.port, rfl⟩

theorem parseHost_frame (lib : Lib) (u : URL) (s : Str) (b : Bool) :
    ∃ n h p, (parseHost lib u s b).1 = { u with hostname := n, host := h, port := p } := by
  unfold parseHost
  split
  · cases b <;> exact ⟨_, _, _, rfl⟩
  · split
    · exact ⟨u.hostname, u.host, u.port, rfl⟩
    · split
      · exact ⟨u.hostname, u.host, u.port, rfl⟩
      · split
        · exact ⟨u.hostname, u.host, u.port, rfl⟩
        · rename_i n p _
          obtain ⟨x, q, hx⟩ := portState_frame { u with host := n, hostname := n } p b
          rw [hx]
          exact ⟨_, _, _, rfl⟩

theorem setter_assigned (lib : Lib) (old u : URL) (f : Field) (s : Str) (h : setter lib f s old = (u, none)) : Assigned lib old f s u := by
  cases f with
  | hash => exact ⟨h, _, (congrArg Prod.fst h).symm⟩
  | host =>
    obtain ⟨n, x, p, e⟩ := parseHost_frame lib old s false
    exact ⟨h, n, x, p, by rw [← e]; exact (congrArg Prod.fst h).symm⟩
  | hostname =>
    obtain ⟨n, x, p, e⟩ := parseHost_frame lib old s true
    exact ⟨h, n, x, p, by rw [← e]; exact (congrArg Prod.fst h).symm⟩
  | href =>
    show setHref lib blank s = (u, none)
    have h' : setHref lib old s = (u, none) := h
    rw [← href_fresh lib old s (by rw [h']), h']
  | pathname =>
    refine ⟨h, ?_⟩
    have h' : setPathname lib old s = (u, none) := h
    unfold setPathname at h'
    split at h'
    · exact ⟨_, (congrArg Prod.fst h').symm⟩
    · split at h'
      · cases h'
      · exact ⟨_, (congrArg Prod.fst h').symm⟩
  | port =>
    have h' : setPort old s = (u, none) := h
    obtain ⟨x, e⟩ := setPort_frame old s (by rw [h'])
    exact ⟨h, x, by rw [← e, h']⟩
  | protocol =>
    obtain ⟨q, e⟩ := protocol_frame lib old s
    exact ⟨h, q, by rw [← e]; exact (congrArg Prod.fst h).symm⟩
  | search => exact ⟨h, _, (congrArg Prod.fst h).symm⟩

variable {D : Type}

theorem docNavigate_ok (lib : Lib) (load : Str → Py D) (w : Page D) (h : (docNavigate lib load w).2 = none) :
    Shows lib load (docNavigate lib load w).1 ∧ (docNavigate lib load w).1.url = readHost w.url := by
  unfold docNavigate at h ⊢
  unfold Shows
  by_cases ha : (readHost w.url).protocol = "about:".toList
  · simp only [ha, if_true]
    exact ⟨trivial, trivial⟩
  · simp only [ha, if_false] at h ⊢
    cases hl : load (href lib (readHost w.url)) with
    | error e => rw [hl] at h; cases h
    | ok d =>
      simp only [ha, if_false]
      exact ⟨⟨d, rfl, hl⟩, trivial⟩

theorem navigate_ok (lib : Lib) (load : Str → Py D) (w : Page D) (h : (navigate lib load w).2 = none) :
    Shows lib load (navigate lib load w).1 ∧ (navigate lib load w).1.url = readHost w.url ∧ permitted w.url = true := by
  unfold navigate at h ⊢
  by_cases hp : permitted w.url = true
  · simp only [hp, if_true] at h ⊢
    exact ⟨(docNavigate_ok lib load w h).1, (docNavigate_ok lib load w h).2, trivial⟩
  · simp only [hp] at h
    cases h

theorem change_ok (lib : Lib) (load : Str → Py D) (f : URL → Res) (w : Page D) (h : (change lib load f w).2 = none) :
    ∃ u, f w.url = (u, none) ∧ Shows lib load (change lib load f w).1 ∧ (change lib load f w).1.url = readHost u ∧ permitted u = true := by
  unfold change at h ⊢
  rcases hf : f w.url with ⟨u, e⟩
  rw [hf] at h
  cases e with
  | some e => cases h
  | none => exact ⟨u, rfl, navigate_ok lib load { w with url := u } h⟩

theorem isPrefixOf_iff (a b : Str) : a.isPrefixOf b = true ↔ a <+: b := List.isPrefixOf_iff_prefix

theorem step_ok (lib : Lib) (load : Str → Py D) (cwd : Str) (w : Page D) (a : Act) (h : (step lib load cwd w a).2 = none) :
    ∃ u, Asked lib cwd w.url a u ∧ Shows lib load (step lib load cwd w a).1 ∧ (step lib load cwd w a).1.url = readHost u ∧ permitted u = true := by
  cases a with
  | field f s =>
    obtain ⟨u, h1, h2⟩ := change_ok lib load _ w h
    exact ⟨u, .field f s u (setter_assigned lib _ u f s h1), h2⟩
  | reload =>
    obtain h1 := navigate_ok lib load w h
    exact ⟨w.url, .reload, h1⟩
  | go src =>
    unfold step setLocation at h ⊢
    simp only [href_readHost] at h ⊢
    cases hc : constructStr lib src (baseOf cwd (href lib w.url)) with
    | error e => rw [hc] at h; cases h
    | ok v =>
      rw [hc] at h
      simp only at h ⊢
      obtain ⟨u, h1, h2⟩ := change_ok lib load _ { w with url := readHost w.url } h
      simp only at h1
      refine ⟨u, .absolute src v u (fun hp => ?_) (fun hp => ?_) ?_, h2⟩
      · unfold baseOf at hc
        rwa [if_pos ((isPrefixOf_iff _ _).2 hp)] at hc
      · unfold baseOf at hc
        rwa [if_neg (fun x => hp ((isPrefixOf_iff _ _).1 x))] at hc
      · rw [← href_fresh lib (readHost w.url) _ (by rw [h1]), h1]

/-! ### The theorems -/

/-- **C117** Whatever has been done before, with errors or without: after an action that raises no error,
the location is the one that the action asks for, and the document is the one at this address. -/
theorem location_shown (lib : Lib) (load : Str → Py D) (cwd : Str) (w : Page D) (as : List Act) (a : Act)
    (h : (step lib load cwd (run lib load cwd w as) a).2 = none) :
    Shows lib load (run lib load cwd w (as ++ [a])) ∧
      ∃ u, Asked lib cwd (run lib load cwd w as).url a u ∧ SameAddress lib (run lib load cwd w (as ++ [a])).url u := by
  have e : run lib load cwd w (as ++ [a]) = (step lib load cwd (run lib load cwd w as) a).1 := by
    clear h
    induction as generalizing w with
    | nil => rfl
    | cons x xs ih => exact ih _
  rw [e]
  obtain ⟨u, h1, h2, h3, _⟩ := step_ok lib load cwd _ a h
  refine ⟨h2, u, h1, ?_⟩
  rw [h3]
  exact same_readHost lib u

/-- A load function that knows three addresses. -/
def files (a : Str) : Py Str :=
  if a = "file:///d/a.svg".toList then .ok "A".toList
  else if a = "file:///d/b.svg".toList then .ok "B".toList
  else if a = "file:///d/b.svg#x".toList then .ok "B".toList
  else .error .valueError

/-- The page of a new window: `about:blank` with an empty `svg` element, window.py 800-803. -/
def opened : Page Str := ⟨{ blank with protocol := "about:".toList, pathname := "blank".toList }, some "svg".toList⟩

/-- Instances: an address relative to the working directory, one relative to it, and a fragment. -/
example : (step plain files "file:///d".toList (run plain files "file:///d/".toList opened
      [.go "a.svg".toList, .go "nowhere.svg".toList, .go "b.svg".toList]) (.field .hash "#x".toList)).2 = none ∧
    (run plain files "file:///d/".toList opened [.go "a.svg".toList, .go "nowhere.svg".toList, .go "b.svg".toList, .field .hash "#x".toList]).root =
      some "B".toList ∧
    (run plain files "file:///d/".toList opened [.go "a.svg".toList]).root = some "A".toList := by
  decide +kernel

/-- **C117** Nothing of the document before is kept, and whether the action succeeds does not depend on it. -/
theorem document_replaced (lib : Lib) (load : Str → Py D) (cwd : Str) (u : URL) (r r' : Option D) (a : Act) :
    (step lib load cwd ⟨u, r⟩ a).2 = (step lib load cwd ⟨u, r'⟩ a).2 ∧
      (step lib load cwd ⟨u, r⟩ a).1.url = (step lib load cwd ⟨u, r'⟩ a).1.url ∧
      ((step lib load cwd ⟨u, r⟩ a).2 = none → (step lib load cwd ⟨u, r⟩ a).1 = (step lib load cwd ⟨u, r'⟩ a).1) := by
  have hn : ∀ v : URL, (navigate lib load ⟨v, r⟩).2 = (navigate lib load ⟨v, r'⟩).2 ∧
      (navigate lib load ⟨v, r⟩).1.url = (navigate lib load ⟨v, r'⟩).1.url ∧
      ((navigate lib load ⟨v, r⟩).2 = none → (navigate lib load ⟨v, r⟩).1 = (navigate lib load ⟨v, r'⟩).1) := by
    intro v
    unfold navigate
    by_cases hp : permitted v = true
    · simp only [hp, if_true]
      exact ⟨rfl, rfl, fun _ => rfl⟩
    · simp only [hp]
      exact ⟨rfl, rfl, fun h => by cases h⟩
  have hc : ∀ (f : URL → Res) (v : URL), (change lib load f ⟨v, r⟩).2 = (change lib load f ⟨v, r'⟩).2 ∧
      (change lib load f ⟨v, r⟩).1.url = (change lib load f ⟨v, r'⟩).1.url ∧
      ((change lib load f ⟨v, r⟩).2 = none → (change lib load f ⟨v, r⟩).1 = (change lib load f ⟨v, r'⟩).1) := by
    intro f v
    unfold change
    rcases hf : f v with ⟨x, e⟩
    simp only [hf]
    cases e with
    | some e => exact ⟨rfl, rfl, fun h => by cases h⟩
    | none => exact hn x
  cases a with
  | field f s => exact hc _ u
  | reload => exact hn u
  | go src =>
    unfold step setLocation
    simp only
    cases constructStr lib src (baseOf cwd (href lib (readHost u))) with
    | error e => exact ⟨rfl, rfl, fun h => by cases h⟩
    | ok v => exact hc _ _

/-- **C117** An address that is refused leaves the document alone: texts that are no value of the field,
addresses that cannot be resolved, and addresses of schemes that hold no document. -/
theorem refused_keeps (lib : Lib) (load : Str → Py D) (cwd : Str) (w : Page D) (a : Act)
    (h : ∀ u, Asked lib cwd w.url a u → u.protocol = "data:".toList ∨ u.protocol = "blob:".toList ∨
      (u.protocol = [] ∧ (readHost u).host = []) ∨ (u.protocol = "about:".toList ∧ (u.pathname = [] ∨ u.pathname = "/".toList))) :
    (∃ e, (step lib load cwd w a).2 = some e) ∧ (step lib load cwd w a).1.root = w.root := by
  have hp : ∀ u, (u.protocol = "data:".toList ∨ u.protocol = "blob:".toList ∨ (u.protocol = [] ∧ (readHost u).host = []) ∨
      (u.protocol = "about:".toList ∧ (u.pathname = [] ∨ u.pathname = "/".toList))) → permitted u = false := by
    intro u hu
    unfold permitted
    rcases hu with hu | hu | ⟨hu, hh⟩ | ⟨hu, hh⟩
    · rw [hu]; simp
    · rw [hu]; simp
    · rw [hu, hh]; simp
    · have : getPathname u = [] := by
        unfold getPathname
        rw [hu]
        rcases hh with hh | hh <;> rw [hh] <;> decide
      rw [this, hu]; simp
  have hn : ∀ (v : URL), permitted v = false → (∃ e, (navigate lib load ⟨v, w.root⟩).2 = some e) ∧ (navigate lib load ⟨v, w.root⟩).1.root = w.root := by
    intro v hv
    unfold navigate
    simp only [hv]
    exact ⟨⟨_, rfl⟩, rfl⟩
  cases a with
  | field f s =>
    unfold step change
    rcases hf : setter lib f s w.url with ⟨u, e⟩
    simp only [hf]
    cases e with
    | some e => exact ⟨⟨e, rfl⟩, rfl⟩
    | none => exact hn u (hp u (h u (.field f s u (setter_assigned lib _ u f s hf))))
  | reload => exact hn w.url (hp _ (h _ .reload))
  | go src =>
    unfold step setLocation
    simp only [href_readHost]
    cases hc : constructStr lib src (baseOf cwd (href lib w.url)) with
    | error e => exact ⟨⟨e, rfl⟩, rfl⟩
    | ok v =>
      simp only
      unfold change
      rcases hf : setHref lib (readHost w.url) (href lib v) with ⟨u, e⟩
      simp only [hf]
      cases e with
      | some e => exact ⟨⟨e, rfl⟩, rfl⟩
      | none =>
        refine hn u (hp u (h u (.absolute src v u (fun hp => ?_) (fun hp => ?_) ?_)))
        · unfold baseOf at hc
          rwa [if_pos ((isPrefixOf_iff _ _).2 hp)] at hc
        · unfold baseOf at hc
          rwa [if_neg (fun x => hp ((isPrefixOf_iff _ _).1 x))] at hc
        · rw [← href_fresh lib (readHost w.url) _ (by rw [hf]), hf]

/-- Instances: a port that is none, and a data address. -/
example : (step plain files "file:///d/".toList (run plain files "file:///d/".toList opened [.go "a.svg".toList])
      (.field .port "x".toList)).1.root = some "A".toList ∧
    (step plain files "file:///d/".toList (run plain files "file:///d/".toList opened [.go "a.svg".toList])
      (.go "data:,x".toList)).1.root = some "A".toList := by
  decide +kernel

/-- **C117** An action that raises an error leaves the document alone or removes it; it never shows another
one. -/
theorem error_leaves (lib : Lib) (load : Str → Py D) (cwd : Str) (w : Page D) (a : Act) (e : PyErr)
    (h : (step lib load cwd w a).2 = some e) :
    (step lib load cwd w a).1.root = w.root ∨
      ((step lib load cwd w a).1.root = none ∧ load (href lib (step lib load cwd w a).1.url) = .error e) := by
  have hn : ∀ (v : URL), (navigate lib load ⟨v, w.root⟩).2 = some e → (navigate lib load ⟨v, w.root⟩).1.root = w.root ∨
      ((navigate lib load ⟨v, w.root⟩).1.root = none ∧ load (href lib (navigate lib load ⟨v, w.root⟩).1.url) = .error e) := by
    intro v hv
    unfold navigate at hv ⊢
    by_cases hp : permitted v = true
    · simp only [hp, if_true] at hv ⊢
      unfold docNavigate at hv ⊢
      by_cases ha : (readHost v).protocol = "about:".toList
      · simp only [ha, if_true] at hv
        cases hv
      · simp only [ha, if_false] at hv ⊢
        cases hl : load (href lib (readHost v)) with
        | ok d => rw [hl] at hv; cases hv
        | error e' =>
          rw [hl] at hv
          cases hv
          exact .inr ⟨rfl, hl⟩
    · simp only [hp]
      exact .inl rfl
  have hc : ∀ (f : URL → Res) (v : URL), (change lib load f ⟨v, w.root⟩).2 = some e → (change lib load f ⟨v, w.root⟩).1.root = w.root ∨
      ((change lib load f ⟨v, w.root⟩).1.root = none ∧ load (href lib (change lib load f ⟨v, w.root⟩).1.url) = .error e) := by
    intro f v hv
    unfold change at hv ⊢
    rcases hf : f v with ⟨x, e'⟩
    simp only [hf] at hv ⊢
    cases e' with
    | some e' => exact .inl rfl
    | none => exact hn x hv
  cases a with
  | field f s => exact hc _ w.url h
  | reload => exact hn w.url h
  | go src =>
    unfold step setLocation at h ⊢
    simp only at h ⊢
    cases hs : constructStr lib src (baseOf cwd (href lib (readHost w.url))) with
    | error e' => exact .inl rfl
    | ok v =>
      rw [hs] at h
      exact hc _ _ h

/-- An instance of an error in loading. -/
example : (step plain files "file:///d/".toList (run plain files "file:///d/".toList opened [.go "a.svg".toList]) (.go "c.svg".toList)).2 =
    some .valueError := by decide +kernel

/-- **C117** is violated for errors: if the document at the new address cannot be loaded, the old document is
lost and the location is the new one although nothing has been loaded from there. -/
theorem failed_load_violated (lib : Lib) (load : Str → Py D) (r : Option D) (u : URL) (e : PyErr) (hp : permitted u = true)
    (ha : u.protocol ≠ "about:".toList) (h : load (href lib u) = .error e) :
    navigate lib load ⟨u, r⟩ = (⟨readHost u, none⟩, some e) := by
  unfold navigate docNavigate
  simp only [hp, if_true, protocol_readHost, href_readHost, ha, if_false, h]

/-- Such an address. -/
example : ∃ u, constructStr plain "c.svg".toList "file:///d/".toList = .ok u ∧ permitted u = true ∧ u.protocol ≠ "about:".toList ∧
    files (href plain u) = .error .valueError :=
  ⟨_, rfl, by decide +kernel, by decide +kernel, by decide +kernel⟩

/-- **C117** is violated for refused addresses: the location is the refused one, and the document that of the
old one; the refused address then is the base of the next one. -/
theorem refused_violated :
    href plain (run plain files "file:///d/".toList opened [.go "a.svg".toList, .go "data:,x".toList]).url = "data:,x".toList ∧
      (run plain files "file:///d/".toList opened [.go "a.svg".toList, .go "data:,x".toList]).root = some "A".toList ∧
      (step plain files "file:///d/".toList (run plain files "file:///d/".toList opened [.go "a.svg".toList, .go "data:,x".toList])
        (.go "b.svg".toList)).2 = some .valueError := by
  decide +kernel

/-- **C117** is violated for fragments: going to a place in the document loads it again, so that what a script
has changed in it is lost, whatever it was. -/
theorem fragment_violated (edited : Str) :
    (step plain files "file:///d/".toList { run plain files "file:///d/".toList opened [.go "b.svg".toList] with root := some edited }
      (.field .hash "#x".toList)).1.root = some "B".toList := by
  have h := (document_replaced plain files "file:///d/".toList (run plain files "file:///d/".toList opened [.go "b.svg".toList]).url
    (some edited) (some "B".toList) (.field .hash "#x".toList)).2.2
  have h2 := (document_replaced plain files "file:///d/".toList (run plain files "file:///d/".toList opened [.go "b.svg".toList]).url
    (some edited) (some "B".toList) (.field .hash "#x".toList)).1
  have h3 : (step plain files "file:///d/".toList ⟨(run plain files "file:///d/".toList opened [.go "b.svg".toList]).url, some "B".toList⟩
    (.field .hash "#x".toList)).2 = none := by decide +kernel
  rw [h (h2.trans h3)]
  decide +kernel

/-- **C117** is violated for `about:blank`: a new window has a document there, reloading it leaves none. -/
theorem blank_violated (load : Str → Py Str) (cwd : Str) :
    opened.root ≠ none ∧ (step plain load cwd opened .reload).2 = none ∧ (step plain load cwd opened .reload).1.root = none :=
  ⟨by decide, rfl, rfl⟩

/-! ### Specification: origins -/

/-- The schemes whose addresses have an origin. -/
def Network (protocol : Str) : Prop := ∃ p, wellKnownPort protocol = some p

/-- The port that is used: the one of the scheme if none is given. -/
def portOf (protocol port : Str) : Str := if port = [] then (wellKnownPort protocol).getD [] else port

/-- A host name: without colon, or an IPv6 address in brackets. -/
def HostName (h : Str) : Prop := h ≠ [] ∧ (':' ∉ h ∨ h.getLast? = some ']')

/-! ### Lemmas -/

theorem network_special (p : Str) (h : Network p) :
    Dict.contains specialPorts p = true ∧ p ≠ [] ∧ p ≠ "blob:".toList ∧ p ≠ "file:".toList ∧ '/' ∉ p := by
  obtain ⟨q, h⟩ := h
  unfold wellKnownPort at h
  split at h
  · rename_i hp
    rcases hp with rfl | rfl <;> decide
  · split at h
    · rename_i hp
      rcases hp with rfl | rfl <;> decide
    · split at h
      · rename_i hp
        rw [hp]
        decide
      · split at h
        · rename_i hp
          rw [hp]
          decide
        · cases h

theorem digits_colon (p : Str) (h : ValidPort p) : ':' ∉ p ∧ p.getLast? ≠ some ']' := by
  rcases h with rfl | ⟨n, h, _⟩
  · simp
  · have h := ((readDigits_iff p 0 n).1 h).1
    rw [List.all_eq_true] at h
    refine ⟨fun hc => ?_, fun hc => ?_⟩
    · exact absurd (h _ hc) (by decide)
    · exact absurd (h _ (List.mem_of_getLast? hc)) (by decide)

theorem split_first {a b x y : Str} {c : Char} (ha : c ∉ a) (hb : c ∉ b) (h : a ++ c :: x = b ++ c :: y) : a = b ∧ x = y := by
  induction a generalizing b with
  | nil =>
    cases b with
    | nil => simpa using h
    | cons z b => simp at h; exact absurd h.1 (by intro e; exact hb (by simp [e]))
  | cons z a ih =>
    cases b with
    | nil => simp at h; exact absurd h.1 (by intro e; exact ha (by simp [e]))
    | cons z' b =>
      simp only [List.cons_append, List.cons.injEq] at h
      have := ih (fun h' => ha (by simp [h'])) (fun h' => hb (by simp [h'])) h.2
      exact ⟨by rw [h.1, this.1], this.2⟩

theorem split_last {a b x y : Str} {c : Char} (hx : c ∉ x) (hy : c ∉ y) (h : a ++ c :: x = b ++ c :: y) : a = b ∧ x = y := by
  have h' := congrArg List.reverse h
  simp only [List.reverse_append, List.reverse_cons, List.append_assoc, List.singleton_append] at h'
  have := split_first (a := x.reverse) (b := y.reverse) (by simpa using hx) (by simpa using hy) h'
  exact ⟨List.reverse_injective this.2, List.reverse_injective this.1⟩

/-- A host name is never a host name with a port. -/
theorem no_port (h h' p : Str) (hn : HostName h) (hp : ValidPort p) (hp0 : p ≠ []) (e : h = h' ++ ":".toList ++ p) : False := by
  rcases hn.2 with hc | hc
  · exact hc (by rw [e]; simp)
  · refine (digits_colon p hp).2 ?_
    rw [e, List.getLast?_append_of_ne_nil _ hp0] at hc
    exact hc

theorem hostSpec_inj (q h h' p p' : Str) (hq : Network q) (hn : HostName h) (hn' : HostName h') (hp : ValidPort p) (hp' : ValidPort p') :
    hostSpec q h p = hostSpec q h' p' ↔ h = h' ∧ portOf q p = portOf q p' := by
  obtain ⟨d, hd⟩ := hq
  have short : ∀ p, (p = [] ∨ wellKnownPort q = some p) ↔ portOf q p = d := by
    intro p
    unfold portOf
    rw [hd]
    by_cases h0 : p = []
    · simp [h0]
    · simp [h0, eq_comm]
  have e1 : hostSpec q h p = if portOf q p = d then h else h ++ ":".toList ++ p := by
    unfold hostSpec
    simp only [hn.1, false_or, short]
  have e2 : hostSpec q h' p' = if portOf q p' = d then h' else h' ++ ":".toList ++ p' := by
    unfold hostSpec
    simp only [hn'.1, false_or, short]
  have long : ∀ p, portOf q p ≠ d → p ≠ [] ∧ portOf q p = p := by
    intro p hp
    have : p ≠ [] := fun h0 => hp ((short p).1 (.inl h0))
    exact ⟨this, by unfold portOf; rw [if_neg this]⟩
  rw [e1, e2]
  by_cases c1 : portOf q p = d <;> by_cases c2 : portOf q p' = d
  · simp [c1, c2]
  · rw [if_pos c1, if_neg c2]
    refine ⟨fun e => (no_port h h' p' hn hp' (long _ c2).1 e).elim, fun e => absurd (e.2.symm.trans c1) c2⟩
  · rw [if_neg c1, if_pos c2]
    refine ⟨fun e => (no_port h' h p hn' hp (long _ c1).1 e.symm).elim, fun e => absurd (e.2.trans c2) c1⟩
  · rw [if_neg c1, if_neg c2, (long _ c1).2, (long _ c2).2]
    constructor
    · intro e
      have e : h ++ ':' :: p = h' ++ ':' :: p' := by simpa using e
      exact split_last (digits_colon p hp).1 (digits_colon p' hp').1 e
    · rintro ⟨rfl, rfl⟩
      rfl

theorem origin_network (lib : Lib) (n : Nat) (u : URL) (hc : Consistent u) (hu : Network u.protocol) (hn : u.hostname ≠ []) :
    origin lib n u = .ok (u.protocol ++ "//".toList ++ hostSpec u.protocol u.hostname u.port) := by
  obtain ⟨h1, h2, h3, h4, _⟩ := network_special _ hu
  have hh : u.host.length > 0 := by
    rw [hc.1]
    unfold hostSpec
    have : 0 < u.hostname.length := List.length_pos_iff.2 hn
    split
    · exact this
    · simp
  have hp : u.protocol.length > 0 := List.length_pos_iff.2 h2
  unfold origin
  simp only [readHost_consistent u hc, h3, h4, if_false, h1, hh, hp, and_self, if_true]
  rw [hc.1]

/-! ### The theorems -/

/-- **C118** The origin of a network address: scheme, host name, and the port unless this is the one of the
scheme.  Path, query, fragment, user and password are not in it. -/
theorem origin_text (lib : Lib) (n : Nat) (u : URL) (hc : Consistent u) (hu : Network u.protocol) (hn : u.hostname ≠ []) :
    origin lib n u = .ok (u.protocol ++ "//".toList ++
      (if portOf u.protocol u.port = portOf u.protocol [] then u.hostname else u.hostname ++ ":".toList ++ u.port)) := by
  rw [origin_network lib n u hc hu hn]
  obtain ⟨d, hd⟩ := hu
  unfold hostSpec portOf
  simp only [hn, false_or, hd, if_true, Option.getD_some, Option.some.injEq]
  by_cases h0 : u.port = []
  · simp [h0]
  · by_cases h1 : d = u.port
    · simp [h0, h1]
    · simp [h0, h1, Ne.symm h1]

/-- **C118** Two network addresses have the same origin exactly if scheme, host name and used port are the
same. -/
theorem same_origin (lib : Lib) (n : Nat) (u v : URL) (hu : Consistent u) (hv : Consistent v) (nu : Network u.protocol)
    (nv : Network v.protocol) (hu' : HostName u.hostname) (hv' : HostName v.hostname) :
    origin lib n u = origin lib n v ↔
      u.protocol = v.protocol ∧ u.hostname = v.hostname ∧ portOf u.protocol u.port = portOf v.protocol v.port := by
  rw [origin_network lib n u hu nu hu'.1, origin_network lib n v hv nv hv'.1]
  constructor
  · intro h
    have h : u.protocol ++ '/' :: ('/' :: hostSpec u.protocol u.hostname u.port) =
        v.protocol ++ '/' :: ('/' :: hostSpec v.protocol v.hostname v.port) := by simpa using h
    obtain ⟨h1, h2⟩ := split_first (network_special _ nu).2.2.2.2 (network_special _ nv).2.2.2.2 h
    simp only [List.cons.injEq, true_and] at h2
    rw [← h1] at h2 ⊢
    exact ⟨rfl, (hostSpec_inj _ _ _ _ _ nu hu' hv' hu.2 hv.2).1 h2⟩
  · rintro ⟨h1, h2, h3⟩
    rw [← h1] at h3 ⊢
    rw [(hostSpec_inj _ _ _ _ _ nu hu' hv' hu.2 hv.2).2 ⟨h2, h3⟩]

/-- Instances: the port of the scheme given or not, another port, and an IPv6 address. -/
example : Consistent (sample "https:" "h" "h" "443") ∧ Consistent (sample "https:" "h" "h" "") ∧ Consistent (sample "https:" "[::1]" "[::1]:80" "80") ∧
    Network "https:".toList ∧ HostName "h".toList ∧ HostName "[::1]".toList ∧
    origin plain 0 (sample "https:" "h" "h" "443") = origin plain 0 (sample "https:" "h" "h" "") ∧
    origin plain 0 (sample "https:" "[::1]" "[::1]:80" "80") = .ok "https://[::1]:80".toList :=
  ⟨⟨by decide, .inr ⟨443, by decide, by decide⟩⟩, ⟨by decide, .inl rfl⟩, ⟨by decide, .inr ⟨80, by decide, by decide⟩⟩, ⟨_, rfl⟩,
    ⟨by decide, .inl (by decide)⟩, ⟨by decide, .inr (by decide)⟩, by decide +kernel, by decide +kernel⟩

/-- **C118** Other addresses but those of blobs have no origin, which is written `null`. -/
theorem opaque_origin (lib : Lib) (n : Nat) (u : URL) (hb : u.protocol ≠ "blob:".toList) (hc : Consistent u)
    (h : ¬ Network u.protocol ∨ u.hostname = []) : origin lib n u = .ok "null".toList := by
  have hh : ¬ (u.protocol.length > 0 ∧ Dict.contains specialPorts u.protocol = true ∧ u.host.length > 0 ∧ u.protocol ≠ "file:".toList) := by
    rintro ⟨h1, h2, h3, h4⟩
    rcases h with h | h
    · refine h ?_
      by_contra hn
      have : ∀ p ∈ specialPorts.map Prod.fst, p ≠ "file:".toList → ∃ q, wellKnownPort p = some q := by
        intro p hp hf
        simp only [specialPorts, List.map_cons, List.map_nil, List.mem_cons, List.not_mem_nil, or_false] at hp
        rcases hp with rfl | rfl | rfl | rfl | rfl | rfl | rfl
        all_goals first | exact ⟨_, rfl⟩ | exact absurd rfl hf
      exact hn (this _ ((Dict.contains_iff _ _).1 h2) h4)
    · rw [hc.1, h] at h3
      simp [hostSpec] at h3
  unfold origin
  simp only [readHost_consistent u hc, hb, if_false]
  by_cases hf : u.protocol = "file:".toList
  · simp only [hf, if_true]
  · simp only [hf, if_false]
    rw [if_neg (fun ⟨a, b, c⟩ => hh ⟨a, b, c, hf⟩)]

/-- Instances: a data address and a file. -/
example : origin plain 0 (sample "data:" "" "" "") = .ok "null".toList ∧ origin plain 0 (sample "file:" "h" "h" "") = .ok "null".toList ∧
    Consistent (sample "file:" "h" "h" "") ∧ ¬ Network "file:".toList :=
  ⟨rfl, rfl, ⟨by decide, .inl rfl⟩, fun ⟨_, h⟩ => by cases h⟩

/-- **C118** A blob has the origin of the address in its path, or none if this is no address. -/
theorem blob_origin (lib : Lib) (n : Nat) (u : URL) (hb : u.protocol = "blob:".toList) :
    (∀ v, (construct lib (getPathname u) none).1 = .ok v → origin lib (n + 1) u = origin lib n v) ∧
      ((construct lib (getPathname u) none).1 = .error .valueError → origin lib (n + 1) u = .ok "null".toList) := by
  obtain ⟨x, hx⟩ := readHost_frame u
  have hg : getPathname (readHost u) = getPathname u := by rw [hx]; rfl
  constructor
  · intro v hv
    rw [origin.eq_def]
    simp only [protocol_readHost, hb, if_true, hg, hv]
  · intro hv
    rw [origin.eq_def]
    simp only [protocol_readHost, hb, if_true, hg, hv]

/-- Instances: a blob, and a blob of a blob. -/
example : origin plain 1 { blank with protocol := "blob:".toList, pathname := "https://h:1/x".toList } = .ok "https://h:1".toList ∧
    origin plain 2 { blank with protocol := "blob:".toList, pathname := "blob:https://h:1/x".toList } = .ok "https://h:1".toList ∧
    origin plain 1 { blank with protocol := "blob:".toList, pathname := "x".toList } = .ok "null".toList := by
  decide +kernel

/-- **C118** is violated for ports with leading zeros, which only the setter leaves: the port is the same
number, the origin another one. -/
theorem leading_zero_violated : ∃ u v, setPort (sample "http:" "h" "h" "") "080".toList = (u, none) ∧ setPort (sample "http:" "h" "h" "") "80".toList = (v, none) ∧
    Formatter.readDigits 0 u.port = Formatter.readDigits 0 v.port ∧ origin plain 0 u = .ok "http://h:080".toList ∧ origin plain 0 v = .ok "http://h".toList :=
  ⟨_, _, rfl, rfl, by decide, by decide +kernel, by decide +kernel⟩

end SvgPy.Navigation
