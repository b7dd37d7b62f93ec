import Verif.Model.CssTree
import Mathlib.Data.List.Basic
import Mathlib.Tactic.NormNum

/-!
C106: the rules of a style sheet stand in the tree as they are written, know where they stand, and
`insert_rule` and `delete_rule` change one place only.
-/

set_option linter.unusedSimpArgs false

namespace SvgPy.CssTree

namespace Spec

/-- `Mirrors web h t ids`: the rule objects `ids` are the rules of the text `t`, in this order, with
the rules inside `@media` rules and behind `@import` rules. -/
inductive Mirrors (web : Nat → Text) (h : Heap) : Text → List Nat → Prop
  | nil : Mirrors web h .nil []
  | skipped {t ids} : Mirrors web h t ids → Mirrors web h (.skipped t) ids
  | leaf {k t x ids} : x < h.nr → (h.rule x).kind = .leaf k → Mirrors web h t ids →
      Mirrors web h (.leaf k t) (x :: ids)
  | media {c t x ids} : x < h.nr → (h.rule x).kind = .media → Mirrors web h c (h.rule x).children →
      Mirrors web h t ids → Mirrors web h (.media c t) (x :: ids)
  | importNone {t x s ids} : x < h.nr → (h.rule x).kind = .importRule →
      (h.rule x).sheet = some s → s < h.ns → (h.sheet s).owner = some x →
      (h.sheet s).rules = [] → Mirrors web h t ids →
      Mirrors web h (.importRule none t) (x :: ids)
  | importUrl {u t x s ids} : x < h.nr → (h.rule x).kind = .importRule →
      (h.rule x).sheet = some s → s < h.ns → (h.sheet s).owner = some x →
      Mirrors web h (web u) (h.sheet s).rules →
      Mirrors web h t ids → Mirrors web h (.importRule (some u) t) (x :: ids)

/-- A place where rules stand: a sheet or a `@media` rule. -/
inductive Place
  | sheet (s : Nat)
  | group (x : Nat)

/-- The rules at a place, in order. -/
def At (h : Heap) : Place → List Nat
  | .sheet s => (h.sheet s).rules
  | .group x => (h.rule x).children

/-- The places that there are. -/
def Exists (h : Heap) : Place → Prop
  | .sheet s => s < h.ns
  | .group x => x < h.nr

/-- The sheet of a place. -/
def sheetOf (h : Heap) : Place → Option Nat
  | .sheet s => some s
  | .group x => (h.rule x).parentSheet

/-- The rule of a place; none for a sheet. -/
def ruleOf : Place → Option Nat
  | .sheet _ => none
  | .group x => some x

/-- The text `u` imports the text `v`, maybe inside `@media` rules. -/
inductive ImportedBy : Nat → Text → Prop
  | here {v t} : ImportedBy v (.importRule (some v) t)
  | inside {v c t} : ImportedBy v c → ImportedBy v (.media c t)
  | afterMedia {v c t} : ImportedBy v t → ImportedBy v (.media c t)
  | afterLeaf {v k t} : ImportedBy v t → ImportedBy v (.leaf k t)
  | afterImport {v u t} : ImportedBy v t → ImportedBy v (.importRule u t)
  | afterSkipped {v t} : ImportedBy v t → ImportedBy v (.skipped t)

end Spec

open Spec

/-! ### The invariant -/

/-- What holds for the lists in the store. -/
structure WF (h : Heap) : Prop where
  child : ∀ x < h.nr, ∀ c ∈ (h.rule x).children,
    c < h.nr ∧ (h.rule c).parentRule = some x ∧ (h.rule c).parentSheet = (h.rule x).parentSheet
  childNodup : ∀ x < h.nr, (h.rule x).children.Nodup
  childKind : ∀ x < h.nr, (h.rule x).children ≠ [] → (h.rule x).kind = .media
  top : ∀ s < h.ns, ∀ c ∈ (h.sheet s).rules,
    c < h.nr ∧ (h.rule c).parentRule = (h.sheet s).owner ∧ (h.rule c).parentSheet = some s
  topNodup : ∀ s < h.ns, (h.sheet s).rules.Nodup
  owner : ∀ s < h.ns, ∀ o, (h.sheet s).owner = some o → o < h.nr ∧ (h.rule o).kind = .importRule

theorem wf_empty : WF empty := by
  constructor <;> simp [empty]

theorem wf_newRule (h : Heap) (w : WF h) (k : Kind) (ps pr : Option Nat) :
    WF (h.newRule k ps pr) := by
  have lt : ∀ c, c < h.nr → c ≠ h.nr := fun c hc => Nat.ne_of_lt hc
  constructor
  · intro x hx c hc
    simp only [Heap.newRule] at hx hc ⊢
    by_cases hxe : x = h.nr
    · simp [hxe] at hc
    · rw [if_neg hxe] at hc ⊢
      obtain ⟨h1, h2, h3⟩ := w.child x (by omega) c hc
      rw [if_neg (lt c h1)]
      exact ⟨by omega, h2, h3⟩
  · intro x hx
    simp only [Heap.newRule] at hx ⊢
    by_cases hxe : x = h.nr
    · simp [hxe]
    · rw [if_neg hxe]
      exact w.childNodup x (by omega)
  · intro x hx
    simp only [Heap.newRule] at hx ⊢
    by_cases hxe : x = h.nr
    · simp [hxe]
    · rw [if_neg hxe]
      exact w.childKind x (by omega)
  · intro s hs c hc
    simp only [Heap.newRule] at hs hc ⊢
    obtain ⟨h1, h2, h3⟩ := w.top s hs c hc
    rw [if_neg (lt c h1)]
    exact ⟨by omega, h2, h3⟩
  · intro s hs
    exact w.topNodup s hs
  · intro s hs o ho
    simp only [Heap.newRule] at hs ho ⊢
    obtain ⟨h1, h2⟩ := w.owner s hs o ho
    rw [if_neg (lt o h1)]
    exact ⟨by omega, h2⟩

theorem wf_newSheet (h : Heap) (w : WF h) (o : Option Nat)
    (ho : ∀ x, o = some x → x < h.nr ∧ (h.rule x).kind = .importRule) : WF (h.newSheet o) := by
  constructor
  · exact w.child
  · exact w.childNodup
  · exact w.childKind
  · intro s hs c hc
    simp only [Heap.newSheet] at hs hc ⊢
    by_cases hse : s = h.ns
    · simp [hse] at hc
    · rw [if_neg hse] at hc ⊢
      exact w.top s (by omega) c hc
  · intro s hs
    simp only [Heap.newSheet] at hs ⊢
    by_cases hse : s = h.ns
    · simp [hse]
    · rw [if_neg hse]
      exact w.topNodup s (by omega)
  · intro s hs x hx
    simp only [Heap.newSheet] at hs hx ⊢
    by_cases hse : s = h.ns
    · rw [if_pos hse] at hx
      exact ho x hx
    · rw [if_neg hse] at hx
      exact w.owner s (by omega) x hx

theorem setChildren_parentRule (h : Heap) (x : Nat) (cs : List Nat) (i : Nat) :
    ((h.setChildren x cs).rule i).parentRule = (h.rule i).parentRule := by
  simp only [Heap.setChildren]
  split
  · simp [*]
  · rfl

theorem setChildren_parentSheet (h : Heap) (x : Nat) (cs : List Nat) (i : Nat) :
    ((h.setChildren x cs).rule i).parentSheet = (h.rule i).parentSheet := by
  simp only [Heap.setChildren]
  split
  · simp [*]
  · rfl

theorem setChildren_kind (h : Heap) (x : Nat) (cs : List Nat) (i : Nat) :
    ((h.setChildren x cs).rule i).kind = (h.rule i).kind := by
  simp only [Heap.setChildren]
  split
  · simp [*]
  · rfl

theorem wf_setChildren (h : Heap) (w : WF h) (x : Nat) (cs : List Nat)
    (hk : (h.rule x).kind = .media) (hn : cs.Nodup)
    (hc : ∀ c ∈ cs, c < h.nr ∧ (h.rule c).parentRule = some x ∧
      (h.rule c).parentSheet = (h.rule x).parentSheet) : WF (h.setChildren x cs) := by
  constructor
  · intro y hy c hcy
    rw [setChildren_parentRule, setChildren_parentSheet, setChildren_parentSheet]
    by_cases hxe : y = x
    · subst hxe
      exact hc c (by simpa [Heap.setChildren] using hcy)
    · exact w.child y hy c (by simpa [Heap.setChildren, hxe] using hcy)
  · intro y hy
    by_cases hxe : y = x
    · subst hxe
      simpa [Heap.setChildren] using hn
    · simpa [Heap.setChildren, hxe] using w.childNodup y hy
  · intro y hy hne
    rw [setChildren_kind]
    by_cases hxe : y = x
    · rw [hxe]; exact hk
    · exact w.childKind y hy (by simpa [Heap.setChildren, hxe] using hne)
  · intro s hs c hcs
    rw [setChildren_parentRule, setChildren_parentSheet]
    exact w.top s hs c hcs
  · exact w.topNodup
  · intro s hs o ho
    rw [setChildren_kind]
    exact w.owner s hs o ho

theorem setSheet_parentRule (h : Heap) (x s i : Nat) :
    ((h.setSheet x s).rule i).parentRule = (h.rule i).parentRule := by
  simp only [Heap.setSheet]
  split
  · simp [*]
  · rfl

theorem setSheet_parentSheet (h : Heap) (x s i : Nat) :
    ((h.setSheet x s).rule i).parentSheet = (h.rule i).parentSheet := by
  simp only [Heap.setSheet]
  split
  · simp [*]
  · rfl

theorem setSheet_kind (h : Heap) (x s i : Nat) :
    ((h.setSheet x s).rule i).kind = (h.rule i).kind := by
  simp only [Heap.setSheet]
  split
  · simp [*]
  · rfl

theorem setSheet_children (h : Heap) (x s i : Nat) :
    ((h.setSheet x s).rule i).children = (h.rule i).children := by
  simp only [Heap.setSheet]
  split
  · simp [*]
  · rfl

theorem wf_setSheet (h : Heap) (w : WF h) (x s : Nat) : WF (h.setSheet x s) := by
  constructor
  · intro y hy c hc
    rw [setSheet_children] at hc
    rw [setSheet_parentRule, setSheet_parentSheet, setSheet_parentSheet]
    exact w.child y hy c hc
  · intro y hy
    rw [setSheet_children]
    exact w.childNodup y hy
  · intro y hy
    rw [setSheet_children, setSheet_kind]
    exact w.childKind y hy
  · intro s' hs c hc
    rw [setSheet_parentRule, setSheet_parentSheet]
    exact w.top s' hs c hc
  · exact w.topNodup
  · intro s' hs o ho
    rw [setSheet_kind]
    exact w.owner s' hs o ho

theorem setRules_owner (h : Heap) (s : Nat) (cs : List Nat) (i : Nat) :
    ((h.setRules s cs).sheet i).owner = (h.sheet i).owner := by
  simp only [Heap.setRules]
  split
  · simp [*]
  · rfl

theorem wf_setRules (h : Heap) (w : WF h) (s : Nat) (cs : List Nat) (hn : cs.Nodup)
    (hc : ∀ c ∈ cs, c < h.nr ∧ (h.rule c).parentRule = (h.sheet s).owner ∧
      (h.rule c).parentSheet = some s) : WF (h.setRules s cs) := by
  constructor
  · exact w.child
  · exact w.childNodup
  · exact w.childKind
  · intro s' hs c hcs
    rw [setRules_owner]
    by_cases hse : s' = s
    · subst hse
      exact hc c (by simpa [Heap.setRules] using hcs)
    · exact w.top s' hs c (by simpa [Heap.setRules, hse] using hcs)
  · intro s' hs
    by_cases hse : s' = s
    · subst hse
      simpa [Heap.setRules] using hn
    · simpa [Heap.setRules, hse] using w.topNodup s' hs
  · intro s' hs o ho
    rw [setRules_owner] at ho
    exact w.owner s' hs o ho

/-- Everything that was there is as it was. -/
structure Keeps (h h' : Heap) : Prop where
  nr : h.nr ≤ h'.nr
  ns : h.ns ≤ h'.ns
  rule : ∀ i < h.nr, h'.rule i = h.rule i
  sheet : ∀ s < h.ns, h'.sheet s = h.sheet s

theorem Keeps.refl (h : Heap) : Keeps h h := ⟨le_refl _, le_refl _, fun _ _ => rfl, fun _ _ => rfl⟩

theorem Keeps.trans {a b c : Heap} (h1 : Keeps a b) (h2 : Keeps b c) : Keeps a c :=
  ⟨le_trans h1.nr h2.nr, le_trans h1.ns h2.ns,
    fun i hi => (h2.rule i (lt_of_lt_of_le hi h1.nr)).trans (h1.rule i hi),
    fun s hs => (h2.sheet s (lt_of_lt_of_le hs h1.ns)).trans (h1.sheet s hs)⟩

theorem keeps_newRule (h : Heap) (k : Kind) (ps pr : Option Nat) : Keeps h (h.newRule k ps pr) :=
  ⟨by simp [Heap.newRule], by simp [Heap.newRule],
    fun i hi => by simp [Heap.newRule, Nat.ne_of_lt hi], fun _ _ => rfl⟩

theorem keeps_newSheet (h : Heap) (o : Option Nat) : Keeps h (h.newSheet o) :=
  ⟨by simp [Heap.newSheet], by simp [Heap.newSheet], fun _ _ => rfl,
    fun i hi => by simp [Heap.newSheet, Nat.ne_of_lt hi]⟩

theorem keeps_setChildren {h h1 : Heap} (hk : Keeps h h1) (x : Nat) (hx : h.nr ≤ x)
    (cs : List Nat) : Keeps h (h1.setChildren x cs) :=
  ⟨hk.nr, hk.ns, fun i hi => by
    have : i ≠ x := by omega
    simpa [Heap.setChildren, this] using hk.rule i hi, hk.sheet⟩

theorem keeps_setSheet {h h1 : Heap} (hk : Keeps h h1) (x : Nat) (hx : h.nr ≤ x)
    (s : Nat) : Keeps h (h1.setSheet x s) :=
  ⟨hk.nr, hk.ns, fun i hi => by
    have : i ≠ x := by omega
    simpa [Heap.setSheet, this] using hk.rule i hi, hk.sheet⟩

theorem keeps_setRules {h h1 : Heap} (hk : Keeps h h1) (s : Nat) (hs : h.ns ≤ s)
    (cs : List Nat) : Keeps h (h1.setRules s cs) :=
  ⟨hk.nr, hk.ns, hk.rule, fun i hi => by
    have : i ≠ s := by omega
    simpa [Heap.setRules, this] using hk.sheet i hi⟩

/-- `Mirrors` with rules from `lo` and sheets from `ls` on. -/
inductive MirrorsIn (web : Nat → Text) (h : Heap) (lo ls : Nat) : Text → List Nat → Prop
  | nil : MirrorsIn web h lo ls .nil []
  | skipped {t ids} : MirrorsIn web h lo ls t ids → MirrorsIn web h lo ls (.skipped t) ids
  | leaf {k t x ids} : lo ≤ x → x < h.nr → (h.rule x).kind = .leaf k →
      MirrorsIn web h lo ls t ids → MirrorsIn web h lo ls (.leaf k t) (x :: ids)
  | media {c t x ids} : lo ≤ x → x < h.nr → (h.rule x).kind = .media →
      MirrorsIn web h lo ls c (h.rule x).children →
      MirrorsIn web h lo ls t ids → MirrorsIn web h lo ls (.media c t) (x :: ids)
  | importNone {t x s ids} : lo ≤ x → x < h.nr → (h.rule x).kind = .importRule →
      (h.rule x).sheet = some s → ls ≤ s → s < h.ns → (h.sheet s).owner = some x →
      (h.sheet s).rules = [] → MirrorsIn web h lo ls t ids →
      MirrorsIn web h lo ls (.importRule none t) (x :: ids)
  | importUrl {u t x s ids} : lo ≤ x → x < h.nr → (h.rule x).kind = .importRule →
      (h.rule x).sheet = some s → ls ≤ s → s < h.ns → (h.sheet s).owner = some x →
      MirrorsIn web h lo ls (web u) (h.sheet s).rules →
      MirrorsIn web h lo ls t ids → MirrorsIn web h lo ls (.importRule (some u) t) (x :: ids)

theorem MirrorsIn.mirrors {web h lo ls t ids} (m : MirrorsIn web h lo ls t ids) :
    Mirrors web h t ids := by
  induction m with
  | nil => exact .nil
  | skipped _ ih => exact .skipped ih
  | leaf _ hx hk _ ih => exact .leaf hx hk ih
  | media _ hx hk _ _ ih1 ih2 => exact .media hx hk ih1 ih2
  | importNone _ hx hk hs _ hlt ho hr _ ih => exact .importNone hx hk hs hlt ho hr ih
  | importUrl _ hx hk hs _ hlt ho _ _ ih1 ih2 => exact .importUrl hx hk hs hlt ho ih1 ih2

theorem MirrorsIn.frame {web h lo ls t ids} (m : MirrorsIn web h lo ls t ids) (h' : Heap)
    (hnr : h.nr ≤ h'.nr) (hns : h.ns ≤ h'.ns)
    (hr : ∀ i, lo ≤ i → i < h.nr → h'.rule i = h.rule i)
    (hs : ∀ s, ls ≤ s → s < h.ns → h'.sheet s = h.sheet s) (lo' ls' : Nat) (hlo : lo' ≤ lo)
    (hls : ls' ≤ ls) : MirrorsIn web h' lo' ls' t ids := by
  induction m with
  | nil => exact .nil
  | skipped _ ih => exact .skipped ih
  | leaf h1 h2 h3 _ ih =>
    exact .leaf (by omega) (by omega) (by rw [hr _ h1 h2]; exact h3) ih
  | media h1 h2 h3 _ _ ih1 ih2 =>
    exact .media (by omega) (by omega) (by rw [hr _ h1 h2]; exact h3) (by rw [hr _ h1 h2]; exact ih1)
      ih2
  | importNone h1 h2 h3 h4 h5 h6 h7 h8 _ ih =>
    exact .importNone (by omega) (by omega) (by rw [hr _ h1 h2]; exact h3)
      (by rw [hr _ h1 h2]; exact h4) (by omega) (by omega) (by rw [hs _ h5 h6]; exact h7)
      (by rw [hs _ h5 h6]; exact h8) ih
  | importUrl h1 h2 h3 h4 h5 h6 h7 _ _ ih1 ih2 =>
    exact .importUrl (by omega) (by omega) (by rw [hr _ h1 h2]; exact h3)
      (by rw [hr _ h1 h2]; exact h4) (by omega) (by omega) (by rw [hs _ h5 h6]; exact h7)
      (by rw [hs _ h5 h6]; exact ih1) ih2

theorem MirrorsIn.keeps {web h h' lo ls t ids} (m : MirrorsIn web h lo ls t ids) (k : Keeps h h')
    (lo' ls' : Nat) (hlo : lo' ≤ lo) (hls : ls' ≤ ls) : MirrorsIn web h' lo' ls' t ids :=
  m.frame h' k.nr k.ns (fun i _ hi => k.rule i hi) (fun s _ hs => k.sheet s hs) lo' ls' hlo hls

/-- What is known after rules have been read. -/
structure Parsed (web : Nat → Text) (t : Text) (h : Heap) (ps pr : Option Nat) (h' : Heap)
    (ids : List Nat) : Prop where
  keeps : Keeps h h'
  wf : WF h'
  fresh : ∀ x ∈ ids, h.nr ≤ x ∧ x < h'.nr ∧ (h'.rule x).parentRule = pr ∧ (h'.rule x).parentSheet = ps
  nodup : ids.Nodup
  mirrors : MirrorsIn web h' h.nr h.ns t ids

/-- What is known after a sheet has been loaded. -/
structure Loaded (web : Nat → Text) (u : Nat) (h : Heap) (o : Option Nat) (h' : Heap) (s : Nat) :
    Prop where
  keeps : Keeps h h'
  wf : WF h'
  num : s = h.ns
  lt : s < h'.ns
  owner : (h'.sheet s).owner = o
  mirrors : MirrorsIn web h' h.nr h.ns (web u) (h'.sheet s).rules

theorem Parsed.cons {web t h ps pr h1 h' ids} {t' : Text} (k0 : Keeps h h1) (hlt : h.nr < h1.nr)
    (hp : Parsed web t h1 ps pr h' ids) (hpr : (h1.rule h.nr).parentRule = pr)
    (hps : (h1.rule h.nr).parentSheet = ps)
    (hm : MirrorsIn web h' h.nr h.ns t ids → MirrorsIn web h' h.nr h.ns t' (h.nr :: ids)) :
    Parsed web t' h ps pr h' (h.nr :: ids) := by
  refine ⟨k0.trans hp.keeps, hp.wf, ?_, ?_, ?_⟩
  · intro x hx
    rcases List.mem_cons.1 hx with rfl | hx
    · rw [hp.keeps.rule _ hlt]
      exact ⟨le_refl _, lt_of_lt_of_le hlt hp.keeps.nr, hpr, hps⟩
    · obtain ⟨a, b, c, d⟩ := hp.fresh x hx
      exact ⟨by omega, b, c, d⟩
  · refine List.nodup_cons.2 ⟨fun hx => ?_, hp.nodup⟩
    have := (hp.fresh _ hx).1
    omega
  · exact hm (hp.mirrors.keeps (Keeps.refl _) _ _ k0.nr k0.ns)

theorem parseRules_ok (web : Nat → Text) (load : Nat → Heap → Nat → Option (Heap × Nat))
    (hl : ∀ u h x h' s, load u h x = some (h', s) → WF h → x < h.nr →
      (h.rule x).kind = .importRule → Loaded web u h (some x) h' s) :
    ∀ (t : Text) (h : Heap) (ps pr : Option Nat) (h' : Heap) (ids : List Nat), WF h →
      parseRules load t h ps pr = some (h', ids) → Parsed web t h ps pr h' ids := by
  intro t
  induction t with
  | nil =>
    intro h ps pr h' ids w hp
    simp [parseRules] at hp
    obtain ⟨rfl, rfl⟩ := hp
    exact ⟨Keeps.refl _, w, by simp, List.nodup_nil, .nil⟩
  | skipped next ih =>
    intro h ps pr h' ids w hp
    simp only [parseRules] at hp
    obtain ⟨a, b, c, d, e⟩ := ih h ps pr h' ids w hp
    exact ⟨a, b, c, d, .skipped e⟩
  | leaf k next ih =>
    intro h ps pr h' ids w hp
    simp only [parseRules] at hp
    cases hn : parseRules load next (h.newRule (.leaf k) ps pr) ps pr with
    | none => simp [hn] at hp
    | some v =>
      obtain ⟨h2, ids'⟩ := v
      simp [hn] at hp
      obtain ⟨rfl, rfl⟩ := hp
      have hp' := ih _ _ _ _ _ (wf_newRule h w (.leaf k) ps pr) hn
      refine Parsed.cons (keeps_newRule h _ _ _) (by simp [Heap.newRule]) hp'
        (by simp [Heap.newRule]) (by simp [Heap.newRule]) (fun m => ?_)
      have hlt : h.nr < (h.newRule (.leaf k) ps pr).nr := by simp [Heap.newRule]
      refine .leaf (le_refl _) (lt_of_lt_of_le hlt hp'.keeps.nr) ?_ m
      rw [hp'.keeps.rule _ hlt]
      simp [Heap.newRule]
  | media content next ih1 ih2 =>
    intro h ps pr h' ids w hp
    simp only [parseRules] at hp
    cases hc : parseRules load content (h.newRule .media ps pr) ps (some h.nr) with
    | none => simp [hc] at hp
    | some v =>
      obtain ⟨h1, cs⟩ := v
      simp only [hc] at hp
      cases hn : parseRules load next (h1.setChildren h.nr cs) ps pr with
      | none => simp [hn] at hp
      | some v =>
        obtain ⟨h2, ids'⟩ := v
        simp [hn] at hp
        obtain ⟨rfl, rfl⟩ := hp
        have hp1 := ih1 _ _ _ _ _ (wf_newRule h w .media ps pr) hc
        have hlt : h.nr < (h.newRule .media ps pr).nr := by simp [Heap.newRule]
        have hx := hp1.keeps.rule _ hlt
        have hx' : h1.rule h.nr = ⟨.media, ps, pr, [], none⟩ := by
          rw [hx]; simp [Heap.newRule]
        have w1 : WF (h1.setChildren h.nr cs) := by
          refine wf_setChildren h1 hp1.wf h.nr cs (by rw [hx']) hp1.nodup (fun c hcm => ?_)
          obtain ⟨_, b, c', d⟩ := hp1.fresh c hcm
          exact ⟨b, c', by rw [d, hx']⟩
        have hp2 := ih2 _ _ _ _ _ w1 hn
        have k1 : Keeps h (h1.setChildren h.nr cs) :=
          keeps_setChildren ((keeps_newRule h _ _ _).trans hp1.keeps) _ (le_refl _) _
        have hlt1 : h.nr < (h1.setChildren h.nr cs).nr := lt_of_lt_of_le hlt hp1.keeps.nr
        refine Parsed.cons k1 hlt1 hp2 (by rw [setChildren_parentRule, hx'])
          (by rw [setChildren_parentSheet, hx']) (fun m => ?_)
        have hr2 := hp2.keeps.rule _ hlt1
        refine .media (le_refl _) (lt_of_lt_of_le hlt1 hp2.keeps.nr) ?_ ?_ m
        · rw [hr2, setChildren_kind, hx']
        · rw [hr2]
          have hch : ((h1.setChildren h.nr cs).rule h.nr).children = cs := by
            simp [Heap.setChildren]
          rw [hch]
          have m1 : MirrorsIn web (h1.setChildren h.nr cs) (h.nr + 1) h.ns content cs := by
            refine hp1.mirrors.frame (h1.setChildren h.nr cs) (le_refl _) (le_refl _) ?_ (fun _ _ _ => rfl) (h.nr + 1) h.ns
              (by simp [Heap.newRule]) (by simp [Heap.newRule])
            intro i hi _
            have : i ≠ h.nr := by
              simp [Heap.newRule] at hi
              omega
            simp [Heap.setChildren, this]
          exact m1.keeps hp2.keeps _ _ (by omega) (le_refl _)
  | importRule u next ih =>
    intro h ps pr h' ids w hp
    have w0 := wf_newRule h w .importRule ps pr
    have hlt : h.nr < (h.newRule .importRule ps pr).nr := by simp [Heap.newRule]
    have hx0 : (h.newRule .importRule ps pr).rule h.nr = ⟨.importRule, ps, pr, [], none⟩ := by
      simp [Heap.newRule]
    cases u with
    | none =>
      simp only [parseRules] at hp
      cases hn : parseRules load next
          (((h.newRule .importRule ps pr).newSheet (some h.nr)).setSheet h.nr h.ns) ps pr with
      | none => simp [hn] at hp
      | some v =>
        obtain ⟨h2, ids'⟩ := v
        simp [hn] at hp
        obtain ⟨rfl, rfl⟩ := hp
        have ws : WF ((h.newRule .importRule ps pr).newSheet (some h.nr)) := by
          refine wf_newSheet _ w0 _ (fun x hx => ?_)
          obtain rfl := Option.some.inj hx
          exact ⟨hlt, by rw [hx0]⟩
        have hp2 := ih _ _ _ _ _ (wf_setSheet _ ws h.nr h.ns) hn
        have k1 : Keeps h (((h.newRule .importRule ps pr).newSheet (some h.nr)).setSheet h.nr h.ns) :=
          keeps_setSheet ((keeps_newRule h _ _ _).trans (keeps_newSheet _ _)) _ (le_refl _) _
        have hlt1 : h.nr < (((h.newRule .importRule ps pr).newSheet
          (some h.nr)).setSheet h.nr h.ns).nr := by simp [Heap.setSheet, Heap.newSheet, Heap.newRule]
        have hls1 : h.ns < (((h.newRule .importRule ps pr).newSheet
          (some h.nr)).setSheet h.nr h.ns).ns := by simp [Heap.setSheet, Heap.newSheet, Heap.newRule]
        refine Parsed.cons k1 hlt1 hp2 (by rw [setSheet_parentRule]; simp [Heap.newSheet, hx0])
          (by rw [setSheet_parentSheet]; simp [Heap.newSheet, hx0]) (fun m => ?_)
        have hr2 := hp2.keeps.rule _ hlt1
        have hs2 := hp2.keeps.sheet _ hls1
        refine .importNone (s := h.ns) (le_refl _) (lt_of_lt_of_le hlt1 hp2.keeps.nr) ?_ ?_ (le_refl _)
          (lt_of_lt_of_le hls1 hp2.keeps.ns) ?_ ?_ m
        · rw [hr2, setSheet_kind]; simp [Heap.newSheet, hx0]
        · rw [hr2]; simp [Heap.setSheet]
        · rw [hs2]; simp [Heap.setSheet, Heap.newSheet, Heap.newRule]
        · rw [hs2]; simp [Heap.setSheet, Heap.newSheet, Heap.newRule]
    | some u =>
      simp only [parseRules] at hp
      cases hc : load u (h.newRule .importRule ps pr) h.nr with
      | none => simp [hc] at hp
      | some v =>
        obtain ⟨h1, s⟩ := v
        simp only [hc] at hp
        cases hn : parseRules load next (h1.setSheet h.nr s) ps pr with
        | none => simp [hn] at hp
        | some v =>
          obtain ⟨h2, ids'⟩ := v
          simp [hn] at hp
          obtain ⟨rfl, rfl⟩ := hp
          have hl1 := hl _ _ _ _ _ hc w0 hlt (by rw [hx0])
          have hx' : h1.rule h.nr = ⟨.importRule, ps, pr, [], none⟩ := by
            rw [hl1.keeps.rule _ hlt, hx0]
          have hp2 := ih _ _ _ _ _ (wf_setSheet _ hl1.wf h.nr s) hn
          have k1 : Keeps h (h1.setSheet h.nr s) :=
            keeps_setSheet ((keeps_newRule h _ _ _).trans hl1.keeps) _ (le_refl _) _
          have hlt1 : h.nr < (h1.setSheet h.nr s).nr := lt_of_lt_of_le hlt hl1.keeps.nr
          have hls1 : s < (h1.setSheet h.nr s).ns := hl1.lt
          refine Parsed.cons k1 hlt1 hp2 (by rw [setSheet_parentRule, hx'])
            (by rw [setSheet_parentSheet, hx']) (fun m => ?_)
          have hr2 := hp2.keeps.rule _ hlt1
          have hs2 := hp2.keeps.sheet _ hls1
          refine .importUrl (s := s) (le_refl _) (lt_of_lt_of_le hlt1 hp2.keeps.nr) ?_ ?_
            (by rw [hl1.num]; simp [Heap.newRule])
            (lt_of_lt_of_le hls1 hp2.keeps.ns) ?_ ?_ m
          · rw [hr2, setSheet_kind, hx']
          · rw [hr2]; simp [Heap.setSheet]
          · rw [hs2]; exact hl1.owner
          · rw [hs2]
            have m1 : MirrorsIn web (h1.setSheet h.nr s) (h.nr + 1) h.ns (web u)
                (h1.sheet s).rules := by
              refine hl1.mirrors.frame (h1.setSheet h.nr s) (le_refl _) (le_refl _) ?_ (fun _ _ _ => rfl) (h.nr + 1) h.ns
                (by simp [Heap.newRule]) (by simp [Heap.newRule])
              intro i hi _
              have : i ≠ h.nr := by
                simp [Heap.newRule] at hi
                omega
              simp [Heap.setSheet, this]
            exact m1.keeps hp2.keeps _ _ (by omega) (le_refl _)

/-- A sheet that has been made and filled. -/
theorem filled_ok (web : Nat → Text) (t : Text) (h : Heap) (w : WF h) (o : Option Nat)
    (ho : ∀ x, o = some x → x < h.nr ∧ (h.rule x).kind = .importRule) (h1 : Heap) (ids : List Nat)
    (hp : WF (h.newSheet o) → Parsed web t (h.newSheet o) (some h.ns) o h1 ids) :
    Keeps h (h1.setRules h.ns ((h1.sheet h.ns).rules ++ ids)) ∧
    WF (h1.setRules h.ns ((h1.sheet h.ns).rules ++ ids)) ∧ h.ns < h1.ns ∧
    (h1.sheet h.ns).owner = o ∧ (h1.sheet h.ns).rules = [] ∧
    MirrorsIn web (h1.setRules h.ns ((h1.sheet h.ns).rules ++ ids)) h.nr (h.ns + 1) t ids := by
  have hp := hp (wf_newSheet h w o ho)
  have hlt : h.ns < (h.newSheet o).ns := by simp [Heap.newSheet]
  have hs := hp.keeps.sheet _ hlt
  have hs' : h1.sheet h.ns = ⟨o, []⟩ := by rw [hs]; simp [Heap.newSheet]
  refine ⟨keeps_setRules ((keeps_newSheet h o).trans hp.keeps) _ (le_refl _) _, ?_,
    lt_of_lt_of_le hlt hp.keeps.ns, by rw [hs'], by rw [hs'], ?_⟩
  · refine wf_setRules h1 hp.wf _ _ (by rw [hs']; simpa using hp.nodup) (fun c hc => ?_)
    rw [hs'] at hc ⊢
    obtain ⟨_, b, c', d⟩ := hp.fresh c (by simpa using hc)
    exact ⟨b, c', d⟩
  · refine hp.mirrors.frame (h1.setRules h.ns ((h1.sheet h.ns).rules ++ ids)) (le_refl _) (le_refl _) (fun _ _ _ => rfl) ?_ h.nr (h.ns + 1) (le_refl _)
      (by simp [Heap.newSheet])
    intro s hs1 _
    have : s ≠ h.ns := by
      simp [Heap.newSheet] at hs1
      omega
    simp [Heap.setRules, this]

theorem parseUrl_ok (web : Nat → Text) : ∀ (k u : Nat) (h : Heap) (o : Option Nat) (h' : Heap)
    (s : Nat), parseUrl web k u h o = some (h', s) → WF h →
    (∀ x, o = some x → x < h.nr ∧ (h.rule x).kind = .importRule) → Loaded web u h o h' s
  | 0, _, _, _, _, _, hp, _, _ => by simp [parseUrl] at hp
  | k + 1, u, h, o, h', s, hp, w, ho => by
    unfold parseUrl at hp
    cases hn : parseRules (fun u h x => parseUrl web k u h (some x)) (web u) (h.newSheet o)
        (some h.ns) o with
    | none => simp [hn] at hp
    | some v =>
      obtain ⟨h1, ids⟩ := v
      simp [hn] at hp
      obtain ⟨rfl, rfl⟩ := hp
      obtain ⟨a, b, c, d, e, f⟩ := filled_ok web (web u) h w o ho h1 ids (fun w' =>
        parseRules_ok web _ (fun u h x h' s hl w hx hk => parseUrl_ok web k u h (some x) h' s hl w
          (fun y hy => by obtain rfl := Option.some.inj hy; exact ⟨hx, hk⟩)) _ _ _ _ _ _ w' hn)
      refine ⟨a, b, rfl, c, by rw [setRules_owner]; exact d, ?_⟩
      have hr : ((h1.setRules h.ns ((h1.sheet h.ns).rules ++ ids)).sheet h.ns).rules = ids := by
        simp [Heap.setRules, e]
      rw [hr]
      exact f.keeps (Keeps.refl _) _ _ (le_refl _) (by omega)

theorem fromString_ok (web : Nat → Text) (k : Nat) (t : Text) (h : Heap) (ps pr : Option Nat)
    (h' : Heap) (ids : List Nat) (w : WF h) (hp : fromString web k t h ps pr = some (h', ids)) :
    Parsed web t h ps pr h' ids :=
  parseRules_ok web _ (fun u h x h' s hl w hx hk => parseUrl_ok web k u h (some x) h' s hl w
    (fun y hy => by obtain rfl := Option.some.inj hy; exact ⟨hx, hk⟩)) _ _ _ _ _ _ w hp

/-! ### Rules know where they stand -/

theorem splice_perm (l new : List Nat) (i : Int) : (splice l i new).Perm (l ++ new) := by
  unfold splice
  generalize slicePos i l.length = n
  have h1 : (l.take n ++ new ++ l.drop n).Perm (l.take n ++ (l.drop n ++ new)) := by
    rw [List.append_assoc]
    exact List.Perm.append_left _ List.perm_append_comm
  rw [← List.append_assoc, List.take_append_drop] at h1
  exact h1

theorem delIndex_sublist (l l' : List Nat) (i : Int) (h : delIndex l i = .ok l') :
    l'.Sublist l := by
  unfold delIndex at h
  split at h
  · simp at h; subst h; exact List.eraseIdx_sublist _ _
  · split at h
    · simp at h; subst h; exact List.eraseIdx_sublist _ _
    · simp at h

theorem wf_step (web : Nat → Text) (h h' : Heap) (w : WF h) (st : Step web h h') : WF h' := by
  cases st with
  | @style k t _ s hs =>
    unfold styleElement at hs
    cases hn : fromString web k t (h.newSheet none) (some h.ns) none with
    | none => simp [hn] at hs
    | some v =>
      obtain ⟨h1, ids⟩ := v
      simp [hn] at hs
      obtain ⟨rfl, rfl⟩ := hs
      exact (filled_ok web t h w none (by simp) h1 ids
        (fun w' => fromString_ok web k t _ _ _ _ _ w' hn)).2.1
  | link hs => exact (parseUrl_ok web _ _ _ _ _ _ hs w (by simp)).wf
  | @sheetInsert k t i s _ j hlt hs =>
    unfold sheetInsert at hs
    cases hn : fromString web k t h (some s) (h.sheet s).owner with
    | none => simp [hn] at hs
    | some v =>
      obtain ⟨h1, ids⟩ := v
      simp [hn] at hs
      obtain ⟨rfl, rfl⟩ := hs
      have hp := fromString_ok web k t _ _ _ _ _ w hn
      have he := hp.keeps.sheet s hlt
      have hperm := splice_perm (h1.sheet s).rules ids i
      refine wf_setRules h1 hp.wf s _ ?_ (fun c hc => ?_)
      · refine hperm.nodup_iff.2 (List.nodup_append.2 ⟨hp.wf.topNodup s (lt_of_lt_of_le hlt hp.keeps.ns),
          hp.nodup, ?_⟩)
        intro a ha b hb hab
        rw [he] at ha
        have h1' := (w.top s hlt a ha).1
        have h2' := (hp.fresh b hb).1
        omega
      · rcases List.mem_append.1 (hperm.mem_iff.1 hc) with hc | hc
        · exact hp.wf.top s (lt_of_lt_of_le hlt hp.keeps.ns) c hc
        · obtain ⟨_, b, c', d⟩ := hp.fresh c hc
          exact ⟨b, by rw [c', he], d⟩
  | @groupInsert k t i x _ j hlt hk hs =>
    unfold groupInsert at hs
    cases hn : fromString web k t h (h.rule x).parentSheet (some x) with
    | none => simp [hn] at hs
    | some v =>
      obtain ⟨h1, ids⟩ := v
      simp [hn] at hs
      obtain ⟨rfl, rfl⟩ := hs
      have hp := fromString_ok web k t _ _ _ _ _ w hn
      have he := hp.keeps.rule x hlt
      have hperm := splice_perm (h1.rule x).children ids i
      refine wf_setChildren h1 hp.wf x _ (by rw [he]; exact hk) ?_ (fun c hc => ?_)
      · refine hperm.nodup_iff.2 (List.nodup_append.2 ⟨hp.wf.childNodup x (lt_of_lt_of_le hlt hp.keeps.nr),
          hp.nodup, ?_⟩)
        intro a ha b hb hab
        rw [he] at ha
        have h1' := (w.child x hlt a ha).1
        have h2' := (hp.fresh b hb).1
        omega
      · rcases List.mem_append.1 (hperm.mem_iff.1 hc) with hc | hc
        · exact hp.wf.child x (lt_of_lt_of_le hlt hp.keeps.nr) c hc
        · obtain ⟨_, b, c', d⟩ := hp.fresh c hc
          exact ⟨b, c', by rw [d, he]⟩
  | @sheetDelete i s _ hlt hs =>
    unfold sheetDelete at hs
    cases hd : delIndex (h.sheet s).rules i with
    | error e => simp [hd] at hs
    | ok l =>
      simp [hd] at hs
      subst hs
      have hsub := delIndex_sublist _ _ _ hd
      exact wf_setRules h w s l (hsub.nodup (w.topNodup s hlt))
        (fun c hc => w.top s hlt c (hsub.subset hc))
  | @groupDelete i x _ hlt hk hs =>
    unfold groupDelete at hs
    cases hd : delIndex (h.rule x).children i with
    | error e => simp [hd] at hs
    | ok l =>
      simp [hd] at hs
      subst hs
      have hsub := delIndex_sublist _ _ _ hd
      exact wf_setChildren h w x l hk (hsub.nodup (w.childNodup x hlt))
        (fun c hc => w.child x hlt c (hsub.subset hc))

theorem wf_reach (web : Nat → Text) (h : Heap) (r : Reach web h) : WF h := by
  induction r with
  | empty => exact wf_empty
  | step _ st ih => exact wf_step web _ _ ih st

/-- C106: whatever a program has done, `parent_style_sheet` of a rule in a sheet or a `@media` rule is
the sheet where it stands, and `parent_rule` is the `@media` rule where it stands, and none at the top
of a sheet that has not been imported. -/
theorem parents_partial (web : Nat → Text) (h : Heap) (r : Reach web h) (p : Place) (hp : Exists h p)
    (c : Nat) (hc : c ∈ At h p) :
    c < h.nr ∧ (h.rule c).parentSheet = sheetOf h p ∧
    ((∀ s, p = .sheet s → (h.sheet s).owner = none) → (h.rule c).parentRule = ruleOf p) := by
  have w := wf_reach web h r
  cases p with
  | sheet s =>
    obtain ⟨a, b, d⟩ := w.top s hp c hc
    exact ⟨a, d, fun ho => by rw [b]; exact ho s rfl⟩
  | group x =>
    obtain ⟨a, b, d⟩ := w.child x hp c hc
    exact ⟨a, d, fun _ => b⟩

/-- C106: no rule stands at two places, nor twice at one. -/
theorem places_unique (web : Nat → Text) (h : Heap) (r : Reach web h) :
    (∀ p, Exists h p → (At h p).Nodup) ∧
    ∀ p q c, Exists h p → Exists h q → c ∈ At h p → c ∈ At h q → p = q := by
  have w := wf_reach web h r
  constructor
  · intro p hp
    cases p with
    | sheet s => exact w.topNodup s hp
    | group x => exact w.childNodup x hp
  · intro p q c hp hq hc hd
    have key : ∀ s x, s < h.ns → x < h.nr → c ∈ (h.sheet s).rules → c ∈ (h.rule x).children → False := by
      intro s x hs hx hcs hcx
      have h1 := (w.top s hs c hcs).2.1
      have h2 := (w.child x hx c hcx).2.1
      rw [h1] at h2
      have h3 := (w.owner s hs x h2).2
      rw [w.childKind x hx (List.ne_nil_of_mem hcx)] at h3
      cases h3
    cases p with
    | sheet s =>
      cases q with
      | sheet s' =>
        have h1 := (w.top s hp c hc).2.2
        have h2 := (w.top s' hq c hd).2.2
        rw [h1] at h2
        rw [Option.some.inj h2]
      | group x => exact (key s x hp hq hc hd).elim
    | group x =>
      cases q with
      | sheet s => exact (key s x hq hp hd hc).elim
      | group y =>
        have h1 := (w.child x hp c hc).2.1
        have h2 := (w.child y hq c hd).2.1
        rw [h1] at h2
        rw [Option.some.inj h2]

/-! ### The tree is what is written -/

theorem keeps_places {h h' : Heap} (k : Keeps h h') (p : Place) (hp : Exists h p) :
    Exists h' p ∧ At h' p = At h p := by
  cases p with
  | sheet s => exact ⟨lt_of_lt_of_le hp k.ns, by simp only [At]; rw [k.sheet s hp]⟩
  | group x => exact ⟨lt_of_lt_of_le hp k.nr, by simp only [At]; rw [k.rule x hp]⟩

/-- C106: the sheet of a `style` element has the rules of its text. -/
theorem style_mirrors (web : Nat → Text) (h : Heap) (r : Reach web h) (k : Nat) (t : Text) (h' : Heap)
    (s : Nat) (hs : styleElement web k t h = some (h', s)) :
    s < h'.ns ∧ (h'.sheet s).owner = none ∧ Mirrors web h' t (h'.sheet s).rules ∧
    (∀ p, Exists h p → Exists h' p ∧ At h' p = At h p) := by
  have w := wf_reach web h r
  unfold styleElement at hs
  cases hn : fromString web k t (h.newSheet none) (some h.ns) none with
  | none => simp [hn] at hs
  | some v =>
    obtain ⟨h1, ids⟩ := v
    simp [hn] at hs
    obtain ⟨rfl, rfl⟩ := hs
    obtain ⟨a, b, c, d, e, f⟩ := filled_ok web t h w none (by simp) h1 ids
      (fun w' => fromString_ok web k t _ _ _ _ _ w' hn)
    refine ⟨c, by rw [setRules_owner]; exact d, ?_, fun p hp => keeps_places a p hp⟩
    have hr : ((h1.setRules h.ns ((h1.sheet h.ns).rules ++ ids)).sheet h.ns).rules = ids := by
      simp [Heap.setRules, e]
    rw [hr]
    exact f.mirrors

/-- C106: a sheet that is loaded has the rules of the text at its address. -/
theorem link_mirrors (web : Nat → Text) (h : Heap) (r : Reach web h) (k u : Nat) (h' : Heap)
    (s : Nat) (hs : parseUrl web k u h none = some (h', s)) :
    s < h'.ns ∧ (h'.sheet s).owner = none ∧ Mirrors web h' (web u) (h'.sheet s).rules ∧
    (∀ p, Exists h p → Exists h' p ∧ At h' p = At h p) := by
  have l := parseUrl_ok web _ _ _ _ _ _ hs (wf_reach web h r) (by simp)
  exact ⟨l.lt, l.owner, l.mirrors.mirrors, fun p hp => keeps_places l.keeps p hp⟩

/-- C106: `insert_rule` of a sheet, at an index that there is, puts the rules of the text there and
returns the index; the other places are as they were. -/
theorem sheet_insert_partial (web : Nat → Text) (h : Heap) (r : Reach web h) (k : Nat) (t : Text)
    (i : Int) (s : Nat) (h' : Heap) (j : Int) (hlt : s < h.ns) (h0 : 0 ≤ i)
    (hi : i ≤ (h.sheet s).rules.length) (hs : sheetInsert web k t i s h = some (h', j)) :
    j = i ∧ (∃ new, Mirrors web h' t new ∧ At h' (.sheet s) =
      (At h (.sheet s)).take i.toNat ++ new ++ (At h (.sheet s)).drop i.toNat) ∧
    ∀ p, Exists h p → p ≠ .sheet s → At h' p = At h p := by
  have w := wf_reach web h r
  unfold sheetInsert at hs
  cases hn : fromString web k t h (some s) (h.sheet s).owner with
  | none => simp [hn] at hs
  | some v =>
    obtain ⟨h1, ids⟩ := v
    simp [hn] at hs
    obtain ⟨rfl, rfl⟩ := hs
    have hp := fromString_ok web k t _ _ _ _ _ w hn
    have he := hp.keeps.sheet s hlt
    refine ⟨rfl, ⟨ids, ?_, ?_⟩, ?_⟩
    · refine (hp.mirrors.frame (h1.setRules s (splice (h1.sheet s).rules i ids)) (le_refl _) (le_refl _) (fun _ _ _ => rfl) ?_ h.nr h.ns (le_refl _)
        (le_refl _)).mirrors
      intro s' hs' _
      have : s' ≠ s := by omega
      simp [Heap.setRules, this]
    · have hpos : slicePos i (h.sheet s).rules.length = i.toNat := by
        unfold slicePos
        rw [if_neg (by omega)]
        omega
      simp [At, Heap.setRules, splice, he, hpos]
    · intro p hpe hne
      have := (keeps_places hp.keeps p hpe).2
      rw [← this]
      cases p with
      | sheet s' =>
        have : s' ≠ s := fun hh => hne (by rw [hh])
        simp [At, Heap.setRules, this]
      | group x => rfl

/-- C106: `insert_rule` of a `@media` rule, at an index that there is, puts the rules of the text
there and returns the index; the other places are as they were. -/
theorem group_insert_partial (web : Nat → Text) (h : Heap) (r : Reach web h) (k : Nat) (t : Text)
    (i : Int) (x : Nat) (h' : Heap) (j : Int) (hlt : x < h.nr) (h0 : 0 ≤ i)
    (hi : i ≤ (h.rule x).children.length) (hs : groupInsert web k t i x h = some (h', j)) :
    j = i ∧ (∃ new, Mirrors web h' t new ∧ At h' (.group x) =
      (At h (.group x)).take i.toNat ++ new ++ (At h (.group x)).drop i.toNat) ∧
    ∀ p, Exists h p → p ≠ .group x → At h' p = At h p := by
  have w := wf_reach web h r
  unfold groupInsert at hs
  cases hn : fromString web k t h (h.rule x).parentSheet (some x) with
  | none => simp [hn] at hs
  | some v =>
    obtain ⟨h1, ids⟩ := v
    simp [hn] at hs
    obtain ⟨rfl, rfl⟩ := hs
    have hp := fromString_ok web k t _ _ _ _ _ w hn
    have he := hp.keeps.rule x hlt
    refine ⟨rfl, ⟨ids, ?_, ?_⟩, ?_⟩
    · refine (hp.mirrors.frame (h1.setChildren x (splice (h1.rule x).children i ids)) (le_refl _) (le_refl _) ?_ (fun _ _ _ => rfl) h.nr h.ns (le_refl _)
        (le_refl _)).mirrors
      intro y hy _
      have : y ≠ x := by omega
      simp [Heap.setChildren, this]
    · have hpos : slicePos i (h.rule x).children.length = i.toNat := by
        unfold slicePos
        rw [if_neg (by omega)]
        omega
      simp [At, Heap.setChildren, splice, he, hpos]
    · intro p hpe hne
      have := (keeps_places hp.keeps p hpe).2
      rw [← this]
      cases p with
      | group y =>
        have : y ≠ x := fun hh => hne (by rw [hh])
        simp [At, Heap.setChildren, this]
      | sheet s => rfl

/-- What `delete_rule` does to a list: an index that there is goes, another one is an `IndexError`. -/
theorem delIndex_spec (l : List Nat) (i : Int) (h0 : 0 ≤ i) :
    (i < l.length → delIndex l i = .ok (l.take i.toNat ++ l.drop (i.toNat + 1))) ∧
    ((l.length : Int) ≤ i → delIndex l i = .error .indexError) := by
  constructor
  · intro hi
    unfold delIndex
    rw [if_pos ⟨h0, hi⟩, List.eraseIdx_eq_take_drop_succ]
  · intro hi
    unfold delIndex
    rw [if_neg (by omega), if_neg (by omega)]

/-- C106: `delete_rule` of a sheet takes out the rule at the index and nothing else; where there is no
such rule it is an `IndexError`. -/
theorem sheet_delete (h : Heap) (i : Int) (s : Nat) (h0 : 0 ≤ i) :
    (i < (h.sheet s).rules.length → ∃ h', sheetDelete i s h = .ok h' ∧
      At h' (.sheet s) = (At h (.sheet s)).take i.toNat ++ (At h (.sheet s)).drop (i.toNat + 1) ∧
      ∀ p, p ≠ .sheet s → At h' p = At h p) ∧
    (((h.sheet s).rules.length : Int) ≤ i → sheetDelete i s h = .error .indexError) := by
  obtain ⟨d1, d2⟩ := delIndex_spec (h.sheet s).rules i h0
  constructor
  · intro hi
    unfold sheetDelete
    rw [d1 hi]
    refine ⟨_, rfl, by simp [At, Heap.setRules], ?_⟩
    intro p hne
    cases p with
    | sheet s' =>
      have : s' ≠ s := fun hh => hne (by rw [hh])
      simp [At, Heap.setRules, this]
    | group x => rfl
  · intro hi
    unfold sheetDelete
    rw [d2 hi]

/-- C106: `delete_rule` of a `@media` rule takes out the rule at the index and nothing else; where
there is no such rule it is an `IndexError`. -/
theorem group_delete (h : Heap) (i : Int) (x : Nat) (h0 : 0 ≤ i) :
    (i < (h.rule x).children.length → ∃ h', groupDelete i x h = .ok h' ∧
      At h' (.group x) = (At h (.group x)).take i.toNat ++ (At h (.group x)).drop (i.toNat + 1) ∧
      ∀ p, p ≠ .group x → At h' p = At h p) ∧
    (((h.rule x).children.length : Int) ≤ i → groupDelete i x h = .error .indexError) := by
  obtain ⟨d1, d2⟩ := delIndex_spec (h.rule x).children i h0
  constructor
  · intro hi
    unfold groupDelete
    rw [d1 hi]
    refine ⟨_, rfl, by simp [At, Heap.setChildren], ?_⟩
    intro p hne
    cases p with
    | group y =>
      have : y ≠ x := fun hh => hne (by rw [hh])
      simp [At, Heap.setChildren, this]
    | sheet s => rfl
  · intro hi
    unfold groupDelete
    rw [d2 hi]

/-! ### Loading ends exactly when no sheet imports itself -/

theorem parseRules_mono (f g : Nat → Heap → Nat → Option (Heap × Nat))
    (hfg : ∀ u h x r, f u h x = some r → g u h x = some r) :
    ∀ (t : Text) (h : Heap) (ps pr : Option Nat) (r : Heap × List Nat),
      parseRules f t h ps pr = some r → parseRules g t h ps pr = some r := by
  intro t
  induction t with
  | nil => intro h ps pr r hr; exact hr
  | skipped next ih => intro h ps pr r hr; exact ih h ps pr r hr
  | leaf k next ih =>
    intro h ps pr r hr
    simp only [parseRules] at hr ⊢
    cases hn : parseRules f next (h.newRule (.leaf k) ps pr) ps pr with
    | none => simp [hn] at hr
    | some v => rw [ih _ _ _ _ hn]; simpa [hn] using hr
  | media content next ih1 ih2 =>
    intro h ps pr r hr
    simp only [parseRules] at hr ⊢
    cases hn : parseRules f content (h.newRule .media ps pr) ps (some h.nr) with
    | none => simp [hn] at hr
    | some v =>
      obtain ⟨h1, cs⟩ := v
      rw [ih1 _ _ _ _ hn]
      simp only [hn] at hr ⊢
      cases hm : parseRules f next (h1.setChildren h.nr cs) ps pr with
      | none => simp [hm] at hr
      | some v => rw [ih2 _ _ _ _ hm]; simpa [hm] using hr
  | importRule u next ih =>
    intro h ps pr r hr
    cases u with
    | none =>
      simp only [parseRules] at hr ⊢
      cases hn : parseRules f next
          (((h.newRule .importRule ps pr).newSheet (some h.nr)).setSheet h.nr h.ns) ps pr with
      | none => simp [hn] at hr
      | some v => rw [ih _ _ _ _ hn]; simpa [hn] using hr
    | some u =>
      simp only [parseRules] at hr ⊢
      cases hn : f u (h.newRule .importRule ps pr) h.nr with
      | none => simp [hn] at hr
      | some v =>
        obtain ⟨h1, s⟩ := v
        rw [hfg _ _ _ _ hn]
        simp only [hn] at hr ⊢
        cases hm : parseRules f next (h1.setSheet h.nr s) ps pr with
        | none => simp [hm] at hr
        | some v => rw [ih _ _ _ _ hm]; simpa [hm] using hr

theorem parseUrl_succ (web : Nat → Text) : ∀ (k u : Nat) (h : Heap) (o : Option Nat) (r : Heap × Nat),
    parseUrl web k u h o = some r → parseUrl web (k + 1) u h o = some r
  | 0, _, _, _, _, hr => by simp [parseUrl] at hr
  | k + 1, u, h, o, r, hr => by
    unfold parseUrl at hr ⊢
    cases hn : parseRules (fun u h x => parseUrl web k u h (some x)) (web u) (h.newSheet o)
        (some h.ns) o with
    | none => simp [hn] at hr
    | some v =>
      rw [parseRules_mono _ _ (fun u h x r hh => parseUrl_succ web k u h (some x) r hh) _ _ _ _ _ hn]
      simpa [hn] using hr

theorem parseUrl_le (web : Nat → Text) {k l : Nat} (hkl : k ≤ l) (u : Nat) (h : Heap) (o : Option Nat)
    (r : Heap × Nat) (hr : parseUrl web k u h o = some r) : parseUrl web l u h o = some r := by
  induction hkl with
  | refl => exact hr
  | step _ ih => exact parseUrl_succ web _ _ _ _ _ ih

theorem parseRules_ends (web : Nat → Text) : ∀ (t : Text),
    (∀ v, ImportedBy v t → ∃ k, ∀ h o, ∃ r, parseUrl web k v h o = some r) →
    ∃ k, ∀ h ps pr, ∃ r, parseRules (fun u h x => parseUrl web k u h (some x)) t h ps pr = some r := by
  intro t
  have mono : ∀ {k l : Nat}, k ≤ l → ∀ t h ps pr r,
      parseRules (fun u h x => parseUrl web k u h (some x)) t h ps pr = some r →
      parseRules (fun u h x => parseUrl web l u h (some x)) t h ps pr = some r :=
    fun hkl t h ps pr r hr => parseRules_mono _ _
      (fun u h x r hh => parseUrl_le web hkl u h (some x) r hh) t h ps pr r hr
  induction t with
  | nil => intro _; exact ⟨0, fun h ps pr => ⟨_, rfl⟩⟩
  | skipped next ih =>
    intro hv
    obtain ⟨k, hk⟩ := ih (fun v hi => hv v (.afterSkipped hi))
    exact ⟨k, fun h ps pr => hk h ps pr⟩
  | leaf kd next ih =>
    intro hv
    obtain ⟨k, hk⟩ := ih (fun v hi => hv v (.afterLeaf hi))
    refine ⟨k, fun h ps pr => ?_⟩
    obtain ⟨r, hr⟩ := hk (h.newRule (.leaf kd) ps pr) ps pr
    exact ⟨(r.1, h.nr :: r.2), by simp only [parseRules]; rw [hr]⟩
  | media content next ih1 ih2 =>
    intro hv
    obtain ⟨k, hk⟩ := ih1 (fun v hi => hv v (.inside hi))
    obtain ⟨l, hl⟩ := ih2 (fun v hi => hv v (.afterMedia hi))
    refine ⟨max k l, fun h ps pr => ?_⟩
    obtain ⟨r, hr⟩ := hk (h.newRule .media ps pr) ps (some h.nr)
    obtain ⟨r', hr'⟩ := hl (r.1.setChildren h.nr r.2) ps pr
    have hr := mono (Nat.le_max_left k l) _ _ _ _ _ hr
    have hr' := mono (Nat.le_max_right k l) _ _ _ _ _ hr'
    exact ⟨(r'.1, h.nr :: r'.2), by simp only [parseRules]; rw [hr]; simp only []; rw [hr']⟩
  | importRule u next ih =>
    intro hv
    obtain ⟨l, hl⟩ := ih (fun v hi => hv v (.afterImport hi))
    cases u with
    | none =>
      refine ⟨l, fun h ps pr => ?_⟩
      obtain ⟨r, hr⟩ := hl
        (((h.newRule .importRule ps pr).newSheet (some h.nr)).setSheet h.nr h.ns) ps pr
      exact ⟨(r.1, h.nr :: r.2), by simp only [parseRules]; rw [hr]⟩
    | some u =>
      obtain ⟨k, hk⟩ := hv u .here
      refine ⟨max k l, fun h ps pr => ?_⟩
      obtain ⟨r, hr⟩ := hk (h.newRule .importRule ps pr) (some h.nr)
      obtain ⟨r', hr'⟩ := hl (r.1.setSheet h.nr r.2) ps pr
      have hr := parseUrl_le web (Nat.le_max_left k l) _ _ _ _ hr
      have hr' := mono (Nat.le_max_right k l) _ _ _ _ _ hr'
      exact ⟨(r'.1, h.nr :: r'.2), by simp only [parseRules]; rw [hr]; simp only []; rw [hr']⟩

theorem parseRules_imports (f : Nat → Heap → Nat → Option (Heap × Nat)) : ∀ (t : Text) (h : Heap)
    (ps pr : Option Nat) (r : Heap × List Nat), parseRules f t h ps pr = some r →
    ∀ v, ImportedBy v t → ∃ h x r, f v h x = some r := by
  intro t
  induction t with
  | nil => intro h ps pr r _ v hv; cases hv
  | skipped next ih =>
    intro h ps pr r hr v hv
    cases hv with
    | afterSkipped hv => exact ih h ps pr r hr v hv
  | leaf k next ih =>
    intro h ps pr r hr v hv
    cases hv with
    | afterLeaf hv =>
      simp only [parseRules] at hr
      cases hn : parseRules f next (h.newRule (.leaf k) ps pr) ps pr with
      | none => simp [hn] at hr
      | some w => exact ih _ _ _ _ hn v hv
  | media content next ih1 ih2 =>
    intro h ps pr r hr v hv
    simp only [parseRules] at hr
    cases hn : parseRules f content (h.newRule .media ps pr) ps (some h.nr) with
    | none => simp [hn] at hr
    | some w =>
      obtain ⟨h1, cs⟩ := w
      cases hv with
      | inside hv => exact ih1 _ _ _ _ hn v hv
      | afterMedia hv =>
        simp only [hn] at hr
        cases hm : parseRules f next (h1.setChildren h.nr cs) ps pr with
        | none => simp [hm] at hr
        | some w => exact ih2 _ _ _ _ hm v hv
  | importRule u next ih =>
    intro h ps pr r hr v hv
    cases u with
    | none =>
      simp only [parseRules] at hr
      cases hn : parseRules f next
          (((h.newRule .importRule ps pr).newSheet (some h.nr)).setSheet h.nr h.ns) ps pr with
      | none => simp [hn] at hr
      | some w =>
        cases hv with
        | afterImport hv => exact ih _ _ _ _ hn v hv
    | some u =>
      simp only [parseRules] at hr
      cases hn : f u (h.newRule .importRule ps pr) h.nr with
      | none => simp [hn] at hr
      | some w =>
        obtain ⟨h1, s⟩ := w
        cases hv with
        | here => exact ⟨_, _, _, hn⟩
        | afterImport hv =>
          simp only [hn] at hr
          cases hm : parseRules f next (h1.setSheet h.nr s) ps pr with
          | none => simp [hm] at hr
          | some w => exact ih _ _ _ _ hm v hv

/-- C106: loading a sheet ends if no sheet behind it imports itself, directly or through others. -/
theorem load_ends (web : Nat → Text) (u : Nat) (hu : Acc (fun v u => ImportedBy v (web u)) u) :
    ∃ k, ∀ h o, ∃ r, parseUrl web k u h o = some r := by
  induction hu with
  | intro u _ ih =>
    obtain ⟨k, hk⟩ := parseRules_ends web (web u) (fun v hv => ih v hv)
    refine ⟨k + 1, fun h o => ?_⟩
    obtain ⟨r, hr⟩ := hk (h.newSheet o) (some h.ns) o
    exact ⟨_, by unfold parseUrl; rw [hr]⟩

/-- C106: if loading a sheet ends, no sheet behind it imports itself: otherwise the program recurses
without end. -/
theorem load_acyclic (web : Nat → Text) : ∀ (k u : Nat) (h : Heap) (o : Option Nat) (r : Heap × Nat),
    parseUrl web k u h o = some r → Acc (fun v u => ImportedBy v (web u)) u
  | 0, _, _, _, _, hr => by simp [parseUrl] at hr
  | k + 1, u, h, o, r, hr => by
    refine ⟨_, fun v hv => ?_⟩
    unfold parseUrl at hr
    cases hn : parseRules (fun u h x => parseUrl web k u h (some x)) (web u) (h.newSheet o)
        (some h.ns) o with
    | none => simp [hn] at hr
    | some w =>
      obtain ⟨h', x, r', hr'⟩ := parseRules_imports _ _ _ _ _ _ hn v hv
      exact load_acyclic web k v h' (some x) r' hr'

/-! ### Examples -/

/-- Two sheets; the first one imports the second. -/
def web2 : Nat → Text
  | 0 => .importRule (some 1) (.media (.leaf .style .nil) (.skipped (.leaf .fontFace .nil)))
  | _ => .leaf .style .nil

/-- The store after loading the first sheet. -/
def loaded : Option (Heap × Nat) := parseUrl web2 2 0 empty none

example : loaded.map (fun p => (p.1.nr, p.1.ns, p.2, (p.1.sheet 0).rules, (p.1.sheet 1).rules,
    (p.1.rule 2).children)) = some (5, 2, 0, [0, 2, 4], [1], [3]) := rfl

example : ∃ h, Reach web2 h ∧ (h.sheet 0).rules = [0, 2, 4] ∧ h.ns = 2 := by
  have hl : ∃ p, parseUrl web2 2 0 empty none = some p ∧ (p.1.sheet 0).rules = [0, 2, 4] ∧
      p.1.ns = 2 := ⟨_, rfl, rfl, rfl⟩
  obtain ⟨⟨h, s⟩, h1, h2, h3⟩ := hl
  exact ⟨h, .step .empty (.link h1), h2, h3⟩

example : Acc (fun v u => ImportedBy v (web2 u)) 0 := by
  have hl : ∃ p, parseUrl web2 2 0 empty none = some p := ⟨_, rfl⟩
  obtain ⟨p, hp⟩ := hl
  exact load_acyclic web2 2 0 empty none p hp

/-- A rule is put between two others, and another one into the `@media` rule. -/
example : ∃ p, parseUrl web2 2 0 empty none = some p ∧ 0 < p.1.ns ∧
    (∃ q, sheetInsert web2 1 (.leaf .style .nil) 1 0 p.1 = some q ∧
      At q.1 (.sheet 0) = [0, 5, 2, 4] ∧ (q.1.rule 5).parentSheet = some 0) ∧
    ∃ q, groupInsert web2 1 (.leaf .style .nil) 0 2 p.1 = some q ∧
      At q.1 (.group 2) = [5, 3] ∧ (q.1.rule 5).parentRule = some 2 :=
  ⟨_, rfl, by decide, ⟨_, rfl, rfl, rfl⟩, ⟨_, rfl, rfl, rfl⟩⟩

/-! ### Where it goes wrong -/

/-- C106: the rules at the top of an imported sheet have the `@import` rule as `parent_rule`, though
they do not stand inside of it. -/
theorem imported_parent_violated : ∃ (web : Nat → Text) (h : Heap), Reach web h ∧
    ∃ s c, s < h.ns ∧ c ∈ At h (.sheet s) ∧ (h.rule c).parentRule ≠ ruleOf (.sheet s) := by
  have hl : ∃ p, parseUrl web2 2 0 empty none = some p ∧ p.1.ns = 2 ∧ (p.1.sheet 1).rules = [1] ∧
      (p.1.rule 1).parentRule = some 0 := ⟨_, rfl, rfl, rfl, rfl⟩
  obtain ⟨⟨h, s⟩, h1, h2, h3, h4⟩ := hl
  refine ⟨web2, h, .step .empty (.link h1), 1, 1, by simp at h2; omega, ?_, ?_⟩
  · simp only [At]; rw [h3]; simp
  · rw [h4]; simp [ruleOf]

/-- C106: an index behind the end is accepted and returned, though the rule stands elsewhere. -/
theorem insert_index_violated : ∃ h h', Reach web2 h ∧ 0 < h.ns ∧
    sheetInsert web2 1 (.leaf .style .nil) 7 0 h = some (h', 7) ∧ (At h' (.sheet 0)).length = 1 := by
  have hl : ∃ p, styleElement web2 1 .nil empty = some p ∧ p.1.ns = 1 ∧
      ∃ h', sheetInsert web2 1 (.leaf .style .nil) 7 0 p.1 = some (h', 7) ∧
        (At h' (.sheet 0)).length = 1 := ⟨_, rfl, rfl, _, rfl, rfl⟩
  obtain ⟨⟨h, s⟩, h1, h2, h', h3, h4⟩ := hl
  exact ⟨h, h', .step .empty (.style h1), by simp at h2; omega, h3, h4⟩

/-- C106: a text without a rule is accepted; nothing is inserted, and an index is returned where no
rule is. -/
theorem insert_nothing_violated : ∃ h h', Reach web2 h ∧ 0 < h.ns ∧
    sheetInsert web2 1 (.skipped .nil) 0 0 h = some (h', 0) ∧ At h' (.sheet 0) = [] := by
  have hl : ∃ p, styleElement web2 1 .nil empty = some p ∧ p.1.ns = 1 ∧
      ∃ h', sheetInsert web2 1 (.skipped .nil) 0 0 p.1 = some (h', 0) ∧
        At h' (.sheet 0) = [] := ⟨_, rfl, rfl, _, rfl, rfl⟩
  obtain ⟨⟨h, s⟩, h1, h2, h', h3, h4⟩ := hl
  exact ⟨h, h', .step .empty (.style h1), by simp at h2; omega, h3, h4⟩

/-- C106: a rule that has been deleted keeps its `parent_style_sheet`, where it does not stand any
more. -/
theorem deleted_parent_violated : ∃ h h', Reach web2 h ∧ 0 < h.ns ∧ At h (.sheet 0) = [0] ∧
    sheetDelete 0 0 h = .ok h' ∧ At h' (.sheet 0) = [] ∧ (h'.rule 0).parentSheet = some 0 := by
  have hl : ∃ p, styleElement web2 1 (.leaf .style .nil) empty = some p ∧ p.1.ns = 1 ∧
      At p.1 (.sheet 0) = [0] ∧ ∃ h', sheetDelete 0 0 p.1 = .ok h' ∧
        At h' (.sheet 0) = [] ∧ (h'.rule 0).parentSheet = some 0 := ⟨_, rfl, rfl, rfl, _, rfl, rfl, rfl⟩
  obtain ⟨⟨h, s⟩, h1, h2, h3, h', h4, h5, h6⟩ := hl
  exact ⟨h, h', .step .empty (.style h1), by simp at h2; omega, h3, h4, h5, h6⟩

/-- C106: a sheet that imports itself makes the program recurse without end. -/
theorem import_cycle_violated : ∃ web : Nat → Text, ∀ k h o, parseUrl web k 0 h o = none := by
  refine ⟨fun _ => .importRule (some 0) .nil, fun k => ?_⟩
  induction k with
  | zero => intro h o; rfl
  | succ k ih =>
    intro h o
    unfold parseUrl
    simp [parseRules, ih]

end SvgPy.CssTree
