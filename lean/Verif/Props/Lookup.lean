import Verif.Model.Lookup
import Verif.Lemmas.PyStr
import Mathlib.Tactic.Tauto

/-!
C104: lookups by id, class and name.
-/

set_option linter.unusedSimpArgs false
set_option linter.unusedVariables false

namespace SvgPy.Lookup

/-! ### Specification -/

namespace Spec

/-- The child with the given index, if it is an element. -/
def child : Nodes → Nat → Option (Info × Nodes)
  | .nil, _ => none
  | .elem a ch _, 0 => some (a, ch)
  | .elem _ _ next, i + 1 => child next i
  | .other _, 0 => none
  | .other next, i + 1 => child next i

/-- The path leads from the element to an element with the given properties: either it is empty, or
its first index is that of a child from which the rest leads on. -/
inductive At : Info → Nodes → List Nat → Info → Prop
  | here (a : Info) (ch : Nodes) : At a ch [] a
  | down (a b x : Info) (ch ch' : Nodes) (i : Nat) (p : List Nat) :
      child ch i = some (b, ch') → At b ch' p x → At a ch (i :: p) x

/-- Document order: an element comes before those below it, and before those in or below later
siblings. -/
inductive Before : List Nat → List Nat → Prop
  | above (i : Nat) (p : List Nat) : Before [] (i :: p)
  | earlier (i j : Nat) (p q : List Nat) : i < j → Before (i :: p) (j :: q)
  | inside (i : Nat) (p q : List Nat) : Before p q → Before (i :: p) (i :: q)

/-- The list has, in document order and once each, exactly the elements below the root (and
the root, if `incl`) with the given property. -/
structure Found (incl : Bool) (r : Root) (P : Info → Prop) (l : List (List Nat)) : Prop where
  exact : ∀ p, p ∈ l ↔ (incl = false → p ≠ []) ∧ ∃ a, At r.info r.children p a ∧ P a
  order : l.Pairwise Before

end Spec
open Spec

/-! ### The axes -/

theorem at_fun {a : Info} {ch : Nodes} {p : List Nat} {x y : Info} (h : At a ch p x) (h' : At a ch p y) :
    x = y := by
  induction h with
  | here => cases h'; rfl
  | down a b x ch ch' i p hc _ ih =>
    cases h' with
    | down _ b' _ _ ch'' _ _ hc' h'' =>
      rw [hc] at hc'
      cases hc'
      exact ih h''

theorem before_append (p : List Nat) {q r : List Nat} (h : Before q r) : Before (p ++ q) (p ++ r) := by
  induction p with
  | nil => exact h
  | cons i p ih => exact Before.inside i _ _ ih

/-- Paths of `below` lead, after the path of the parent, to the elements. -/
theorem mem_below (t : Nodes) (p : List Nat) (i : Nat) (q : List Nat) (x : Info) :
    (q, x) ∈ below p i t ↔ ∃ j s b ch', q = p ++ (i + j) :: s ∧ child t j = some (b, ch') ∧ At b ch' s x := by
  induction t generalizing p i with
  | nil => simp [below, child]
  | elem a ch next ih1 ih2 =>
    simp only [below, List.mem_cons, List.mem_append, ih1, ih2, Prod.mk.injEq]
    constructor
    · rintro (⟨rfl, rfl⟩ | ⟨j, s, b, ch', rfl, hc, ha⟩ | ⟨j, s, b, ch', rfl, hc, ha⟩)
      · exact ⟨0, [], _, ch, rfl, rfl, At.here _ _⟩
      · exact ⟨0, j :: s, a, ch, by simp, rfl, At.down _ _ _ _ _ _ _ hc ha⟩
      · exact ⟨j + 1, s, b, ch', by rw [show i + (j + 1) = i + 1 + j by omega], hc, ha⟩
    · rintro ⟨j, s, b, ch', rfl, hc, ha⟩
      cases j with
      | zero =>
        simp only [child, Option.some.injEq, Prod.mk.injEq] at hc
        obtain ⟨rfl, rfl⟩ := hc
        cases ha with
        | here => left; exact ⟨rfl, rfl⟩
        | down _ b' _ _ ch'' k s' hc' ha' =>
          right; left
          exact ⟨k, s', b', ch'', by simp, hc', ha'⟩
      | succ j =>
        right; right
        exact ⟨j, s, b, ch', by rw [show i + (j + 1) = i + 1 + j by omega], hc, ha⟩
  | other next ih =>
    simp only [below, ih]
    constructor
    · rintro ⟨j, s, b, ch', rfl, hc, ha⟩
      exact ⟨j + 1, s, b, ch', by rw [show i + (j + 1) = i + 1 + j by omega], hc, ha⟩
    · rintro ⟨j, s, b, ch', rfl, hc, ha⟩
      cases j with
      | zero => simp [child] at hc
      | succ j => exact ⟨j, s, b, ch', by rw [show i + (j + 1) = i + 1 + j by omega], hc, ha⟩

theorem below_order (t : Nodes) (p : List Nat) (i : Nat) :
    (below p i t).Pairwise (fun a b => Before a.1 b.1) := by
  induction t generalizing p i with
  | nil => simp [below]
  | elem a ch next ih1 ih2 =>
    simp only [below, List.pairwise_cons, List.pairwise_append, List.mem_append]
    refine ⟨?_, ih1 _ _, ih2 _ _, ?_⟩
    · rintro ⟨q, x⟩ (h | h)
      · obtain ⟨j, s, b, ch', rfl, -, -⟩ := (mem_below _ _ _ _ _).mp h
        have := before_append (p ++ [i]) (Before.above (0 + j) s)
        simpa using this
      · obtain ⟨j, s, b, ch', rfl, -, -⟩ := (mem_below _ _ _ _ _).mp h
        exact before_append p (Before.earlier _ _ _ _ (by omega))
    · rintro ⟨q, x⟩ h ⟨q', x'⟩ h'
      obtain ⟨j, s, b, ch', rfl, -, -⟩ := (mem_below _ _ _ _ _).mp h
      obtain ⟨j', s', b', ch'', rfl, -, -⟩ := (mem_below _ _ _ _ _).mp h'
      have := before_append p (Before.earlier i (i + 1 + j') ((0 + j) :: s) s' (by omega))
      simpa using this
  | other next ih => exact ih _ _

theorem mem_axis (self : Bool) (r : Root) (q : List Nat) (x : Info) :
    (q, x) ∈ axis self r ↔ (self = false → q ≠ []) ∧ At r.info r.children q x := by
  have key : (q, x) ∈ below [] 0 r.children ↔ q ≠ [] ∧ At r.info r.children q x := by
    rw [mem_below]
    constructor
    · rintro ⟨j, s, b, ch', rfl, hc, ha⟩
      refine ⟨by simp, ?_⟩
      simp only [List.nil_append, Nat.zero_add]
      exact At.down _ _ _ _ _ _ _ hc ha
    · rintro ⟨hne, ha⟩
      cases ha with
      | here => exact absurd rfl hne
      | down _ b _ _ ch' i p hc ha => exact ⟨i, p, b, ch', by simp, hc, ha⟩
  cases self with
  | false => simp [axis, key]
  | true =>
    simp only [axis, if_true, List.mem_cons, key, Prod.mk.injEq]
    constructor
    · rintro (⟨rfl, rfl⟩ | ⟨_, h⟩)
      · exact ⟨by simp, At.here _ _⟩
      · exact ⟨by simp, h⟩
    · rintro ⟨_, h⟩
      cases h with
      | here => left; exact ⟨rfl, rfl⟩
      | down _ b _ _ ch' i p hc ha => right; exact ⟨by simp, At.down _ _ _ _ _ _ _ hc ha⟩

theorem axis_order (self : Bool) (r : Root) : (axis self r).Pairwise (fun a b => Before a.1 b.1) := by
  cases self with
  | false => exact below_order _ _ _
  | true =>
    simp only [axis, if_true, List.pairwise_cons]
    refine ⟨?_, below_order _ _ _⟩
    rintro ⟨q, x⟩ h
    obtain ⟨j, s, b, ch', rfl, -, -⟩ := (mem_below _ _ _ _ _).mp h
    exact Before.above _ _

theorem xpath_found (self : Bool) (test : Info → Bool) (P : Info → Prop) (r : Root)
    (h : ∀ p a, At r.info r.children p a → (test a = true ↔ P a)) :
    Found self r P (xpath self test r) := by
  constructor
  · intro p
    simp only [xpath, List.mem_map, List.mem_filter]
    constructor
    · rintro ⟨⟨q, x⟩, ⟨hm, ht⟩, rfl⟩
      obtain ⟨h1, h2⟩ := (mem_axis _ _ _ _).mp hm
      exact ⟨h1, x, h2, (h q x h2).mp ht⟩
    · rintro ⟨h1, x, h2, hp⟩
      exact ⟨(p, x), ⟨(mem_axis _ _ _ _).mpr ⟨h1, h2⟩, (h p x h2).mpr hp⟩, rfl⟩
  · unfold xpath
    rw [List.pairwise_map]
    exact (axis_order self r).filter _

theorem before_asymm {p q : List Nat} (h : Before p q) : ¬ Before q p := by
  induction h with
  | above i p => intro h; cases h
  | earlier i j p q hij =>
    intro h
    cases h with
    | earlier _ _ _ _ h => omega
    | inside _ _ _ h => omega
  | inside i p q h ih =>
    intro h'
    cases h' with
    | earlier _ _ _ _ h => omega
    | inside _ _ _ h => exact ih h

/-- The elements and the document order determine the list. -/
theorem found_unique (incl : Bool) (r : Root) (P : Info → Prop) (l l' : List (List Nat))
    (h : Found incl r P l) (h' : Found incl r P l') : l = l' := by
  have nodup : ∀ l : List (List Nat), l.Pairwise Before → l.Nodup := by
    intro l hl
    refine hl.imp ?_
    rintro a b hab rfl
    exact before_asymm hab hab
  have hp : l.Perm l' := (List.perm_ext_iff_of_nodup (nodup l h.order) (nodup l' h'.order)).mpr
    (fun p => (h.exact p).trans (h'.exact p).symm)
  exact hp.eq_of_pairwise (fun a b _ _ h1 h2 => absurd h2 (before_asymm h1)) h.order h'.order

/-! ### Names and ids -/

/-- By qualified name: the elements with this name as written in the document, or all for `*`. -/
theorem by_tag_name (self : Bool) (q : Str) (r : Root) :
    Found self r (fun a => q = "*".toList ∨
      (a.pfx = none ∧ a.name = q) ∨ ∃ p, a.pfx = some p ∧ q = p ++ ":".toList ++ a.name)
      (byTagName self q r) := by
  unfold byTagName
  split
  · rename_i h
    refine xpath_found _ _ _ _ ?_
    intro p a _
    simp [h]
  · rename_i h
    refine xpath_found _ _ _ _ ?_
    intro p a _
    have h' : ¬ q = "*".toList := h
    simp only [h', false_or, beq_iff_eq, qname]
    cases a.pfx with
    | none => simp
    | some p' =>
      simp only [reduceCtorEq, false_and, false_or, Option.some.injEq, exists_eq_left']
      rw [eq_comm]
      simp

/-- By local name. -/
theorem by_local_name (l : Str) (r : Root) :
    Found false r (fun a => a.name = l) (byLocalName l r) :=
  xpath_found _ _ _ _ (by intro p a _; simp)

/-- By namespace and local name, where the namespace is a text: `*` stands for all namespaces and
all names, and the empty text for elements without namespace. Missing for the full claim: `None`,
which the code does not take for elements without namespace (see below). -/
theorem by_tag_name_ns_partial (self : Bool) (ns l : Str) (r : Root) (hns : ∀ p a, At r.info r.children p a → a.ns ≠ some []) :
    Found self r (fun a => (ns = "*".toList ∨ a.ns = some ns ∨ (ns = [] ∧ a.ns = none)) ∧
      (l = "*".toList ∨ a.name = l)) (byTagNameNs self (some ns) l r) := by
  refine xpath_found _ _ _ _ ?_
  intro p a ha
  have := hns p a ha
  have e : "*".toList = ['*'] := rfl
  simp only [Bool.and_eq_true, Bool.or_eq_true, beq_iff_eq, e]
  cases hn : a.ns with
  | none => simp [eq_comm]
  | some n =>
    rw [hn] at this
    simp

/-- By id: the first element in document order with this id, or nothing if there is none. -/
theorem by_id (id : Str) (r : Root) :
    (∀ p, byId id r = some p → (∃ a, At r.info r.children p a ∧ a.id = some id) ∧
      ∀ q a, At r.info r.children q a → a.id = some id → q = p ∨ Before p q) ∧
    (byId id r = none → ∀ q a, At r.info r.children q a → a.id ≠ some id) := by
  have hf := xpath_found true (fun a => a.id == some id) (fun a => a.id = some id) r
    (by intro p a _; simp)
  unfold byId
  generalize hl : xpath true (fun a => a.id == some id) r = l at hf
  have hm : ∀ q, q ∈ l ↔ ∃ a, At r.info r.children q a ∧ a.id = some id := by
    intro q; rw [hf.exact q]; simp
  cases l with
  | nil =>
    refine ⟨by simp, ?_⟩
    intro _ q a ha hid
    have := (hm q).mpr ⟨a, ha, hid⟩
    simp at this
  | cons p l =>
    refine ⟨?_, by simp⟩
    intro p' hp'
    simp at hp'
    subst hp'
    refine ⟨(hm p).mp (by simp), ?_⟩
    intro q a ha hid
    rcases List.mem_cons.mp ((hm q).mpr ⟨a, ha, hid⟩) with h | h
    · exact Or.inl h
    · exact Or.inr ((List.pairwise_cons.mp hf.order).1 q h)

/-! ### Classes -/

/-- The text begins with white space. -/
def HeadSp (s : Str) : Prop := ∃ x s', s = x :: s' ∧ PyStr.isSpace x = true

/-- The text ends with white space. -/
def LastSp (s : Str) : Prop := ∃ x s', s = s' ++ [x] ∧ PyStr.isSpace x = true

/-- A word of a text. -/
def Word (t s : Str) : Prop :=
  t ≠ [] ∧ (∀ x ∈ t, PyStr.isSpace x = false) ∧
    ∃ u v, s = u ++ t ++ v ∧ (u = [] ∨ LastSp u) ∧ (v = [] ∨ HeadSp v)

theorem noSp_last {u : Str} (h : ∀ x ∈ u, PyStr.isSpace x = false) : ¬ LastSp u := by
  rintro ⟨x, s', rfl, hx⟩
  have := h x (by simp)
  simp [hx] at this

theorem noSp_head {u : Str} (h : ∀ x ∈ u, PyStr.isSpace x = false) : ¬ HeadSp u := by
  rintro ⟨x, s', rfl, hx⟩
  have := h x (by simp)
  simp [hx] at this

theorem mem_splitWsAux (t s acc : Str) (hacc : ∀ x ∈ acc, PyStr.isSpace x = false) :
    t ∈ PyStr.splitWsAux acc s ↔ Word t (acc.reverse ++ s) := by
  induction s generalizing acc with
  | nil =>
    simp only [PyStr.splitWsAux, List.append_nil]
    have hrev : ∀ x ∈ acc.reverse, PyStr.isSpace x = false := by simpa using hacc
    constructor
    · split
      · simp
      · rename_i he
        intro h
        simp at h
        subst h
        refine ⟨by simpa using he, hrev, [], [], by simp, Or.inl rfl, Or.inl rfl⟩
    · rintro ⟨hne, hsp, u, v, he, hu, hv⟩
      have hu' : u = [] := by
        rcases hu with h | h
        · exact h
        · exact absurd h (noSp_last (fun x hx => hrev x (by rw [he]; simp [hx])))
      have hv' : v = [] := by
        rcases hv with h | h
        · exact h
        · exact absurd h (noSp_head (fun x hx => hrev x (by rw [he]; simp [hx])))
      subst hu' hv'
      simp at he
      split
      · rename_i h
        simp at h
        subst h
        simp at he
        exact absurd he.symm (by simpa using hne)
      · simp [he]
  | cons x s ih =>
    have hrev : ∀ x ∈ acc.reverse, PyStr.isSpace x = false := by simpa using hacc
    simp only [PyStr.splitWsAux]
    by_cases hx : PyStr.isSpace x = true
    · rw [if_pos hx]
      have hrest := ih [] (by simp)
      simp only [List.reverse_nil, List.nil_append] at hrest
      have main : Word t (acc.reverse ++ x :: s) ↔ (acc ≠ [] ∧ t = acc.reverse) ∨ Word t s := by
        constructor
        · rintro ⟨hne, hsp, u, v, he, hu, hv⟩
          rw [List.append_assoc, List.append_eq_append_iff] at he
          rcases he with ⟨w, hw1, hw2⟩ | ⟨w, hw1, hw2⟩
          · -- u = acc.reverse ++ w, x :: s = w ++ (t ++ v)
            cases w with
            | nil =>
              simp at hw1 hw2
              -- t ++ v = x :: s, impossible
              cases t with
              | nil => exact absurd rfl hne
              | cons y t =>
                simp at hw2
                have := hsp y (by simp)
                rw [← hw2.1, hx] at this
                simp at this
            | cons y w =>
              simp at hw2
              right
              refine ⟨hne, hsp, w, v, by rw [hw2.2, List.append_assoc], ?_, hv⟩
              by_cases hwn : w = []
              · exact Or.inl hwn
              · right
                rcases hu with h | h
                · subst h; simp at hw1
                · obtain ⟨z, s', h1, h2⟩ := h
                  obtain ⟨w', z', rfl⟩ : ∃ w' z', w = w' ++ [z'] :=
                    ⟨w.dropLast, w.getLast hwn, (List.dropLast_append_getLast hwn).symm⟩
                  have e : (acc.reverse ++ y :: w') ++ [z'] = s' ++ [z] := by
                    rw [← h1, hw1]; simp
                  have hz : z' = z := by simpa using List.append_inj_right' e rfl
                  exact ⟨z', w', rfl, hz ▸ h2⟩
          · -- acc.reverse = u ++ w, t ++ v = w ++ x :: s
            left
            have hu' : u = [] := by
              rcases hu with h | h
              · exact h
              · exact absurd h (noSp_last (fun y hy => hrev y (by rw [hw1]; simp [hy])))
            subst hu'
            simp at hw1
            subst hw1
            rw [List.append_eq_append_iff] at hw2
            rcases hw2 with ⟨z, hz1, hz2⟩ | ⟨z, hz1, hz2⟩
            · -- acc.reverse = t ++ z, v = z ++ x :: s
              have hz : z = [] := by
                rcases hv with h | h
                · subst h; simp at hz2
                · cases z with
                  | nil => rfl
                  | cons y z =>
                    obtain ⟨y', v', h1, h2⟩ := h
                    rw [hz2] at h1
                    simp at h1
                    have := hrev y (by rw [hz1]; simp)
                    rw [h1.1, h2] at this
                    simp at this
              subst hz
              simp at hz1
              refine ⟨?_, hz1.symm⟩
              rintro rfl
              simp at hz1
              exact hne hz1
            · -- t = acc.reverse ++ z, x :: s = z ++ v
              cases z with
              | nil =>
                simp at hz1
                refine ⟨?_, hz1⟩
                rintro rfl
                simp at hz1
                exact hne hz1
              | cons y z =>
                simp at hz2
                have := hsp y (by rw [hz1]; simp)
                rw [← hz2.1, hx] at this
                simp at this
        · rintro (⟨hne, rfl⟩ | ⟨hne, hsp, u, v, rfl, hu, hv⟩)
          · exact ⟨by simpa using hne, hrev, [], x :: s, by simp, Or.inl rfl, Or.inr ⟨x, s, rfl, hx⟩⟩
          · refine ⟨hne, hsp, acc.reverse ++ x :: u, v, by simp, Or.inr ?_, hv⟩
            rcases hu with rfl | ⟨z, u', rfl, hz⟩
            · exact ⟨x, acc.reverse, by simp, hx⟩
            · exact ⟨z, acc.reverse ++ x :: u', by simp, hz⟩
      rw [main]
      split
      · rename_i h
        simp at h
        subst h
        simp [hrest]
      · rename_i h
        simp at h
        simp [hrest, h]
    · rw [if_neg hx, ih (x :: acc) (by
        intro y hy
        rcases List.mem_cons.mp hy with rfl | hy
        · simpa using hx
        · exact hacc y hy)]
      simp

theorem mem_splitWs (t s : Str) : t ∈ PyStr.splitWs s ↔ Word t s := by
  have := mem_splitWsAux t s [] (by simp)
  simpa [PyStr.splitWs] using this

/-- A name whose characters all stand for themselves. -/
def Plain (n : Str) : Prop := ∀ c ∈ n, c ∉ "\\^$*+?{}[]|()\".".toList

theorem compile_plain (n : Str) (h : Plain n) : compile n = some (n.map (fun c x => x == c)) := by
  induction n with
  | nil => rfl
  | cons c n ih =>
    have hc := h c (by simp)
    have hs : special c = false := by
      rw [Bool.eq_false_iff]
      intro hs
      apply hc
      simp only [special, List.contains_iff_mem] at hs
      have e : "\\^$*+?{}[]|()\".".toList = "\\^$*+?{}[]|()\"".toList ++ ['.'] := by decide
      rw [e]
      exact List.mem_append_left _ hs
    have hd : c ≠ '.' := by
      rintro rfl
      exact hc (by decide)
    simp only [compile, hs, ih (fun d hd => h d (by simp [hd]))]
    simp [hd]

theorem eat_plain (n s r : Str) : eat (n.map (fun c x => x == c)) s = some r ↔ s = n ++ r := by
  induction n generalizing s with
  | nil => simp [eat]
  | cons c n ih =>
    cases s with
    | nil => simp [eat]
    | cons x s =>
      simp only [List.map_cons, eat, List.cons_append, List.cons.injEq, beq_iff_eq]
      split
      · rename_i h; simp [ih, h]
      · rename_i h; simp [h]

/-- Only spaces separate the words of the text. -/
def OnlySpaces (s : Str) : Prop := ∀ c ∈ s, PyStr.isSpace c = true → c = ' '

theorem space_isSpace : PyStr.isSpace ' ' = true := by decide

theorem closes_plain (n s : Str) (hs : OnlySpaces s) :
    closes (eat (n.map (fun c x => x == c)) s) = true ↔ ∃ v, s = n ++ v ∧ (v = [] ∨ HeadSp v) := by
  constructor
  · intro h
    cases he : eat (n.map (fun c x => x == c)) s with
    | none => rw [he] at h; simp [closes] at h
    | some v =>
      have := (eat_plain n s v).mp he
      refine ⟨v, this, ?_⟩
      rw [he] at h
      cases v with
      | nil => exact Or.inl rfl
      | cons x v =>
        right
        simp [closes] at h
        rcases h with rfl | ⟨rfl, _⟩
        · exact ⟨_, v, rfl, space_isSpace⟩
        · exact ⟨_, v, rfl, by decide⟩
  · rintro ⟨v, rfl, hv⟩
    rw [(eat_plain n _ v).mpr rfl]
    rcases hv with rfl | ⟨x, v', rfl, hx⟩
    · rfl
    · have := hs x (by simp) hx
      simp [closes, this]

theorem search_plain (n s : Str) (start : Bool) (hs : OnlySpaces s) :
    search (n.map (fun c x => x == c)) start s = true ↔
      ∃ u v, s = u ++ n ++ v ∧ ((start = true ∧ u = []) ∨ LastSp u) ∧ (v = [] ∨ HeadSp v) := by
  induction s generalizing start with
  | nil =>
    simp only [search, testAt, Bool.or_false, Bool.and_eq_true, closes_plain n [] hs]
    constructor
    · rintro ⟨h, v, he, hv⟩
      exact ⟨[], v, by simpa using he, Or.inl ⟨h, rfl⟩, hv⟩
    · rintro ⟨u, v, he, hu, hv⟩
      simp at he
      obtain ⟨rfl, rfl, rfl⟩ := he
      rcases hu with ⟨h, _⟩ | ⟨x, s', h, _⟩
      · exact ⟨h, [], rfl, Or.inl rfl⟩
      · simp at h
  | cons x s ih =>
    have hs' : OnlySpaces s := fun c hc => hs c (by simp [hc])
    simp only [search, testAt, Bool.or_eq_true, Bool.and_eq_true, beq_iff_eq, closes_plain n _ hs,
      closes_plain n _ hs', ih false hs']
    constructor
    · rintro ((⟨h, v, he, hv⟩ | ⟨rfl, v, rfl, hv⟩) | ⟨u, v, rfl, hu, hv⟩)
      · exact ⟨[], v, by simpa using he, Or.inl ⟨h, rfl⟩, hv⟩
      · exact ⟨[' '], v, by simp, Or.inr ⟨' ', [], rfl, space_isSpace⟩, hv⟩
      · refine ⟨x :: u, v, by simp, Or.inr ?_, hv⟩
        rcases hu with ⟨h, _⟩ | ⟨z, u', rfl, hz⟩
        · simp at h
        · exact ⟨z, x :: u', by simp, hz⟩
    · rintro ⟨u, v, he, hu, hv⟩
      cases u with
      | nil =>
        rcases hu with ⟨h, _⟩ | ⟨z, u', h, _⟩
        · exact Or.inl (Or.inl ⟨h, v, by simpa using he, hv⟩)
        · simp at h
      | cons y u =>
        simp at he
        obtain ⟨rfl, rfl⟩ := he
        rcases hu with ⟨_, h⟩ | ⟨z, u', h, hz⟩
        · simp at h
        · cases u' with
          | nil =>
            simp at h
            obtain ⟨rfl, rfl⟩ := h
            have := hs x (by simp) hz
            exact Or.inl (Or.inr ⟨this, v, by simp, hv⟩)
          | cons y' u' =>
            simp at h
            obtain ⟨rfl, rfl⟩ := h
            exact Or.inr ⟨u' ++ [z], v, by simp, Or.inr ⟨z, u', rfl, hz⟩, hv⟩

theorem search_word (n s : Str) (hn : n ≠ []) (hsp : ∀ x ∈ n, PyStr.isSpace x = false)
    (hs : OnlySpaces s) :
    search (n.map (fun c x => x == c)) true s = true ↔ n ∈ PyStr.splitWs s := by
  rw [search_plain n s true hs, mem_splitWs]
  simp only [Word, true_and]
  constructor
  · rintro ⟨u, v, h⟩
    exact ⟨hn, hsp, u, v, h⟩
  · rintro ⟨_, _, h⟩
    exact h

theorem compileAll_plain (ns : List Str) (h : ∀ n ∈ ns, Plain n) :
    compileAll ns = some (ns.map (fun n => n.map (fun c x => x == c))) := by
  induction ns with
  | nil => rfl
  | cons n ns ih =>
    simp only [compileAll, compile_plain n (h n (by simp)), ih (fun m hm => h m (by simp [hm]))]
    rfl

/-- By class names, for names of characters without a meaning in regular expressions, and class
attributes with no white space other than spaces: the elements whose class list has all the names
(and none if no name is given). Missing for the full claim: other white space, and
names with characters such as the dot (see below). -/
theorem by_class_name_partial (self : Bool) (names : Str) (r : Root)
    (hn : ∀ n ∈ PyStr.splitWs names, Plain n)
    (hc : ∀ p a, At r.info r.children p a → OnlySpaces (a.cls.getD [])) :
    ∃ l, byClassName self names r = some l ∧
      Found self r (fun a => PyStr.splitWs names ≠ [] ∧
        ∀ n ∈ PyStr.splitWs names, n ∈ PyStr.splitWs (a.cls.getD [])) l := by
  unfold byClassName
  split
  · rename_i h
    exact ⟨[], rfl, by constructor <;> simp [h]⟩
  · rename_i h
    rw [compileAll_plain _ hn]
    refine ⟨_, rfl, xpath_found _ _ _ _ ?_⟩
    intro p a ha
    simp only [List.all_map, List.all_eq_true, Function.comp, ne_eq, h, not_false_eq_true, true_and]
    apply forall_congr'
    intro n
    apply imp_congr_right
    intro hm
    have hw := (mem_splitWs n names).mp hm
    exact search_word n _ hw.1 hw.2.1 (hc p a ha)

/-! ### What fails -/

/-- An element for the examples. -/
def ex (name : String) (ns : Option String) (cls : String) : Info :=
  ⟨none, ns.map String.toList, name.toList, none, some cls.toList⟩

/-- The class list `a⇥b` has the class `a`, but the element is not found. -/
theorem tab_violated :
    byClassName false "a".toList ⟨ex "g" none "", .elem (ex "g" none "a\tb") .nil .nil⟩ = some [] ∧
      "a".toList ∈ PyStr.splitWs "a\tb".toList := by decide

/-- The class `a.b` finds elements of the class `axb`. -/
theorem dot_violated :
    byClassName false "a.b".toList ⟨ex "g" none "", .elem (ex "g" none "axb") .nil .nil⟩ = some [[0]] ∧
      "a.b".toList ∉ PyStr.splitWs "axb".toList := by decide

/-- `None` for the namespace, which in the DOM stands for elements without namespace, finds
elements of every namespace. -/
theorem none_violated :
    byTagNameNs false none "a".toList ⟨ex "g" none "", .elem (ex "a" (some "u") "") .nil .nil⟩ = [[0]] ∧
      (ex "a" (some "u") "").ns ≠ none := by decide

/-! ### The hypotheses are met -/

/-- A tree with a comment and nested elements. -/
def exRoot : Root :=
  ⟨ex "svg" (some "u") "a", .other (.elem (ex "g" (some "u") " b  a ") (.elem (ex "g" none "ab") .nil (.elem (ex "p" (some "u") "a") .nil .nil))
    (.elem (ex "p" (some "u") "b") .nil .nil))⟩

example : byTagName true "*".toList exRoot = [[], [1], [1, 0], [1, 1], [2]] := by decide
example : byTagName false "p".toList exRoot = [[1, 1], [2]] := by decide
example : byTagNameNs true (some "u".toList) "*".toList exRoot = [[], [1], [1, 1], [2]] := by decide
example : byTagNameNs true (some []) "*".toList exRoot = [[1, 0]] := by decide
example : byClassName true "b a".toList exRoot = some [[1]] := by decide
example : byClassName true "a".toList exRoot = some [[], [1], [1, 1]] := by decide

example : ∀ n ∈ PyStr.splitWs "b a".toList, Plain n := by
  intro n hn
  have e : PyStr.splitWs "b a".toList = [['b'], ['a']] := by decide
  rw [e] at hn
  simp at hn
  rcases hn with rfl | rfl <;> (intro c hc; simp at hc; subst hc; decide)

/-- The class attributes of `exRoot` have only spaces, and its namespaces are not empty. -/
example : ∀ p a, At exRoot.info exRoot.children p a → OnlySpaces (a.cls.getD []) ∧ a.ns ≠ some [] := by
  intro p a h
  have hm : (p, a) ∈ axis true exRoot := (mem_axis _ _ _ _).mpr ⟨by simp, h⟩
  have ha : a ∈ (axis true exRoot).map (·.2) := List.mem_map.mpr ⟨_, hm, rfl⟩
  have hall : ∀ b ∈ (axis true exRoot).map (·.2), ((b.cls.getD []).all (fun c => !PyStr.isSpace c || c == ' ') = true) ∧
      b.ns ≠ some [] := by decide
  refine ⟨?_, (hall a ha).2⟩
  intro c hc hsp
  have := List.all_eq_true.mp (hall a ha).1 c hc
  simpa [hsp] using this

example : byId "x".toList ⟨ex "g" none "", .elem { ex "a" none "" with id := some "x".toList }
    (.elem { ex "a" none "" with id := some "x".toList } .nil .nil) .nil⟩ = some [0] := by decide

end SvgPy.Lookup
