import Verif.Model.TreeWalk
import Mathlib.Logic.Basic
import Mathlib.Data.List.Nodup

/-! Property C125: moving about in the tree. -/

set_option linter.unusedSectionVars false
set_option linter.unusedSimpArgs false
set_option linter.unusedVariables false

namespace SvgPy.TreeWalk

/-! ### Specification -/

/-- `y` is the child number `i` of the node `x`, or of the document if `x` is empty. -/
def ChildOf (d : Doc) (i : Nat) (x y : Addr) : Prop := y = i :: x ∧ i < (below d x).length

/-- The document has a root, which is one of the nodes at the top. -/
def Proper (d : Doc) : Prop := ∃ r, d.root = some r ∧ r < d.top.length

/-- A node of the document. -/
def Exists (d : Doc) (x : Addr) : Prop := ∃ t, nodeAt d x = some t

mutual
/-- The nodes of a tree in document order: a node before the nodes below it, these from the first child to the last. -/
def order (x : Addr) : Tree → List Addr
  | .element _ ks => [x] ++ orders x 0 ks
  | .comment => [x]
  | .pi => [x]

/-- The nodes of trees in document order, of which the first is number `i`. -/
def orders (x : Addr) (i : Nat) : List Tree → List Addr
  | [] => []
  | t :: ts => order (i :: x) t ++ orders x (i + 1) ts
end

/-- Leaving a node, in a walk of the nodes below `top`: to the next sibling, or that of the nearest node above that
has one; at `top` the walk ends. -/
inductive Leave (d : Doc) (top : Addr) : Addr → Option Addr → Prop
  | done : Leave d top top none
  | next {x y : Addr} : x ≠ top → nextSibling d x = some y → Leave d top x (some y)
  | up {x p : Addr} {o : Option Addr} : x ≠ top → nextSibling d x = none → parentNode x = some p →
      Leave d top p o → Leave d top x o

/-- One step of the walk: to the first child, or else leaving the node. -/
inductive Step (d : Doc) (top : Addr) : Addr → Option Addr → Prop
  | child {x y : Addr} : firstChild d x = some y → Step d top x (some y)
  | leave {x : Addr} {o : Option Addr} : firstChild d x = none → Leave d top x o → Step d top x o

/-- The walk from a node on visits these nodes one after the other and then comes to a last place. -/
inductive Visits (d : Doc) (top : Addr) : Option Addr → List Addr → Option Addr → Prop
  | stop {o : Option Addr} : Visits d top o [] o
  | step {x : Addr} {o o' : Option Addr} {l : List Addr} : Step d top x o → Visits d top o l o' →
      Visits d top (some x) (x :: l) o'

/-! ### Lemmas -/

theorem mem_listOf (d : Doc) (x y : Addr) : y ∈ listOf d x ↔ ∃ i, ChildOf d i x y := by
  simp only [listOf, List.mem_map, List.mem_range, ChildOf]
  constructor
  · rintro ⟨i, h, rfl⟩; exact ⟨i, rfl, h⟩
  · rintro ⟨i, rfl, h⟩; exact ⟨i, h, rfl⟩

theorem childNodes_doc (d : Doc) (h : Proper d) : childNodes d [] = listOf d [] := by
  obtain ⟨r, hr, hl⟩ := h
  simp only [childNodes, hr, preceding, following, listOf, below]
  rw [List.map_reverse, List.reverse_reverse]
  have e : List.range d.top.length = List.range r ++ [r] ++ List.range' (r + 1) (d.top.length - (r + 1)) := by
    rw [List.range_eq_range', List.range_eq_range']
    have h1 : [r] = List.range' r 1 := rfl
    have h2 : List.range' 0 r ++ List.range' r 1 = List.range' 0 (r + 1) := by
      have := @List.range'_append 0 r 1 1
      simpa using this
    rw [h1, h2]
    have h3 := @List.range'_append 0 (r + 1) (d.top.length - (r + 1)) 1
    simp only [Nat.one_mul, Nat.zero_add] at h3
    rw [h3]
    congr 1
    omega
  rw [e]
  simp

theorem below_nonelement (d : Doc) (x : Addr) (hx : x ≠ []) (h : isElement d x = false) : below d x = [] := by
  cases x with
  | nil => exact absurd rfl hx
  | cons i p =>
    simp only [isElement, nodeAt] at h
    simp only [below]
    cases hn : (below d p)[i]? with
    | none => rfl
    | some t =>
      rw [hn] at h
      cases t with
      | element g ks => simp at h
      | comment => rfl
      | pi => rfl

theorem childNodes_eq (d : Doc) (hd : Proper d) (x : Addr) : childNodes d x = listOf d x := by
  cases x with
  | nil => exact childNodes_doc d hd
  | cons i p =>
    simp only [childNodes]
    cases hn : nodeAt d (i :: p) with
    | none =>
      have : below d (i :: p) = [] := below_nonelement d _ (by simp) (by simp [isElement, hn])
      simp [listOf, this]
    | some t =>
      cases t with
      | element g ks => rfl
      | comment =>
        have : below d (i :: p) = [] := below_nonelement d _ (by simp) (by simp [isElement, hn])
        simp [listOf, this]
      | pi =>
        have : below d (i :: p) = [] := below_nonelement d _ (by simp) (by simp [isElement, hn])
        simp [listOf, this]

theorem firstChild_eq (d : Doc) (hd : Proper d) (x : Addr) :
    firstChild d x = if 0 < (below d x).length then some (0 :: x) else none := by
  simp only [firstChild, childNodes_eq d hd, listOf, List.length_map, List.length_range]
  by_cases h : (below d x).length = 0
  · simp [h]
  · have : 0 < (below d x).length := Nat.pos_of_ne_zero h
    simp [h, this, List.getElem?_map, List.getElem?_range, List.getElem_range]

theorem lastChild_eq (d : Doc) (hd : Proper d) (x : Addr) :
    lastChild d x = if 0 < (below d x).length then some (((below d x).length - 1) :: x) else none := by
  simp only [lastChild, childNodes_eq d hd, listOf, List.length_map, List.length_range]
  by_cases h : (below d x).length = 0
  · simp [h]
  · have : 0 < (below d x).length := Nat.pos_of_ne_zero h
    have h2 : (below d x).length - 1 < (below d x).length := by omega
    simp [h, this, h2, List.getElem?_map, List.getElem?_range]

theorem exists_iff (d : Doc) (i : Nat) (p : Addr) : Exists d (i :: p) ↔ i < (below d p).length := by
  simp only [Exists, nodeAt]
  constructor
  · rintro ⟨t, h⟩
    exact (List.getElem?_eq_some_iff.1 h).1
  · intro h
    exact ⟨_, List.getElem?_eq_getElem h⟩

/-! ### Children, siblings and parents -/

/-- **C125**.  The child nodes of a node, also of the document, are all nodes directly below it, each once, in
order; a node has child nodes exactly if the list is not empty. -/
theorem child_nodes_spec (d : Doc) (hd : Proper d) (x : Addr) :
    (∀ i, (childNodes d x)[i]? = if i < (below d x).length then some (i :: x) else none) ∧
    (childNodes d x).Nodup ∧ (hasChildNodes d x = true ↔ childNodes d x ≠ []) := by
  refine ⟨?_, ?_, ?_⟩
  · intro i
    rw [childNodes_eq d hd, listOf]
    by_cases h : i < (below d x).length
    · simp [h]
    · simp [h]
  · rw [childNodes_eq d hd, listOf]
    exact List.nodup_range.map (fun a b h => (List.cons.inj h).1)
  · simp only [hasChildNodes, decide_eq_true_eq, gt_iff_lt, List.length_pos_iff]

/-- **C125**.  The first and the last child are the ends of the child nodes; `children` are those that are elements,
in the same order, `child_element_count` is their number, and the first and the last of them are
`first_element_child` and `last_element_child`. -/
theorem ends_spec (d : Doc) (x : Addr) :
    firstChild d x = (childNodes d x).head? ∧ lastChild d x = (childNodes d x).getLast? ∧
    (children d x).Sublist (childNodes d x) ∧
    (∀ y, y ∈ children d x ↔ y ∈ childNodes d x ∧ isElement d y = true) ∧
    childElementCount d x = (children d x).length ∧
    firstElementChild d x = (children d x).head? ∧ lastElementChild d x = (children d x).getLast? := by
  have a : ∀ l : List Addr, (if l.length = 0 then none else l[0]?) = l.head? := by
    intro l; cases l <;> simp
  have b : ∀ l : List Addr, (if l.length = 0 then none else l[l.length - 1]?) = l.getLast? := by
    intro l; rw [List.getLast?_eq_getElem?]; cases l <;> simp
  have a' : ∀ l : List Addr, (if l.length > 0 then l[0]? else none) = l.head? := by
    intro l; cases l <;> simp
  have b' : ∀ l : List Addr, (if l.length > 0 then l[l.length - 1]? else none) = l.getLast? := by
    intro l; rw [List.getLast?_eq_getElem?]; cases l <;> simp
  refine ⟨a _, b _, List.filter_sublist, fun y => by simp [children, List.mem_filter], rfl, a' _, b' _⟩

/-- **C125**.  Two nodes are siblings one after the other exactly if they stand so in the child nodes of a node or of
the document; `next_sibling` and `previous_sibling` lead from the one to the other. -/
theorem siblings_spec (d : Doc) (hd : Proper d) (x y : Addr) (hx : Exists d x) :
    (nextSibling d x = some y ↔
      ∃ p i, (childNodes d p)[i]? = some x ∧ (childNodes d p)[i + 1]? = some y) ∧
    (nextSibling d x = some y → Exists d y) ∧
    (Exists d y → (nextSibling d x = some y ↔ previousSibling y = some x)) := by
  have hc := fun p => (child_nodes_spec d hd p).1
  cases x with
  | nil => obtain ⟨t, h⟩ := hx; simp [nodeAt] at h
  | cons i p =>
    have hi := (exists_iff d i p).1 hx
    have first : nextSibling d (i :: p) = some y ↔ y = (i + 1) :: p ∧ i + 1 < (below d p).length := by
      simp only [nextSibling, getnext]
      by_cases h : i + 1 < (below d p).length
      · simp [h, eq_comm]
      · simp [h]
    refine ⟨?_, ?_, ?_⟩
    · rw [first]
      constructor
      · rintro ⟨rfl, h⟩
        exact ⟨p, i, by simp [hc, hi], by simp [hc, h]⟩
      · rintro ⟨q, j, h1, h2⟩
        rw [hc] at h1 h2
        split at h1
        · simp only [Option.some.injEq, List.cons.injEq] at h1
          obtain ⟨rfl, rfl⟩ := h1
          split at h2
          · rename_i h3
            simp only [Option.some.injEq] at h2
            exact ⟨h2.symm, h3⟩
          · simp at h2
        · simp at h1
    · rw [first]
      rintro ⟨rfl, h⟩
      exact (exists_iff d _ p).2 h
    · intro hy
      rw [first]
      cases y with
      | nil => obtain ⟨t, h⟩ := hy; simp [nodeAt] at h
      | cons j q =>
        have hj := (exists_iff d j q).1 hy
        cases j with
        | zero => simp [previousSibling, getprevious]
        | succ j =>
          simp only [previousSibling, getprevious, Option.some.injEq, List.cons.injEq, Nat.add_right_cancel_iff]
          constructor
          · rintro ⟨⟨rfl, rfl⟩, _⟩; exact ⟨rfl, rfl⟩
          · rintro ⟨rfl, rfl⟩; exact ⟨⟨rfl, rfl⟩, hj⟩

/-- **C125**.  The last child has no next sibling, the first no previous one. -/
theorem ends_have_no_siblings (d : Doc) (hd : Proper d) (x y : Addr) :
    (lastChild d x = some y → nextSibling d y = none) ∧ (firstChild d x = some y → previousSibling y = none) := by
  rw [lastChild_eq d hd, firstChild_eq d hd]
  constructor
  · intro h
    split at h
    · rename_i hl
      simp only [Option.some.injEq] at h
      subst h
      have : ¬ ((below d x).length - 1 + 1 < (below d x).length) := by omega
      simp [nextSibling, getnext, this]
    · simp at h
  · intro h
    split at h
    · simp only [Option.some.injEq] at h
      subst h
      rfl
    · simp at h

theorem firstElement_eq (d : Doc) (l : List Addr) : firstElement d l = l.find? (isElement d) := by
  induction l with
  | nil => rfl
  | cons y ys ih => cases h : isElement d y <;> simp [firstElement, List.find?_cons, h, ih]

/-- **C125**.  The next element sibling is the first element after the node among the child nodes of its parent
(or of the document), the previous one the last before it. -/
theorem element_siblings_spec (d : Doc) (hd : Proper d) (p : Addr) (before after : List Addr) (x : Addr)
    (h : childNodes d p = before ++ x :: after) :
    nextElementSibling d x = after.find? (isElement d) ∧
    previousElementSibling d x = before.reverse.find? (isElement d) := by
  have hc := (child_nodes_spec d hd p).1
  have hx : (childNodes d p)[before.length]? = some x := by rw [h]; simp
  rw [hc] at hx
  split at hx
  · rename_i hl
    simp only [Option.some.injEq] at hx
    subst hx
    have hb : before = (List.range before.length).map (· :: p) := by
      apply List.ext_getElem?
      intro i
      have := hc i
      rw [h] at this
      by_cases hi : i < before.length
      · rw [List.getElem?_append_left hi] at this
        rw [this]
        have : i < (below d p).length := by omega
        simp [hi, this]
      · rw [List.getElem?_eq_none (by omega), List.getElem?_eq_none (by simp; omega)]
    have ha : after = (List.range' (before.length + 1) ((below d p).length - (before.length + 1))).map (· :: p) := by
      apply List.ext_getElem?
      intro i
      have := hc (before.length + 1 + i)
      rw [h, List.getElem?_append_right (by omega)] at this
      have e : before.length + 1 + i - before.length = i + 1 := by omega
      rw [e, List.getElem?_cons_succ] at this
      rw [this]
      by_cases hi : before.length + 1 + i < (below d p).length
      · have h2 : i < (below d p).length - (before.length + 1) := by omega
        simp [hi, h2, List.getElem?_map, List.getElem?_range']
      · have h2 : ¬ i < (below d p).length - (before.length + 1) := by omega
        rw [if_neg hi, List.getElem?_eq_none (by simp; omega)]
    constructor
    · rw [nextElementSibling, firstElement_eq, following, ← ha]
    · rw [previousElementSibling, firstElement_eq, preceding, List.map_reverse, ← hb]
  · simp at hx

/-- **C125** (partial).  A node is among the child nodes of an element exactly if this is its parent node, which is
then also its parent element.  Missing: the same for the document (`root_parent_violated`). -/
theorem parent_partial (d : Doc) (hd : Proper d) (x y : Addr) (hx : x ≠ []) (hy : Exists d y) :
    (y ∈ childNodes d x ↔ parentNode y = some x) ∧
    (parentNode y = some x → parentElement d y = some x) ∧ (parentElement d y = some x → parentNode y = some x) := by
  rw [childNodes_eq d hd, mem_listOf]
  cases y with
  | nil => obtain ⟨t, h⟩ := hy; simp [nodeAt] at h
  | cons j q =>
    have hj := (exists_iff d j q).1 hy
    have hp : parentNode (j :: q) = some x ↔ q = x := by
      cases q with
      | nil => simp [parentNode, getparent, hx.symm, eq_comm]
      | cons k q => simp [parentNode, getparent]
    refine ⟨?_, ?_, ?_⟩
    · rw [hp]
      simp only [ChildOf, List.cons.injEq]
      constructor
      · rintro ⟨i, ⟨_, h⟩, _⟩; exact h
      · rintro rfl; exact ⟨j, ⟨rfl, rfl⟩, hj⟩
    · intro h
      have := hp.1 h
      subst this
      have he : isElement d q = true := by
        by_contra hne
        rw [below_nonelement d q hx (by simpa using hne)] at hj
        simp at hj
      simp [parentElement, h, he]
    · intro h
      simp only [parentElement] at h
      split at h
      · rename_i p hpp
        split at h
        · simp only [Option.some.injEq] at h
          rw [hpp, h]
        · simp at h
      · simp at h

/-- **C125**.  The root node of every node of the document is the root element. -/
theorem root_spec (d : Doc) (hd : Proper d) (x : Addr) (hx : Exists d x) : some (getRootNode d x) = d.root.map (fun r => [r]) := by
  obtain ⟨r, hr, _⟩ := hd
  cases x with
  | nil => obtain ⟨t, h⟩ := hx; simp [nodeAt] at h
  | cons i p => simp [getRootNode, hr]

/-! ### The walk -/

theorem visits_append {d : Doc} {top : Addr} {o o' o'' : Option Addr} {l m : List Addr}
    (h : Visits d top o l o') (h' : Visits d top o' m o'') : Visits d top o (l ++ m) o'' := by
  induction h with
  | stop => exact h'
  | step hs _ ih => exact Visits.step hs (ih h')

theorem leave_det {d : Doc} {top x : Addr} {o o' : Option Addr} (h : Leave d top x o) (h' : Leave d top x o') :
    o = o' := by
  induction h with
  | done =>
    cases h' with
    | done => rfl
    | next hne _ => exact absurd rfl hne
    | up hne _ _ _ => exact absurd rfl hne
  | next hne hn =>
    cases h' with
    | done => exact absurd rfl hne
    | next _ hn' => rw [hn] at hn'; exact hn'
    | up _ hn' _ _ => rw [hn] at hn'; simp at hn'
  | up hne hn hp _ ih =>
    cases h' with
    | done => exact absurd rfl hne
    | next _ hn' => rw [hn] at hn'; simp at hn'
    | up _ _ hp' hl =>
      rw [hp] at hp'
      simp only [Option.some.injEq] at hp'
      subst hp'
      exact ih hl

theorem step_det {d : Doc} {top x : Addr} {o o' : Option Addr} (h : Step d top x o) (h' : Step d top x o') :
    o = o' := by
  cases h with
  | child hc =>
    cases h' with
    | child hc' => rw [hc] at hc'; exact hc'
    | leave hc' _ => rw [hc] at hc'; simp at hc'
  | leave hc hl =>
    cases h' with
    | child hc' => rw [hc] at hc'; simp at hc'
    | leave _ hl' => exact leave_det hl hl'

mutual
theorem visit_tree (d : Doc) (hd : Proper d) (top : Addr) (i : Nat) (p : Addr) : ∀ (t : Tree),
    nodeAt d (i :: p) = some t → top.length ≤ (i :: p).length → ∀ o, Leave d top (i :: p) o →
    Visits d top (some (i :: p)) (order (i :: p) t) o
  | .comment, h, hl, o, ho => by
    have hb : below d (i :: p) = [] := below_nonelement d _ (by simp) (by simp [isElement, h])
    exact Visits.step (Step.leave (by rw [firstChild_eq d hd, hb]; rfl) ho) Visits.stop
  | .pi, h, hl, o, ho => by
    have hb : below d (i :: p) = [] := below_nonelement d _ (by simp) (by simp [isElement, h])
    exact Visits.step (Step.leave (by rw [firstChild_eq d hd, hb]; rfl) ho) Visits.stop
  | .element g ks, h, hl, o, ho => by
    have hb : below d (i :: p) = ks := by
      simp only [nodeAt] at h
      simp [below, h, Tree.kids]
    cases ks with
    | nil => exact Visits.step (Step.leave (by rw [firstChild_eq d hd, hb]; rfl) ho) Visits.stop
    | cons k ks =>
      refine Visits.step (o := some (0 :: i :: p)) (Step.child (by rw [firstChild_eq d hd, hb]; simp)) ?_
      have := visit_trees d hd top (i :: p) (by simp) hl o ho 0 (k :: ks) (by simp [hb])
      rwa [if_pos (by rw [hb]; simp)] at this

theorem visit_trees (d : Doc) (hd : Proper d) (top : Addr) (x : Addr) (hx : x ≠ []) (hl : top.length ≤ x.length)
    (o : Option Addr) (ho : Leave d top x o) : ∀ (i : Nat) (ts : List Tree), (below d x).drop i = ts →
    Visits d top (if i < (below d x).length then some (i :: x) else o) (orders x i ts) o
  | i, [], h => by
    have : (below d x).length ≤ i := by simpa using h
    have h' : ¬ i < (below d x).length := by omega
    rw [if_neg h']
    exact Visits.stop
  | i, t :: ts, h => by
    have hi : i < (below d x).length := by
      by_contra hc
      have : (below d x).drop i = [] := by simpa using hc
      rw [this] at h
      simp at h
    have hne : i :: x ≠ top := by
      intro e
      rw [← e] at hl
      simp at hl
      omega
    have ht : nodeAt d (i :: x) = some t := by
      simp only [nodeAt]
      have := congrArg List.head? h
      simpa [List.head?_drop] using this
    have hts : (below d x).drop (i + 1) = ts := by
      have := congrArg List.tail h
      simpa [List.tail_drop] using this
    have hleave : Leave d top (i :: x) (if i + 1 < (below d x).length then some ((i + 1) :: x) else o) := by
      by_cases hn : i + 1 < (below d x).length
      · rw [if_pos hn]
        exact Leave.next hne (by simp [nextSibling, getnext, hn])
      · rw [if_neg hn]
        refine Leave.up hne (by simp [nextSibling, getnext, hn]) ?_ ho
        cases x with
        | nil => exact absurd rfl hx
        | cons j q => rfl
    rw [if_pos hi]
    exact visits_append
      (visit_tree d hd top i x t ht (by simp; omega) _ hleave)
      (visit_trees d hd top x hx hl o ho (i + 1) ts hts)
end

/-- **C125**.  The walk by `first_child`, `next_sibling` and `parent_node` from any node visits the node and all nodes
below it in document order and then ends. -/
theorem walk_spec (d : Doc) (hd : Proper d) (x : Addr) (t : Tree) (h : nodeAt d x = some t) :
    Visits d x (some x) (order x t) none := by
  cases x with
  | nil => simp [nodeAt] at h
  | cons i p => exact visit_tree d hd (i :: p) i p t h (Nat.le_refl _) none Leave.done

/-- **C125**.  No other walk is possible: the nodes visited until the end are determined. -/
theorem walk_unique (d : Doc) (x : Addr) (o : Option Addr) (l m : List Addr) (h : Visits d x o l none)
    (h' : Visits d x o m none) : l = m := by
  induction l generalizing o m with
  | nil =>
    cases h
    cases h'
    rfl
  | cons a l ih =>
    cases h with
    | step hs hv =>
      cases h' with
      | step hs' hv' =>
        have e := step_det hs hs'
        subst e
        rw [ih _ _ hv hv']

mutual
theorem suffix_order (x : Addr) : ∀ (t : Tree), ∀ y ∈ order x t, x <:+ y
  | .comment, y, h => by simp [order] at h; simp [h]
  | .pi, y, h => by simp [order] at h; simp [h]
  | .element g ks, y, h => by
    simp only [order, List.mem_append, List.mem_singleton] at h
    rcases h with rfl | h
    · exact List.suffix_refl _
    · obtain ⟨j, _, hj⟩ := suffix_orders x 0 ks y h
      exact (List.suffix_cons _ _).trans hj

theorem suffix_orders (x : Addr) : ∀ (i : Nat) (ts : List Tree), ∀ y ∈ orders x i ts, ∃ j, i ≤ j ∧ (j :: x) <:+ y
  | i, [], y, h => by simp [orders] at h
  | i, t :: ts, y, h => by
    simp only [orders, List.mem_append] at h
    rcases h with h | h
    · exact ⟨i, Nat.le_refl _, suffix_order (i :: x) t y h⟩
    · obtain ⟨j, h1, h2⟩ := suffix_orders x (i + 1) ts y h
      exact ⟨j, by omega, h2⟩
end

theorem suffix_same_length {a b y : Addr} (h : a <:+ y) (h' : b <:+ y) (hl : a.length = b.length) : a = b := by
  obtain ⟨u, hu⟩ := h
  obtain ⟨v, hv⟩ := h'
  have : u ++ a = v ++ b := by rw [hu, hv]
  exact (List.append_inj' this hl).2

mutual
theorem nodup_order (x : Addr) : ∀ (t : Tree), (order x t).Nodup
  | .comment => by simp [order]
  | .pi => by simp [order]
  | .element g ks => by
    simp only [order, List.singleton_append, List.nodup_cons]
    refine ⟨fun h => ?_, nodup_orders x 0 ks⟩
    obtain ⟨j, _, hj⟩ := suffix_orders x 0 ks x h
    have := hj.length_le
    simp at this
    omega

theorem nodup_orders (x : Addr) : ∀ (i : Nat) (ts : List Tree), (orders x i ts).Nodup
  | i, [] => by simp [orders]
  | i, t :: ts => by
    simp only [orders]
    rw [List.nodup_append]
    refine ⟨nodup_order (i :: x) t, nodup_orders x (i + 1) ts, ?_⟩
    intro a ha b hb e
    subst e
    have h1 := suffix_order (i :: x) t a ha
    obtain ⟨j, hj, h2⟩ := suffix_orders x (i + 1) ts a hb
    have := suffix_same_length h1 h2 (by simp)
    simp only [List.cons.injEq] at this
    omega
end

theorem exists_suffix (d : Doc) {z y : Addr} (hy : Exists d y) (h : z <:+ y) (hz : z ≠ []) : Exists d z := by
  obtain ⟨u, rfl⟩ := h
  induction u with
  | nil => exact hy
  | cons a u ih =>
    apply ih
    have ha := (exists_iff d a (u ++ z)).1 hy
    cases hn : u ++ z with
    | nil => simp at hn; exact absurd hn.2 hz
    | cons b w =>
      rw [exists_iff]
      rw [hn] at ha
      by_contra hc
      have : (below d w)[b]? = none := List.getElem?_eq_none (by omega)
      simp [below, this] at ha

theorem suffix_cases {x y : Addr} (h : x <:+ y) : y = x ∨ ∃ j, (j :: x) <:+ y := by
  obtain ⟨u, rfl⟩ := h
  rcases List.eq_nil_or_concat u with rfl | ⟨v, j, rfl⟩
  · left; rfl
  · right; exact ⟨j, v, by simp⟩

mutual
theorem mem_order (d : Doc) (y : Addr) (hy : Exists d y) : ∀ (i : Nat) (p : Addr) (t : Tree),
    nodeAt d (i :: p) = some t → (i :: p) <:+ y → y ∈ order (i :: p) t
  | i, p, .comment, h, hs => by
    rcases suffix_cases hs with rfl | ⟨j, hj⟩
    · simp [order]
    · have hb : below d (i :: p) = [] := below_nonelement d _ (by simp) (by simp [isElement, h])
      have := (exists_iff d j _).1 (exists_suffix d hy hj (by simp))
      rw [hb] at this
      simp at this
  | i, p, .pi, h, hs => by
    rcases suffix_cases hs with rfl | ⟨j, hj⟩
    · simp [order]
    · have hb : below d (i :: p) = [] := below_nonelement d _ (by simp) (by simp [isElement, h])
      have := (exists_iff d j _).1 (exists_suffix d hy hj (by simp))
      rw [hb] at this
      simp at this
  | i, p, .element g ks, h, hs => by
    have hb : below d (i :: p) = ks := by
      simp only [nodeAt] at h
      simp [below, h, Tree.kids]
    rcases suffix_cases hs with rfl | ⟨j, hj⟩
    · simp [order]
    · simp only [order, List.mem_append]
      exact Or.inr (mem_orders d y hy (i :: p) 0 ks (by simp [hb]) j (Nat.zero_le _) hj)

theorem mem_orders (d : Doc) (y : Addr) (hy : Exists d y) (x : Addr) : ∀ (i : Nat) (ts : List Tree),
    (below d x).drop i = ts → ∀ j, i ≤ j → (j :: x) <:+ y → y ∈ orders x i ts
  | i, [], h, j, hij, hj => by
    have h1 := (exists_iff d j x).1 (exists_suffix d hy hj (by simp))
    have : (below d x).length ≤ i := by simpa using h
    omega
  | i, t :: ts, h, j, hij, hj => by
    simp only [orders, List.mem_append]
    rcases Nat.eq_or_lt_of_le hij with e | hlt
    · subst e
      left
      refine mem_order d y hy i x t ?_ hj
      simp only [nodeAt]
      have := congrArg List.head? h
      simpa [List.head?_drop] using this
    · right
      refine mem_orders d y hy x (i + 1) ts ?_ j hlt hj
      have := congrArg List.tail h
      simpa [List.tail_drop] using this
end

mutual
theorem order_exists (d : Doc) (y : Addr) : ∀ (i : Nat) (p : Addr) (t : Tree),
    nodeAt d (i :: p) = some t → y ∈ order (i :: p) t → Exists d y
  | i, p, .comment, h, hs => by simp [order] at hs; subst hs; exact ⟨_, h⟩
  | i, p, .pi, h, hs => by simp [order] at hs; subst hs; exact ⟨_, h⟩
  | i, p, .element g ks, h, hs => by
    have hb : below d (i :: p) = ks := by
      simp only [nodeAt] at h
      simp [below, h, Tree.kids]
    simp only [order, List.mem_append, List.mem_singleton] at hs
    rcases hs with rfl | hs
    · exact ⟨_, h⟩
    · exact orders_exists d y (i :: p) 0 ks (by simp [hb]) hs

theorem orders_exists (d : Doc) (y : Addr) (x : Addr) : ∀ (i : Nat) (ts : List Tree),
    (below d x).drop i = ts → y ∈ orders x i ts → Exists d y
  | i, [], h, hs => by simp [orders] at hs
  | i, t :: ts, h, hs => by
    simp only [orders, List.mem_append] at hs
    rcases hs with hs | hs
    · refine order_exists d y i x t ?_ hs
      simp only [nodeAt]
      have := congrArg List.head? h
      simpa [List.head?_drop] using this
    · refine orders_exists d y x (i + 1) ts ?_ hs
      have := congrArg List.tail h
      simpa [List.tail_drop] using this
end

/-- **C125**.  So the walk from a node visits exactly the nodes of the document that are the node itself or below
it, each of them once. -/
theorem walk_complete (d : Doc) (hd : Proper d) (x : Addr) (hx : Exists d x) :
    ∃ l, Visits d x (some x) l none ∧ l.Nodup ∧ ∀ y, y ∈ l ↔ Exists d y ∧ x <:+ y := by
  obtain ⟨t, h⟩ := hx
  refine ⟨order x t, walk_spec d hd x t h, nodup_order x t, fun y => ?_⟩
  cases x with
  | nil => simp [nodeAt] at h
  | cons i p =>
    exact ⟨fun hm => ⟨order_exists d y i p t h hm, suffix_order _ t y hm⟩,
      fun hm => mem_order d y hm.1 i p t h hm.2⟩

/-! ### `Document.iter` -/

mutual
theorem iterTree_eq (x : Addr) : ∀ t : Tree, iterTree x t = order x t
  | .comment => rfl
  | .pi => rfl
  | .element g ks => by simp only [iterTree, order, iterTrees_eq x 0 ks, List.singleton_append]

theorem iterTrees_eq (x : Addr) : ∀ (i : Nat) (ts : List Tree), iterTrees x i ts = orders x i ts
  | i, [] => rfl
  | i, t :: ts => by simp only [iterTrees, orders, iterTree_eq (i :: x) t, iterTrees_eq x (i + 1) ts]
end

/-- The node is an element with this tag. -/
def HasTag (d : Doc) (g : Nat) (x : Addr) : Prop := ∃ ks, nodeAt d x = some (.element g ks)

/-- The nodes `Document.iter` is to give for a tag: all of them without one. -/
def Wanted (d : Doc) : Option Nat → Addr → Prop
  | none, _ => True
  | some g, x => HasTag d g x

theorem iterAll_none (d : Doc) (ts : List Tree) (i : Nat) (h : d.top.drop i = ts) :
    iterAll d none [] ((List.range' i ts.length).map (· :: [])) = .ok (orders [] i ts) := by
  induction ts generalizing i with
  | nil => rfl
  | cons t ts ih =>
    have ht : nodeAt d [i] = some t := by
      simp only [nodeAt, below]
      have := congrArg List.head? h
      simpa [List.head?_drop] using this
    have hts : d.top.drop (i + 1) = ts := by
      have := congrArg List.tail h
      simpa [List.tail_drop] using this
    simp only [List.length_cons, List.range'_succ, List.map_cons, iterAll, iterNode, ht, ih (i + 1) hts,
      iterTree_eq, orders]
    simp

theorem iterAll_some (d : Doc) (g : Nat) (l r : List Addr) (h : iterAll d none [] l = .ok r) :
    ∃ f : Addr → Bool, iterAll d (some g) [] l = .ok (r.filter f) ∧ ∀ y, f y = true ↔ HasTag d g y := by
  refine ⟨fun y => match nodeAt d y with
          | some (.element g' _) => decide (g' = g)
          | _ => false, ?_, ?_⟩
  · induction l generalizing r with
    | nil => simp only [iterAll, Except.ok.injEq] at h; subst h; rfl
    | cons x xs ih =>
      simp only [iterAll] at h ⊢
      cases ha : iterAll d none [] xs with
      | error e =>
        rw [ha] at h
        cases hn : nodeAt d x <;> simp [iterNode, hn] at h
      | ok m =>
        rw [ha] at h
        rw [ih m ha]
        cases hn : nodeAt d x with
        | none =>
          simp [iterNode, hn] at h ⊢
          subst h; rfl
        | some t =>
          simp only [iterNode, hn, ne_eq, not_true_eq_false, if_false, Except.ok.injEq] at h ⊢
          subst h
          rw [List.filter_append]
          rfl
  · intro y
    simp only [HasTag]
    cases hn : nodeAt d y with
    | none => simp
    | some t => cases t <;> simp

/-- **C125**.  `Document.iter` with at most one tag gives the nodes of the whole document, those before and after the
root included, in document order, each once; with a tag only the elements that have it. -/
theorem iter_partial (d : Doc) (hd : Proper d) (tag : Option Nat) :
    ∃ l, documentIter d tag [] = .ok l ∧ l.Sublist (orders [] 0 d.top) ∧ l.Nodup ∧
      ∀ y, y ∈ l ↔ Exists d y ∧ Wanted d tag y := by
  have hall : iterAll d none [] (childNodes d []) = .ok (orders [] 0 d.top) := by
    rw [childNodes_eq d hd, listOf, List.range_eq_range']
    exact iterAll_none d d.top 0 rfl
  have hmem : ∀ y, y ∈ orders [] 0 d.top ↔ Exists d y := by
    intro y
    constructor
    · exact orders_exists d y [] 0 d.top rfl
    · intro hy
      have hne : y ≠ [] := by
        rintro rfl
        obtain ⟨t, h⟩ := hy
        simp [nodeAt] at h
      rcases suffix_cases (List.nil_suffix (l := y)) with e | ⟨j, hj⟩
      · exact absurd e hne
      · exact mem_orders d y hy [] 0 d.top rfl j (Nat.zero_le _) hj
  cases tag with
  | none => exact ⟨_, hall, List.Sublist.refl _, nodup_orders _ _ _, fun y => by simp [hmem, Wanted]⟩
  | some g =>
    obtain ⟨f, hf, hp⟩ := iterAll_some d g _ _ hall
    exact ⟨_, hf, List.filter_sublist, (nodup_orders _ _ _).filter _, fun y => by
      simp [List.mem_filter, hmem, hp, Wanted]⟩

/-- **C125**, violated.  `Document.iter` with more than one tag raises TypeError in every document that has a root. -/
theorem iter_tags_violated (d : Doc) (hd : Proper d) (tag : Option Nat) (g : Nat) (tags : List Nat) :
    documentIter d tag (g :: tags) = .error .typeError := by
  obtain ⟨r, hr, hl⟩ := id hd
  have : ∃ x xs, childNodes d [] = x :: xs := by
    rw [childNodes_eq d hd, listOf]
    cases hb : below d [] with
    | nil => simp only [below] at hb; rw [hb] at hl; simp at hl
    | cons a as => simp [List.range_succ_eq_map]
  obtain ⟨x, xs, e⟩ := this
  simp [documentIter, e, iterAll, iterNode]

/-- **C125**, violated.  The root element, and every node beside it, is among the child nodes of the document but has
no parent node; and its root node is not the document. -/
theorem root_parent_violated (d : Doc) (hd : Proper d) (y : Addr) (h : y ∈ childNodes d []) :
    parentNode y = none ∧ getRootNode d y ≠ [] := by
  rw [childNodes_eq d hd, mem_listOf] at h
  obtain ⟨i, rfl, _⟩ := h
  obtain ⟨r, hr, _⟩ := hd
  exact ⟨rfl, by simp [getRootNode, hr]⟩

/-! ### Examples -/

/-- A comment, then a root with an element, a comment and an element that has a child, then an instruction. -/
def sample : Doc :=
  ⟨[.comment, .element 0 [.element 1 [], .comment, .element 2 [.element 1 []]], .pi], some 1⟩

example : Proper sample := ⟨1, rfl, by decide⟩
example : Exists sample [0, 2, 1] := ⟨_, rfl⟩
example : childNodes sample [] = [[0], [1], [2]] := by decide
example : childNodes sample [1] = [[0, 1]] ++ [1, 1] :: [[2, 1]] := by decide
example : nextSibling sample [0, 1] = some [1, 1] := by decide
example : nextElementSibling sample [0, 1] = some [2, 1] := by decide
example : lastChild sample [1] = some [2, 1] ∧ firstChild sample [1] = some [0, 1] := by decide
example : parentNode [0, 2, 1] = some [2, 1] := by decide
example : documentIter sample (some 1) [] = .ok [[0, 1], [0, 2, 1]] := rfl
example : nodeAt sample [1] = some (.element 0 [.element 1 [], .comment, .element 2 [.element 1 []]]) := rfl
example : [1] ∈ childNodes sample [] := by decide
example : Visits sample [1] (some [1]) [[1], [0, 1], [1, 1], [2, 1], [0, 2, 1]] none :=
  walk_spec sample ⟨1, rfl, by decide⟩ [1] _ rfl

end SvgPy.TreeWalk
