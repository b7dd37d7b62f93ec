import Verif.Model.Validity

/-!
C131.  Operations that the tree does not allow are refused with the exception
of the DOM standard and change nothing.
-/

set_option linter.unusedSimpArgs false
set_option linter.unusedVariables false

namespace SvgPy.Validity

/-! ## The specification -/

/-- Nodes that can have children. -/
def IsParent (k : Kind) : Prop := k = .document ∨ k = .element

/-- Nodes that can be children. -/
def IsChild (k : Kind) : Prop := k = .element ∨ k = .pi ∨ k = .comment

/-- `a` is `b` or one of the nodes above it. -/
inductive Above (t : Tree) : Nat → Nat → Prop
  | self (a : Nat) : Above t a a
  | step {a m b : Nat} : Above t a m → b ∈ t.kids m → Above t a b

/-- The steps of the standard, in their order, for inserting `n` into `p`
before `c`: which exception is thrown, if any. -/
inductive Insertion (t : Tree) (p n : Nat) (c : Option Nat) : Option String → Prop
  | parent : ¬ IsParent (t.kind p) → Insertion t p n c (some "HierarchyRequestError")
  | above : IsParent (t.kind p) → Above t n p →
      Insertion t p n c (some "HierarchyRequestError")
  | missing (x : Nat) : IsParent (t.kind p) → ¬ Above t n p → c = some x → x ∉ t.kids p →
      Insertion t p n c (some "NotFoundError")
  | kind : IsParent (t.kind p) → ¬ Above t n p → (∀ x, c = some x → x ∈ t.kids p) →
      ¬ IsChild (t.kind n) → Insertion t p n c (some "HierarchyRequestError")
  | root (r : Nat) : IsParent (t.kind p) → ¬ Above t n p →
      (∀ x, c = some x → x ∈ t.kids p) → IsChild (t.kind n) →
      t.kind p = .document → t.kind n = .element → r ∈ t.kids p → t.kind r = .element →
      Insertion t p n c (some "HierarchyRequestError")
  | fine : IsParent (t.kind p) → ¬ Above t n p → (∀ x, c = some x → x ∈ t.kids p) →
      IsChild (t.kind n) →
      (t.kind p = .document → t.kind n = .element → ∀ r ∈ t.kids p, t.kind r ≠ .element) →
      Insertion t p n c none

/-- Removing `c` from `p`.  (The standard only asks whether `c` is a child of
`p`; that a node without children says so in another way is allowed.) -/
inductive Removal (t : Tree) (p c : Nat) : Option String → Prop
  | parent : ¬ IsParent (t.kind p) → Removal t p c (some "HierarchyRequestError")
  | missing : IsParent (t.kind p) → c ∉ t.kids p → Removal t p c (some "NotFoundError")
  | fine : IsParent (t.kind p) → c ∈ t.kids p → Removal t p c none

/-- What a check that gives `r` does. -/
def Gives (o : Py Unit) (r : Option String) : Prop :=
  match r with
  | none => o = .ok ()
  | some name => o = .error (.dom name)

/-- The call is refused with this exception and the tree is as it was. -/
def Refused (o : Res) (name : String) (t : Tree) : Prop := o = (.error (.dom name), t)

/-! ## Proofs -/

theorem isParent_iff (k : Kind) : IsParent k ↔ k ∈ [Kind.document, Kind.element] := by
  cases k <;> simp [IsParent]

theorem isChild_iff (k : Kind) : IsChild k ↔ k ∈ [Kind.element, Kind.pi, Kind.comment] := by
  cases k <;> simp [IsChild]

theorem any_missing (t : Tree) (p : Nat) (c : Option Nat) :
    c.any (fun c => decide (c ∉ t.kids p)) = true ↔ ∃ x, c = some x ∧ x ∉ t.kids p := by
  cases c <;> simp

/-- The four cases of the check, without the conditions that it leaves out. -/
theorem preInsert_parent {t : Tree} {p n : Nat} {c : Option Nat} (h : ¬ IsParent (t.kind p)) :
    preInsert t p n c = .error hierarchy := by
  unfold preInsert
  rw [if_pos (by rwa [isParent_iff] at h)]

theorem preInsert_missing {t : Tree} {p n x : Nat} {c : Option Nat} (h : IsParent (t.kind p))
    (hc : c = some x) (hx : x ∉ t.kids p) : preInsert t p n c = .error notFound := by
  unfold preInsert
  rw [if_neg (by rw [isParent_iff] at h; exact not_not_intro h),
    if_pos ((any_missing t p c).2 ⟨x, hc, hx⟩)]

theorem preInsert_kind {t : Tree} {p n : Nat} {c : Option Nat} (h : IsParent (t.kind p))
    (hc : ∀ x, c = some x → x ∈ t.kids p) (hn : ¬ IsChild (t.kind n)) :
    preInsert t p n c = .error hierarchy := by
  unfold preInsert
  rw [if_neg (by rw [isParent_iff] at h; exact not_not_intro h),
    if_neg (fun hh => by
      obtain ⟨x, h1, h2⟩ := (any_missing t p c).1 hh
      exact h2 (hc x h1)),
    if_pos (by rwa [isChild_iff] at hn)]

theorem preInsert_fine {t : Tree} {p n : Nat} {c : Option Nat} (h : IsParent (t.kind p))
    (hc : ∀ x, c = some x → x ∈ t.kids p) (hn : IsChild (t.kind n)) :
    preInsert t p n c = .ok () := by
  unfold preInsert
  rw [if_neg (by rw [isParent_iff] at h; exact not_not_intro h),
    if_neg (fun hh => by
      obtain ⟨x, h1, h2⟩ := (any_missing t p c).1 hh
      exact h2 (hc x h1)),
    if_neg (by rw [isChild_iff] at hn; exact not_not_intro hn)]

/-- **C131, inserting.**  The check before an insertion throws what the
standard says, and passes when the standard does, unless the node would be
put into itself or would be a second root of a document. -/
theorem insertion_partial (t : Tree) (p n : Nat) (c : Option Nat) (r : Option String)
    (hr : Insertion t p n c r) (ha : ¬ Above t n p)
    (hd : t.kind p = .document → t.kind n = .element → ∀ r ∈ t.kids p, t.kind r ≠ .element) :
    Gives (preInsert t p n c) r := by
  cases hr with
  | parent h => exact preInsert_parent h
  | above h h' => exact absurd h' ha
  | missing x h _ hc hx => exact preInsert_missing h hc hx
  | kind h _ hc hn => exact preInsert_kind h hc hn
  | root r h _ hc hn h1 h2 h3 h4 => exact absurd h4 (hd h1 h2 r h3)
  | fine h _ hc hn _ => exact preInsert_fine h hc hn

/-- A document 0 with a root 1, in it an element 2; a comment 3 and an
attribute 4 elsewhere. -/
def sample : Tree where
  kind := fun i => if i = 0 then .document else if i = 3 then .comment
    else if i = 4 then .attr else .element
  kids := fun i => if i = 0 then [1] else if i = 1 then [2] else []
  text := fun i => if i = 2 then "abc".toList else []
  owner := fun _ => none

theorem sample_above {a b : Nat} (h : Above sample a b) :
    a = b ∨ a = 0 ∧ (b = 1 ∨ b = 2) ∨ a = 1 ∧ b = 2 := by
  induction h with
  | self => exact .inl rfl
  | @step m b h hb ih =>
    simp only [sample] at hb
    split at hb
    · simp at hb; omega
    · split at hb
      · simp at hb; omega
      · simp at hb

/-- The four outcomes occur in the sample. -/
example : Insertion sample 3 2 none (some "HierarchyRequestError") :=
  .parent (by simp [sample, IsParent])
example : Insertion sample 1 3 (some 7) (some "NotFoundError") :=
  .missing 7 (.inr rfl) (fun h => by have := sample_above h; omega) rfl (by simp [sample])
example : Insertion sample 1 4 (some 2) (some "HierarchyRequestError") :=
  .kind (.inr rfl) (fun h => by have := sample_above h; omega)
    (by intro x h; cases h; simp [sample]) (by simp [sample, IsChild])
example : Insertion sample 1 3 (some 2) none :=
  .fine (.inr rfl) (fun h => by have := sample_above h; omega)
    (by intro x h; cases h; simp [sample]) (.inr (.inr rfl)) (by intro h; simp [sample] at h)

/-- **C131, removing.**  The check before a removal throws what the standard
says. -/
theorem removal_spec (t : Tree) (p c : Nat) (r : Option String) (hr : Removal t p c r) :
    Gives (preRemove t p c) r := by
  cases hr with
  | parent h =>
    show preRemove t p c = _
    unfold preRemove
    rw [if_pos (by rwa [isParent_iff] at h)]; rfl
  | missing h hc =>
    show preRemove t p c = _
    unfold preRemove
    rw [if_neg (by rw [isParent_iff] at h; exact not_not_intro h), if_pos hc]; rfl
  | fine h hc =>
    show preRemove t p c = _
    unfold preRemove
    rw [if_neg (by rw [isParent_iff] at h; exact not_not_intro h), if_neg (not_not_intro hc)]

example : Removal sample 1 2 none := .fine (.inr rfl) (by simp [sample])
example : Removal sample 1 3 (some "NotFoundError") := .missing (.inr rfl) (by simp [sample])

/-- The methods that name at least one node. -/
def Op.Named : Op → Prop
  | .extend ns => ns ≠ []
  | _ => True

/-- **C131, nodes without children.**  Whatever an attribute, a comment or a
processing instruction is asked to take in or to give out, it refuses, and
nothing changes. -/
theorem leaf_refuses (t : Tree) (self : Nat)
    (hk : t.kind self = .attr ∨ t.kind self = .comment ∨ t.kind self = .pi) (op : Op)
    (ho : op.Named) : Refused (leaf t self op) "HierarchyRequestError" t := by
  have hp : ¬ IsParent (t.kind self) := by
    unfold IsParent
    rcases hk with h | h | h <;> rw [h] <;> simp
  have hr : ∀ n, preRemove t self n = .error hierarchy := fun n => by
    unfold preRemove
    rw [if_pos (by rwa [isParent_iff] at hp)]
  unfold Refused
  cases op with
  | append n => simp only [leaf, preInsert_parent hp]; rfl
  | appendChild n => simp only [leaf, preInsert_parent hp]; rfl
  | insert i n => simp only [leaf, preInsert_parent hp]; rfl
  | insertBefore n c => simp only [leaf, preInsert_parent hp]; rfl
  | remove n => simp only [leaf, hr]; rfl
  | removeChild n => simp only [leaf, hr]; rfl
  | replace o n => simp only [leaf, preInsert_parent hp, both]; rfl
  | replaceChild n c => simp only [leaf, preInsert_parent hp, both]; rfl
  | extend ns =>
    cases ns with
    | nil => exact absurd rfl ho
    | cons a as => simp only [leaf, checkAll, preInsert_parent hp]; rfl

example : sample.kind 3 = .comment ∧ (Op.extend [1]).Named := ⟨rfl, by simp [Op.Named]⟩

/-- The methods of an element that take in or give out one node: a name for
each and what it is asked. -/
inductive Single where
  | appendChild (n : Nat)
  | insert (i : Int) (n : Nat)
  | insertBefore (n : Nat) (c : Option Nat)
  | replace (old new : Nat)

/-- The node going in, and the child that must be there. -/
def Single.node : Single → Nat
  | .appendChild n => n
  | .insert _ n => n
  | .insertBefore n _ => n
  | .replace _ n => n

def Single.child : Single → Option Nat
  | .appendChild _ => none
  | .insert _ _ => none
  | .insertBefore _ c => c
  | .replace o _ => some o

/-- The method of the model that is called. -/
def Single.call (lx : Lxml) (t : Tree) (self : Nat) : Single → Res
  | .appendChild n => Validity.appendChild lx t self n
  | .insert i n => Validity.insert lx t self i n
  | .insertBefore n c => Validity.insertBefore lx t self n c
  | .replace o n => Validity.replace lx t self o n

theorem preInsert_refused {lx : Lxml} {t : Tree} {self : Nat} {s : Single} {e : PyErr}
    (h : preInsert t self s.node s.child = .error e) : s.call lx t self = (.error e, t) := by
  cases s with
  | appendChild n =>
    simp only [Single.node, Single.child] at h
    simp only [Single.call, appendChild, append, appendLoop, h]
  | insert i n =>
    simp only [Single.node, Single.child] at h
    simp only [Single.call, insert, h]
  | insertBefore n c =>
    simp only [Single.node, Single.child] at h
    simp only [Single.call, insertBefore, h]
  | replace o n =>
    simp only [Single.node, Single.child] at h
    simp only [Single.call, replace, h, both]

/-- **C131, one node.**  A method of an element that takes in one node, and is
not allowed to, throws the exception of the standard and changes nothing:
neither the children nor the text nor the owner document of any node. -/
theorem single_refused_partial (lx : Lxml) (t : Tree) (self : Nat) (s : Single) (name : String)
    (hk : t.kind self = .element) (ha : ¬ Above t s.node self)
    (hr : Insertion t self s.node s.child (some name)) :
    Refused (s.call lx t self) name t := by
  have h := insertion_partial t self s.node s.child _ hr ha
    (by intro hd; rw [hk] at hd; cases hd)
  exact preInsert_refused h

/-- **C131, one node.**  When it is allowed to, lxml is asked to do it, with
the node belonging to the document of the element. -/
theorem single_allowed (lx : Lxml) (t : Tree) (self : Nat) (s : Single)
    (hr : Insertion t self s.node s.child none) :
    s.call lx t self =
      (let t' := attach t s.node (t.owner self)
       match s with
       | .appendChild n => called t' (lx.append t' self n)
       | .insert i n => called t' (lx.insert t' self i n)
       | .replace o n => called t' (lx.replace t' self o n)
       | .insertBefore n c =>
         match (if c = some n then lx.next t n else c) with
         | none => called t' (lx.append t' self n)
         | some r =>
           let t'' := attach t n (t.owner r)
           called t'' (lx.addprevious t'' r n)) := by
  cases hr with
  | fine hp _ hc hn _ =>
    have h := preInsert_fine hp hc hn
    have happ : ∀ n, preInsert t self n none = .ok () → append lx t self [.node n] =
        called (attach t n (t.owner self)) (lx.append (attach t n (t.owner self)) self n) := by
      intro n hn
      simp only [append, appendLoop, hn, List.length_nil, gt_iff_lt, Nat.lt_irrefl, if_false]
      cases lx.append (attach t n (t.owner self)) self n <;> rfl
    cases s with
    | appendChild n => exact happ n h
    | insert i n =>
      simp only [Single.node, Single.child] at h
      simp only [Single.call, insert, h, Single.node]
    | insertBefore n c =>
      simp only [Single.node, Single.child] at h hn
      simp only [Single.call, insertBefore, h, Single.node]
      have h0 : preInsert t self n none = .ok () :=
        preInsert_fine hp (by intro x hx; cases hx) hn
      cases (if c = some n then lx.next t n else c) with
      | none => exact happ n h0
      | some r =>
        simp only [addPrevious]
        rw [if_neg (by rw [isChild_iff] at hn; exact not_not_intro hn)]
    | replace o n =>
      simp only [Single.node, Single.child] at h hc
      have hr : preRemove t self o = .ok () :=
        removal_spec t self o none (.fine hp (hc o rfl))
      simp only [Single.call, replace, h, hr, both, Single.node]

example : Insertion sample 1 (Single.replace 2 3).node (Single.replace 2 3).child none :=
  .fine (.inr rfl) (fun h => by have := sample_above h; simp only [Single.node] at this; omega)
    (by intro x h; cases h; simp [sample]) (.inr (.inr rfl)) (by intro h; simp [sample] at h)

/-- **C131, giving out.**  A child that is not there cannot be removed, and
nothing changes; one that is there is removed by lxml. -/
theorem remove_spec (lx : Lxml) (t : Tree) (self c : Nat) (hk : t.kind self = .element) :
    (c ∉ t.kids self → Refused (remove lx t self (some c)) "NotFoundError" t) ∧
    (c ∈ t.kids self → remove lx t self (some c) = called t (lx.remove t self c)) := by
  constructor
  · intro h
    have := removal_spec t self c _ (.missing (.inr hk) h)
    simp only [Gives] at this
    simp only [Refused, remove, removeNode, this]
  · intro h
    have := removal_spec t self c _ (.fine (.inr hk) h)
    simp only [Gives] at this
    simp only [remove, removeNode, this]

/-- **C131, siblings.**  A node that cannot be a child cannot be put beside
another either, and nothing changes. -/
theorem sibling_refused (lx : Lxml) (t : Tree) (self n : Nat) (h : ¬ IsChild (t.kind n)) :
    Refused (addNext lx t self n) "HierarchyRequestError" t ∧
    Refused (addPrevious lx t self n) "HierarchyRequestError" t := by
  rw [isChild_iff] at h
  constructor
  · unfold Refused addNext; rw [if_pos h]; rfl
  · unfold Refused addPrevious; rw [if_pos h]; rfl

theorem sibling_allowed (lx : Lxml) (t : Tree) (self n : Nat) (h : IsChild (t.kind n)) :
    addNext lx t self n = called (attach t n (t.owner self))
      (lx.addnext (attach t n (t.owner self)) self n) ∧
    addPrevious lx t self n = called (attach t n (t.owner self))
      (lx.addprevious (attach t n (t.owner self)) self n) := by
  rw [isChild_iff] at h
  constructor
  · unfold addNext; rw [if_neg (not_not_intro h)]
  · unfold addPrevious; rw [if_neg (not_not_intro h)]

example : ¬ IsChild (sample.kind 4) ∧ IsChild (sample.kind 3) :=
  ⟨by simp [sample, IsChild], .inr (.inr rfl)⟩

/-! ### Many nodes -/

theorem appendLoop_strs (lx : Lxml) (self : Nat) (ss : List Str) (items : List Item)
    (data : Str) (target : Option Nat) (t : Tree) :
    appendLoop lx self (ss.map .str ++ items) data target t =
      appendLoop lx self items (data ++ ss.flatten) target t := by
  induction ss generalizing data with
  | nil => simp
  | cons s ss ih =>
    simp only [List.map_cons, List.cons_append, appendLoop, ih, List.flatten_cons,
      List.append_assoc]

/-- **C131, several nodes.**  When the first node among the arguments of
`append` is refused, nothing has changed: strings before it are not written. -/
theorem append_first_partial (lx : Lxml) (t : Tree) (self n : Nat) (ss : List Str)
    (items : List Item) (hk : t.kind self = .element) (hn : ¬ IsChild (t.kind n)) :
    Refused (append lx t self (ss.map .str ++ .node n :: items)) "HierarchyRequestError" t := by
  unfold Refused append
  rw [appendLoop_strs]
  simp only [appendLoop, preInsert_kind (.inr hk) (by intro x h; cases h) hn (c := none)]
  rfl

example : sample.kind 1 = .element ∧ ¬ IsChild (sample.kind 4) :=
  ⟨rfl, by simp [sample, IsChild]⟩

/-- An lxml that does what its documentation says of `append`, for lists of
children, and nothing in the other methods. -/
def plain : Lxml where
  append t p n := .ok { t with kids := fun i =>
    if i = p then (t.kids p).filter (· ≠ n) ++ [n] else (t.kids i).filter (· ≠ n) }
  extend t _ _ := .ok t
  insert t _ _ _ := .ok t
  remove t p n := .ok { t with kids := fun i =>
    if i = p then (t.kids p).filter (· ≠ n) else t.kids i }
  replace t _ _ _ := .ok t
  addnext t _ _ := .ok t
  addprevious t _ _ := .ok t
  parent t n := if n ∈ t.kids 0 then some 0 else if n ∈ t.kids 1 then some 1 else none
  next _ _ := none
  tailAppend t _ _ := t
  tailPrepend t _ _ := t

/-- **C131 violated: half of an `append`.**  When a later node is refused the
earlier ones have been added already. -/
theorem append_half_violated : ∃ (t : Tree) (self a b : Nat),
    t.kind self = .element ∧ ¬ IsChild (t.kind b) ∧
    (append plain t self [.node a, .node b]).1 = .error (.dom "HierarchyRequestError") ∧
    (append plain t self [.node a, .node b]).2.kids self ≠ t.kids self :=
  ⟨sample, 1, 3, 4, rfl, by simp [sample, IsChild], rfl, by decide⟩

/-- **C131 violated: `prepend` loses the text.**  An element that refuses the
first node given to `prepend` has lost its text, whatever it was. -/
theorem prepend_text_violated (lx : Lxml) (t : Tree) (self n : Nat) (ss : List Str)
    (items : List Item) (hk : t.kind self = .element) (hn : ¬ IsChild (t.kind n))
    (ht : t.text self ≠ []) :
    (prepend lx t self (ss.map .str ++ .node n :: items)).1
        = .error (.dom "HierarchyRequestError") ∧
    (prepend lx t self (ss.map .str ++ .node n :: items)).2.text self = [] := by
  have key : ∀ (text : Str) (data : Str) (ss : List Str) (target first : Option Nat) (t : Tree),
      t.kind self = .element → ¬ IsChild (t.kind n) →
      prependLoop lx self text (ss.map .str ++ .node n :: items) data target first t
        = (.error hierarchy, t) := by
    intro text data ss target first t hk hn
    induction ss generalizing data with
    | nil =>
      simp only [List.map_nil, List.nil_append, prependLoop,
        preInsert_kind (.inr hk) (by intro x h; cases h) hn (c := none)]
    | cons s ss ih => simpa only [List.map_cons, List.cons_append, prependLoop] using ih _
  have hl : (t.text self).length > 0 := List.length_pos_iff.2 ht
  unfold prepend
  simp only [if_pos hl]
  rw [key]
  · exact ⟨rfl, by simp⟩
  · exact hk
  · exact hn

example : sample.kind 2 = .element ∧ sample.text 2 ≠ [] ∧ ¬ IsChild (sample.kind 4) :=
  ⟨rfl, by decide, by simp [sample, IsChild]⟩

/-- **C131, `extend`.**  When one of the nodes is refused, no element has got
or lost a child or text. -/
theorem extend_children (lx : Lxml) (t : Tree) (self : Nat) (nodes : Iter)
    (hk : t.kind self = .element) (hn : ∃ n ∈ nodes.items, ¬ IsChild (t.kind n)) :
    (extend lx t self nodes).1 = .error (.dom "HierarchyRequestError") ∧
    (extend lx t self nodes).2.kids = t.kids ∧ (extend lx t self nodes).2.text = t.text := by
  have key : ∀ (doc : Option Nat) (ns : List Nat) (t : Tree), t.kind self = .element →
      (∃ n ∈ ns, ¬ IsChild (t.kind n)) →
      ∃ t', extendLoop self doc ns t = (.error hierarchy, t') ∧
        t'.kids = t.kids ∧ t'.text = t.text := by
    intro doc ns
    induction ns with
    | nil => rintro t _ ⟨n, hn, _⟩; cases hn
    | cons a as ih =>
      intro t hk h
      by_cases ha : IsChild (t.kind a)
      · have h' : ∃ n ∈ as, ¬ IsChild ((attach t a doc).kind n) := by
          obtain ⟨n, hn, hb⟩ := h
          rcases List.mem_cons.1 hn with rfl | hn
          · exact absurd ha hb
          · exact ⟨n, hn, hb⟩
        obtain ⟨t', h1, h2, h3⟩ := ih (attach t a doc) hk h'
        refine ⟨t', ?_, h2, h3⟩
        simp only [extendLoop,
          preInsert_fine (.inr hk) (by intro x h; cases h) ha (c := none), h1]
      · refine ⟨t, ?_, rfl, rfl⟩
        simp only [extendLoop,
          preInsert_kind (.inr hk) (by intro x h; cases h) ha (c := none)]
  obtain ⟨t', h1, h2, h3⟩ := key (t.owner self) nodes.items t hk hn
  simp only [extend, h1]
  exact ⟨rfl, h2, h3⟩

example : ∃ n ∈ (Iter.mk [3, 4] false).items, ¬ IsChild (sample.kind n) :=
  ⟨4, by simp, by simp [sample, IsChild]⟩

/-- **C131, `extend`.**  When all are allowed, lxml is asked to add all of
them, in order. -/
theorem extend_allowed (lx : Lxml) (t : Tree) (self : Nat) (ns : List Nat)
    (hk : t.kind self = .element) (hn : ∀ n ∈ ns, IsChild (t.kind n)) :
    ∃ t', t'.kids = t.kids ∧ t'.text = t.text ∧ t'.kind = t.kind ∧
      (∀ i, t'.owner i = if i ∈ ns then t.owner self else t.owner i) ∧
      extend lx t self ⟨ns, false⟩ = called t' (lx.extend t' self ns) := by
  have key : ∀ (doc : Option Nat) (ns : List Nat) (t : Tree), t.kind self = .element →
      (∀ n ∈ ns, IsChild (t.kind n)) →
      ∃ t', extendLoop self doc ns t = (.ok (), t') ∧
        t'.kids = t.kids ∧ t'.text = t.text ∧ t'.kind = t.kind ∧
        ∀ i, t'.owner i = if i ∈ ns then doc else t.owner i := by
    intro doc ns
    induction ns with
    | nil => intro t _ _; exact ⟨t, rfl, rfl, rfl, rfl, by simp⟩
    | cons a as ih =>
      intro t hk h
      obtain ⟨t', h1, h2, h3, h4, h5⟩ := ih (attach t a doc) hk
        (fun n hn => h n (List.mem_cons_of_mem _ hn))
      refine ⟨t', ?_, h2, h3, h4, ?_⟩
      · simp only [extendLoop, preInsert_fine (.inr hk) (by intro x h; cases h)
          (h a List.mem_cons_self) (c := none), h1]
      · intro i
        rw [h5 i]
        by_cases h6 : i ∈ as
        · simp [h6]
        · by_cases h7 : i = a <;> simp [attach, h6, h7]
  obtain ⟨t', h1, h2, h3, h4, h5⟩ := key (t.owner self) ns t hk hn
  exact ⟨t', h2, h3, h4, h5, by simp [extend, h1, Iter.again]⟩

example : ∀ n ∈ [3, 5], IsChild (sample.kind n) := by
  intro n hn; simp at hn; rcases hn with rfl | rfl <;> simp [sample, IsChild]

/-- **C131 violated: `extend` with a generator.**  An iterable that can be read
only once is read by the check: lxml is asked to add nothing, and no exception
says so. -/
theorem extend_once_violated (lx : Lxml) (t : Tree) (self : Nat) (ns : List Nat)
    (hk : t.kind self = .element) (hn : ∀ n ∈ ns, IsChild (t.kind n)) :
    ∃ t', t'.kids = t.kids ∧
      extend lx t self ⟨ns, true⟩ = called t' (lx.extend t' self []) := by
  obtain ⟨t', h1, _, _, _, h2⟩ := extend_allowed
    { lx with extend := fun t p _ => lx.extend t p [] } t self ns hk hn
  refine ⟨t', h1, ?_⟩
  rw [← h2]
  simp only [extend, Iter.again]
  simp

/-- **C131 violated: a node can be put above itself.**  The check passes
whenever the kinds are right, also when the node is the element itself or
stands above it. -/
theorem above_violated (t : Tree) (p n : Nat) (hp : t.kind p = .element)
    (hn : t.kind n = .element) (ha : Above t n p) :
    Insertion t p n none (some "HierarchyRequestError") ∧ preInsert t p n none = .ok () :=
  ⟨.above (.inr hp) ha, preInsert_fine (.inr hp) (by intro x h; cases h) (.inl hn)⟩

example : sample.kind 2 = .element ∧ sample.kind 1 = .element ∧ Above sample 1 2 :=
  ⟨rfl, rfl, .step (.self 1) (by simp [sample])⟩

/-- **C131 violated: a second root.**  The check of a document passes for an
element when the document has a root already. -/
theorem second_root_violated (t : Tree) (p n r : Nat) (hp : t.kind p = .document)
    (hn : t.kind n = .element) (hr : r ∈ t.kids p) (hk : t.kind r = .element)
    (ha : ¬ Above t n p) :
    Insertion t p n none (some "HierarchyRequestError") ∧ preInsert t p n none = .ok () :=
  ⟨.root r (.inl hp) ha (by intro x h; cases h) (.inl hn) hp hn hr hk,
    preInsert_fine (.inl hp) (by intro x h; cases h) (.inl hn)⟩

example : sample.kind 0 = .document ∧ sample.kind 5 = .element ∧ 1 ∈ sample.kids 0 ∧
    sample.kind 1 = .element ∧ ¬ Above sample 5 0 :=
  ⟨rfl, rfl, by simp [sample], rfl, fun h => by have := sample_above h; omega⟩

/-- **C131 violated: removing nothing.**  `remove_child(None)` is not refused:
it takes the element itself out of its parent. -/
theorem remove_none_violated : ∃ (t : Tree) (self : Nat),
    (remove plain t self none).1 = .ok () ∧
    self ∈ t.kids 1 ∧ self ∉ (remove plain t self none).2.kids 1 :=
  ⟨sample, 2, rfl, by decide, by decide⟩

/-! ### The exceptions -/

/-- The legacy codes of the standard, by name. -/
inductive Code : String → Nat → Prop
  | hierarchy : Code "HierarchyRequestError" 3
  | wrongDocument : Code "WrongDocumentError" 4
  | invalidCharacter : Code "InvalidCharacterError" 5
  | noModification : Code "NoModificationAllowedError" 7
  | notFound : Code "NotFoundError" 8
  | notSupported : Code "NotSupportedError" 9
  | inUse : Code "InUseAttributeError" 10
  | invalidState : Code "InvalidStateError" 11
  | syntaxError : Code "SyntaxError" 12
  | invalidModification : Code "InvalidModificationError" 13
  | namespaceError : Code "NamespaceError" 14
  | security : Code "SecurityError" 18
  | network : Code "NetworkError" 19
  | abort : Code "AbortError" 20
  | url : Code "URLMismatchError" 21
  | quota : Code "QuotaExceededError" 22
  | timeout : Code "TimeoutError" 23
  | nodeType : Code "InvalidNodeTypeError" 24
  | dataClone : Code "DataCloneError" 25

/-- The name that an exception has: the class, or for `DOMException` the name
given, or `Error`. -/
inductive Named : Option String → Option String → String → Prop
  | cls (k : String) (n : Option String) : Named (some k) n k
  | given (n : String) : Named none (some n) n
  | default : Named none none "Error"

theorem lookup_code {name : String} {n : Nat} (h : Code name n) :
    (errorNames.lookup name).getD 0 = n := by
  cases h <;> rfl

theorem lookup_none {name : String} (h : ∀ n, ¬ Code name n) :
    (errorNames.lookup name).getD 0 = 0 := by
  have key : ∀ l : List (String × Nat), (∀ p ∈ l, p.1 ≠ name) → l.lookup name = none := by
    intro l
    induction l with
    | nil => intro _; rfl
    | cons p l ih =>
      intro hl
      obtain ⟨a, b⟩ := p
      have : (name == a) = false := by
        simp only [beq_eq_false_iff_ne]
        exact fun e => hl _ List.mem_cons_self e.symm
      simp only [List.lookup_cons, this]
      exact ih (fun p hp => hl p (List.mem_cons_of_mem _ hp))
  rw [key]
  · rfl
  · intro p hp e
    subst e
    refine h p.2 ?_
    simp only [errorNames, List.mem_cons, List.not_mem_nil, or_false] at hp
    rcases hp with rfl|rfl|rfl|rfl|rfl|rfl|rfl|rfl|rfl|rfl|rfl|rfl|rfl|rfl|rfl|rfl|rfl|rfl|rfl <;>
      constructor

/-- **C131, exceptions.**  An exception has the name of its class, the code
that the standard gives to this name (0 when there is none), and the message
it was made with: the keyword, else the arguments joined by spaces. -/
theorem exception_spec (c : Call) (ho : c.other = false) :
    ∃ e, make c = .ok e ∧ Named c.cls c.name e.name ∧
      (∀ n, Code e.name n → e.code = n) ∧ ((∀ n, ¬ Code e.name n) → e.code = 0) ∧
      (∀ m, c.message = some m → m ≠ "" → e.message = m) ∧
      (c.message = none ∨ c.message = some "" →
        e.message = " ".intercalate c.args) := by
  refine ⟨_, by simp only [make, ho]; rfl, ?_, ?_, ?_, ?_, ?_⟩
  · cases hc : c.cls with
    | some k => exact .cls k _
    | none =>
      cases hn : c.name with
      | some n => exact .given n
      | none => exact .default
  · intro n h; exact lookup_code h
  · intro h; exact lookup_none h
  · intro m hm hne
    simp [hm, hne]
  · intro hm
    have : c.message.getD "" = "" := by rcases hm with h | h <;> simp [h]
    by_cases ha : c.args = []
    · simp [this, ha]
    · simp [this, ha]

example : (Call.mk (some "NotFoundError") ["no", "child"] none none false).other = false := rfl
example : make (Call.mk (some "NotFoundError") ["no", "child"] none none false) =
    .ok ⟨"NotFoundError", 8, "no child"⟩ := by rfl

/-- A keyword that is not known is refused. -/
theorem exception_keyword (c : Call) (ho : c.other = true) : make c = .error .typeError := by
  simp [make, ho]

example : (Call.mk none [] none none true).other = true := rfl

end SvgPy.Validity
