import Verif.Model.OwnerDoc

/-! Property C102: the nodes of a document belong to it. -/

set_option linter.unusedSimpArgs false

namespace SvgPy.OwnerDoc

/-! ### The specification -/

/-- Operations that leave the roots of documents where they are: a root is not moved below another node, put
beside one or taken out except by its document, and what becomes a root has no parent and is not the root
of another document. -/
def Tame (s : State) : Op → Prop
  | .into n _ => ∀ d, s.root d ≠ some n
  | .beside n _ => ∀ d, s.root d ≠ some n
  | .remove n => ∀ d, s.root d ≠ some n
  | .setRoot _ n => s.parent n = none ∧ ∀ d, s.root d ≠ some n
  | .create _ _ => True
  | .unsetRoot _ => True
  | .forget _ => True

/-- Executions of such operations. -/
inductive TameSteps : State → List Op → State → Prop
  | nil (s : State) : TameSteps s [] s
  | cons {s t u : State} {op : Op} {ops : List Op} : Tame s op → Step s op t → TameSteps t ops u →
      TameSteps s (op :: ops) u

/-- At the start there are nodes in trees, and no documents. -/
def Start (s : State) : Prop :=
  (∀ x, s.stored x = none) ∧ (∀ d, s.root d = none) ∧
    ∃ depth : Nat → Nat, ∀ x y, s.parent x = some y → depth y < depth x

/-! ### Proofs -/

private structure Inv (s : State) : Prop where
  acyclic : ∃ depth : Nat → Nat, ∀ x y, s.parent x = some y → depth y < depth x
  roots : ∀ d r, s.root d = some r → s.parent r = none ∧ s.stored r = some d ∧
    ∀ x, Up s x r → s.stored x = none ∨ s.stored x = some d

private theorem up_trans {s : State} {x y z : Nat} (h : Up s x y) (h2 : Up s y z) : Up s x z := by
  induction h with
  | refl => exact h2
  | step hp _ ih => exact .step hp (ih h2)

/-- Above a node there is one line. -/
private theorem up_total {s : State} {x y z : Nat} (h : Up s x y) (h2 : Up s x z) : Up s y z ∨ Up s z y := by
  induction h with
  | refl => exact .inl h2
  | step hp h ih =>
    cases h2 with
    | refl => exact .inr (.step hp h)
    | step hp2 h2 =>
      rw [hp] at hp2
      cases hp2
      exact ih h2

private theorem up_root {s : State} {r y : Nat} (hr : s.parent r = none) (h : Up s r y) : y = r := by
  cases h with
  | refl => rfl
  | step hp _ =>
    rw [hr] at hp
    cases hp

private theorem owner_unique {s : State} {x : Nat} {o o' : Option Nat} (h : Owner s x o) (h' : Owner s x o') :
    o = o' := by
  induction h with
  | own hs =>
    cases h' with
    | own hs' => rw [← hs, ← hs']
    | up hs' _ _ => rw [hs] at hs'; cases hs'
    | top hs' _ => rw [hs] at hs'; cases hs'
  | up hs hp _ ih =>
    cases h' with
    | own hs' => rw [hs] at hs'; cases hs'
    | up _ hp' h' =>
      rw [hp] at hp'
      cases hp'
      exact ih h'
    | top _ hp' => rw [hp] at hp'; cases hp'
  | top hs hp =>
    cases h' with
    | own hs' => rw [hs] at hs'; cases hs'
    | up _ hp' _ => rw [hp] at hp'; cases hp'
    | top _ _ => rfl

private theorem owner_inside {s : State} (h : Inv s) {d r x : Nat} (hr : s.root d = some r) (hx : Up s x r) :
    Owner s x (some d) := by
  obtain ⟨h1, h2, h3⟩ := h.roots d r hr
  clear hr
  induction hx with
  | refl => exact .own h2
  | step hp hu ih =>
    rcases h3 _ (.step hp hu) with h4 | h4
    · exact .up h4 hp (ih h1 h2 h3)
    · exact .own h4

private theorem set_same {α : Type} {f : Nat → α} {x : Nat} {v : α} : set f x v x = v := by simp [set]

private theorem set_other {α : Type} {f : Nat → α} {x y : Nat} {v : α} (h : y ≠ x) : set f x v y = f y := by
  simp [set, h]

private theorem up_below {s : State} {n x y : Nat} (hp : s.parent x = some y) (hx : x ≠ n) (h : Up s x n) :
    Up s y n := by
  cases h with
  | refl => exact absurd rfl hx
  | step hp' h =>
    rw [hp] at hp'
    cases hp'
    exact h

/-- What is above a node below the moved one, in the new tree. -/
private theorem up_moved {s : State} {n : Nat} {q : Option Nat} {st : Nat → Option Nat} {fl : Nat → Nat}
    {rt : Nat → Option Nat} {x z : Nat} (h : Up ⟨set s.parent n q, fl, st, rt⟩ x z) (hx : Up s x n) :
    Up s z n ∨ ∃ p, q = some p ∧ Up ⟨set s.parent n q, fl, st, rt⟩ p z := by
  induction h with
  | refl => exact .inl hx
  | @step x y z hp h ih =>
    by_cases hn : x = n
    · subst hn
      have : q = some y := by simpa [set] using hp
      exact .inr ⟨y, this, h⟩
    · have hp' : s.parent x = some y := by simpa [set, hn] using hp
      exact ih (up_below hp' hn hx)

/-- The line above a node that does not meet the moved one stays. -/
private theorem up_kept {s : State} {n : Nat} {q : Option Nat} {st : Nat → Option Nat} {fl : Nat → Nat}
    {rt : Nat → Option Nat} {x z : Nat} (h : Up ⟨set s.parent n q, fl, st, rt⟩ x z) (hx : ¬ Up s x n) : Up s x z := by
  induction h with
  | refl => exact .refl _
  | @step x y z hp h ih =>
    by_cases hn : x = n
    · exact absurd (hn ▸ Up.refl x) hx
    · have hp' : s.parent x = some y := by simpa [set, hn] using hp
      exact .step hp' (ih (fun hu => hx (.step hp' hu)))

private theorem attached_some {s : State} {n : Nat} {o : Option Nat} {st : Nat → Option Nat}
    (h : Attached s n o st) {x : Nat} (hx : ¬ Up s x n) : st x = s.stored x := by
  cases o with
  | none => exact congrFun h x
  | some d => exact (h x).2 hx

private theorem acyclic_move {s : State} (h : ∃ depth : Nat → Nat, ∀ x y, s.parent x = some y → depth y < depth x)
    {n : Nat} {q : Option Nat} (hq : ∀ p, q = some p → ¬ Up s p n) :
    ∃ depth : Nat → Nat, ∀ x y, set s.parent n q x = some y → depth y < depth x := by
  classical
  obtain ⟨depth, hd⟩ := h
  let k : Nat := (q.map depth).getD 0 + 1
  refine ⟨fun x => if Up s x n then depth x + k else depth x, fun x y hxy => ?_⟩
  by_cases hx : x = n
  · subst hx
    have hqy : q = some y := by simpa [set] using hxy
    have hny := hq y hqy
    have hk : k = depth y + 1 := by simp [k, hqy]
    simp only [if_neg hny, if_pos (Up.refl x)]
    omega
  · have hp : s.parent x = some y := by simpa [set, hx] using hxy
    have h1 := hd x y hp
    by_cases hy : Up s y n
    · simp only [if_pos hy, if_pos (Up.step hp hy)]
      omega
    · have hxn : ¬ Up s x n := by
        intro hu
        cases hu with
        | refl => exact hx rfl
        | step hp' hu =>
          rw [hp] at hp'
          cases hp'
          exact hy hu
      simp only [if_neg hy, if_neg hxn]
      exact h1

/-- Moving a node that is no root, below a node or beside one. -/
private theorem inv_move {s : State} (h : Inv s) {n m : Nat} {q : Option Nat} {o : Option Nat}
    {st : Nat → Option Nat} {fl : Nat → Nat} (hm : ¬ Up s m n) (ho : Owner s m o) (hs : Attached s n o st)
    (hr : ∀ d, s.root d ≠ some n) (hq : ∀ p, q = some p → Up s m p) :
    Inv ⟨set s.parent n q, fl, st, s.root⟩ := by
  have hqn : ∀ p, q = some p → ¬ Up s p n := fun p hp hu => hm (up_trans (hq p hp) hu)
  refine ⟨acyclic_move h.acyclic hqn, fun d r hdr => ?_⟩
  obtain ⟨h1, h2, h3⟩ := h.roots d r hdr
  have hrn : r ≠ n := fun e => hr d (by rw [← e]; exact hdr)
  have hru : ¬ Up s r n := fun hu => hrn (up_root h1 hu).symm
  refine ⟨by simpa [set, hrn] using h1, (attached_some hs hru).trans h2, fun x hx => ?_⟩
  show st x = none ∨ st x = some d
  by_cases hxn : Up s x n
  · have hx' : ∃ p, q = some p ∧ Up s p r := by
      rcases up_moved hx hxn with hu | ⟨p, hp, hu⟩
      · exact absurd hu hru
      · exact ⟨p, hp, up_kept hu (hqn p hp)⟩
    obtain ⟨p, hp, hu⟩ := hx'
    have ho' : o = some d := owner_unique ho (owner_inside h hdr (up_trans (hq p hp) hu))
    subst ho'
    exact .inr ((hs x).1 hxn)
  · rw [attached_some hs hxn]
    exact h3 x (up_kept hx hxn)

private theorem up_same {s : State} {fl : Nat → Nat} {st : Nat → Option Nat} {rt : Nat → Option Nat} {x z : Nat} :
    Up ⟨s.parent, fl, st, rt⟩ x z ↔ Up s x z := by
  constructor
  · intro h
    induction h with
    | refl => exact .refl _
    | step hp _ ih => exact .step hp ih
  · intro h
    induction h with
    | refl => exact .refl _
    | step hp _ ih => exact .step (s := ⟨s.parent, fl, st, rt⟩) hp ih

private theorem inv_step {s t : State} {op : Op} (h : Inv s) (ht : Tame s op) (hs : Step s op t) : Inv t := by
  cases hs with
  | @create d n hp hc hr =>
    refine ⟨h.acyclic, fun d' r hdr => ?_⟩
    obtain ⟨h1, h2, h3⟩ := h.roots d' r hdr
    have hrn : r ≠ n := fun e => hr d' (by rw [← e]; exact hdr)
    refine ⟨h1, by simpa [set, hrn] using h2, fun x hx => ?_⟩
    have hx' := up_same.mp hx
    have hxn : x ≠ n := by
      rintro rfl
      exact hrn (up_root hp hx')
    show set s.stored n (some d) x = none ∨ set s.stored n (some d) x = some d'
    rw [set_other hxn]
    exact h3 x hx'
  | into hn ho hs => exact inv_move h hn ho hs ht (fun p hp => by cases hp; exact .refl _)
  | @cycle n p o st hu ho hs =>
    refine ⟨h.acyclic, fun d r hdr => ?_⟩
    obtain ⟨h1, h2, h3⟩ := h.roots d r hdr
    have key : ∀ x, Up s x r → st x = none ∨ st x = some d := by
      intro x hx
      by_cases hxn : Up s x n
      · have hnr : Up s n r := by
          rcases up_total hxn hx with h4 | h4
          · exact h4
          · rw [up_root h1 h4]
            exact .refl _
        have ho' : o = some d := owner_unique ho (owner_inside h hdr (up_trans hu hnr))
        subst ho'
        exact .inr ((hs x).1 hxn)
      · rw [attached_some hs hxn]
        exact h3 x hx
    refine ⟨h1, ?_, fun x hx => key x (up_same.mp hx)⟩
    show st r = some d
    by_cases hrn : Up s r n
    · have := up_root h1 hrn
      subst this
      have ho' : o = some d := owner_unique ho (owner_inside h hdr hu)
      subst ho'
      exact (hs _).1 hrn
    · rw [attached_some hs hrn]
      exact h2
  | beside hn ho hs => exact inv_move h hn ho hs ht (fun p hp => .step hp (.refl _))
  | @remove n k hk =>
    refine ⟨acyclic_move h.acyclic (fun p hp => by cases hp), fun d r hdr => ?_⟩
    obtain ⟨h1, h2, h3⟩ := h.roots d r hdr
    have hrn : r ≠ n := fun e => ht d (by rw [← e]; exact hdr)
    refine ⟨by simpa [set, hrn] using h1, h2, fun x hx => h3 x ?_⟩
    by_cases hxn : Up s x n
    · rcases up_moved hx hxn with hu | ⟨p, hp, _⟩
      · exact absurd (up_root h1 hu).symm hrn
      · cases hp
    · exact up_kept hx hxn
  | @setRoot d n st hd hs =>
    refine ⟨h.acyclic, fun d' r hdr => ?_⟩
    by_cases hdd : d' = d
    · subst hdd
      have hrn : n = r := by simpa [set] using hdr
      subst hrn
      refine ⟨ht.1, (hs n).1 (.refl _), fun x hx => .inr ((hs x).1 (up_same.mp hx))⟩
    · have hdr' : s.root d' = some r := by simpa [set, hdd] using hdr
      obtain ⟨h1, h2, h3⟩ := h.roots d' r hdr'
      have hrn : r ≠ n := fun e => ht.2 d' (by rw [← e]; exact hdr')
      have hno : ∀ x, Up s x r → ¬ Up s x n := by
        intro x hx hxn
        rcases up_total hx hxn with h4 | h4
        · exact hrn (up_root h1 h4).symm
        · exact hrn (up_root ht.1 h4)
      refine ⟨h1, ((hs r).2 (hno r (.refl _))).trans h2, fun x hx => ?_⟩
      have hx' := up_same.mp hx
      have := (hs x).2 (hno x hx')
      show st x = none ∨ st x = some d'
      rw [this]
      exact h3 x hx'
  | @unsetRoot d =>
    refine ⟨h.acyclic, fun d' r hdr => ?_⟩
    by_cases hdd : d' = d
    · subst hdd
      simp [set] at hdr
    · have hdr' : s.root d' = some r := by simpa [set, hdd] using hdr
      obtain ⟨h1, h2, h3⟩ := h.roots d' r hdr'
      exact ⟨h1, h2, fun x hx => h3 x (up_same.mp hx)⟩
  | @forget n hn =>
    refine ⟨h.acyclic, fun d r hdr => ?_⟩
    obtain ⟨h1, h2, h3⟩ := h.roots d r hdr
    have hrn : r ≠ n := fun e => hn d (by rw [← e]; exact hdr)
    refine ⟨h1, by simpa [set, hrn] using h2, fun x hx => ?_⟩
    show set s.stored n none x = none ∨ set s.stored n none x = some d
    by_cases hx' : x = n
    · exact .inl (by simp [set, hx'])
    · rw [set_other hx']
      exact h3 x (up_same.mp hx)

private theorem inv_steps {s t : State} {ops : List Op} (h : Inv s) (hs : TameSteps s ops t) : Inv t := by
  induction hs with
  | nil => exact h
  | cons ht hs _ ih => exact ih (inv_step h ht hs)

private theorem inv_start {s : State} (h : Start s) : Inv s :=
  ⟨h.2.2, fun d r hr => by rw [h.2.1 d] at hr; cases hr⟩

/-- **C102**.  However trees have been changed, and whichever Python objects have been dropped and made
anew: `owner_document` of the root of a document, and of every node below it, is that document, and
nothing else.  Missing from the full statement: comments beside the root, roots that are moved below
other elements, nodes that have been taken out (see below). -/
theorem owner_in_document_partial {s t : State} {ops : List Op} (h : Start s) (hs : TameSteps s ops t) {d r x : Nat}
    (hr : t.root d = some r) (hx : Up t x r) : ∀ o, Owner t x o ↔ o = some d := by
  have hi := inv_steps (inv_start h) hs
  have ho := owner_inside hi hr hx
  intro o
  constructor
  · intro h'
    exact owner_unique h' ho
  · rintro rfl
    exact ho

/-- **C102**.  The loop that looks for the document ends for every node. -/
theorem owner_ends {s t : State} {ops : List Op} (h : Start s) (hs : TameSteps s ops t) (x : Nat) :
    ∃ o, Owner t x o := by
  obtain ⟨depth, hd⟩ := (inv_steps (inv_start h) hs).acyclic
  generalize hk : depth x = k
  induction k using Nat.strongRecOn generalizing x with
  | ind k ih =>
    cases hst : t.stored x with
    | some d => exact ⟨_, .own hst⟩
    | none =>
      cases hp : t.parent x with
      | none => exact ⟨_, .top hst hp⟩
      | some y =>
        obtain ⟨o, ho⟩ := ih (depth y) (hk ▸ hd x y hp) y rfl
        exact ⟨o, .up hst hp ho⟩

/-! ### Instances and violations -/

/-- Nodes 0, 1, 2, … of which 1 is below 0 and the others are alone. -/
private def start : State := ⟨fun x => if x = 1 then some 0 else none, fun x => min x 3, fun _ => none, fun _ => none⟩

private theorem start_ok : Start start := by
  refine ⟨fun _ => rfl, fun _ => rfl, id, fun x y h => ?_⟩
  simp only [start] at h
  split at h
  · cases h
    subst_vars
    decide
  · cases h

private theorem start_up {st : Nat → Option Nat} {rt : Nat → Option Nat} {x z : Nat} :
    Up { start with stored := st, root := rt } x z ↔ x = z ∨ (x = 1 ∧ z = 0) := by
  constructor
  · intro h
    induction h with
    | refl => exact .inl rfl
    | @step x y z hp h ih =>
      have hx : x = 1 ∧ 0 = y := by simpa [start] using hp
      rcases ih with ih | ih
      · exact .inr ⟨hx.1, by omega⟩
      · omega
  · rintro (rfl | ⟨rfl, rfl⟩)
    · exact .refl _
    · exact .step rfl (.refl _)

/-- After document 0 got the root 0. -/
private def rooted : State :=
  { start with stored := fun x => if x ≤ 1 then some 0 else none, root := set start.root 0 (some 0) }

private theorem rooted_step : Step start (.setRoot 0 0) rooted := by
  refine .setRoot (st := fun x => if x ≤ 1 then some 0 else none) rfl fun x => ?_
  have e : Up start x 0 ↔ x ≤ 1 := by
    have := start_up (st := start.stored) (rt := start.root) (x := x) (z := 0)
    rw [this]
    omega
  rw [e]
  exact ⟨fun h => if_pos h, fun h => if_neg h⟩

private theorem rooted_tame : Tame start (.setRoot 0 0) := ⟨rfl, fun d => by simp [start]⟩

private theorem rooted_root {d n : Nat} (h : n ≠ 0) : rooted.root d ≠ some n := by
  intro e
  simp only [rooted, set, start] at e
  split at e
  · simp only [Option.some.injEq] at e
    exact h e.symm
  · cases e

private theorem rooted_up {x z : Nat} : Up rooted x z ↔ x = z ∨ (x = 1 ∧ z = 0) := start_up

/-- Non-trivial instance: a root with a child, a node that is moved below the child, whose Python object
is dropped then, and a node made by another document. -/
example : ∃ t, TameSteps start [.setRoot 0 0, .into 2 1, .forget 2, .create 1 3] t ∧ t.root 0 = some 0 ∧ Up t 2 0 := by
  refine ⟨_, .cons rooted_tame rooted_step (.cons (fun d => rooted_root (by decide))
    (.into (o := some 0) (st := fun x => if x ≤ 2 then some 0 else none) ?_ (.own rfl) fun x => ?_)
    (.cons trivial (.forget fun d => rooted_root (by decide)) (.cons trivial (.create rfl (fun x => ?_)
    fun d => rooted_root (by decide)) (.nil _)))), rfl, .step rfl (.step rfl (.refl _))⟩
  · rw [rooted_up]
    omega
  · rw [rooted_up]
    constructor
    · intro h
      exact if_pos (by omega)
    · intro h
      show (if x ≤ 2 then some 0 else none) = if x ≤ 1 then some 0 else none
      by_cases h1 : x ≤ 1
      · rw [if_pos h1, if_pos (by omega)]
      · rw [if_neg h1, if_neg (by omega)]
  · simp only [set, rooted, start]
    split
    · decide
    · split <;> decide

/-- **C102** fails: a comment in front of the root element in a file belongs to no document, although the
document has it as a child. -/
theorem comment_violated : ∃ s t, Start s ∧ TameSteps s [.setRoot 0 0] t ∧ t.root 0 = some 0 ∧
    t.parent 2 = t.parent 0 ∧ t.file 2 = t.file 0 ∧ Owner t 2 none := by
  have e : ∀ x z, Up { start with file := fun _ => 0 } x z ↔ x = z ∨ (x = 1 ∧ z = 0) := by
    intro x z
    have h : Up ⟨start.parent, fun _ => 0, start.stored, start.root⟩ x z ↔ Up start x z := up_same
    exact h.trans (start_up (st := start.stored) (rt := start.root))
  refine ⟨{ start with file := fun _ => 0 }, _, ⟨start_ok.1, start_ok.2.1, start_ok.2.2⟩,
    .cons ⟨rfl, fun d => by simp [start]⟩
      (.setRoot (st := fun x => if x ≤ 1 then some 0 else none) rfl fun x => ?_) (.nil _),
    rfl, rfl, rfl, .top rfl rfl⟩
  rw [e]
  constructor
  · intro h
    exact if_pos (by omega)
  · intro h
    exact if_neg (by omega)

/-- **C102** fails: the document of a node that is taken out depends on whether its Python object was kept
meanwhile. -/
theorem removed_violated :
    (∃ t, TameSteps start [.setRoot 0 0, .remove 1] t ∧ Owner t 1 (some 0)) ∧
    ∃ t, TameSteps start [.setRoot 0 0, .forget 1, .remove 1] t ∧ Owner t 1 none := by
  have fresh : ∀ x, start.file x ≠ 4 := fun x => by
    show min x 3 ≠ 4
    omega
  refine ⟨⟨_, .cons rooted_tame rooted_step (.cons (fun d => rooted_root (by decide)) (.remove (k := 4) fresh)
    (.nil _)), .own rfl⟩, _, .cons rooted_tame rooted_step (.cons trivial (.forget fun d => rooted_root (by decide))
    (.cons (fun d => rooted_root (by decide)) (.remove (k := 4) fresh) (.nil _))), .top rfl rfl⟩

/-- **C102** fails: a node that is moved from a document to a tree without document still belongs to the
document, and the tree does not. -/
theorem unowned_violated : ∃ t, TameSteps start [.setRoot 0 0, .into 1 2] t ∧ Up t 1 2 ∧ t.parent 2 = none ∧
    Owner t 1 (some 0) ∧ Owner t 2 none := by
  refine ⟨_, .cons rooted_tame rooted_step (.cons (fun d => rooted_root (by decide))
    (.into (o := none) (st := rooted.stored) ?_ (.top rfl rfl) rfl) (.nil _)), .step rfl (.refl _), rfl, .own rfl,
    .top rfl rfl⟩
  rw [rooted_up]
  omega

/-- **C102** fails: a root that is moved below the root of another document remains the root of the first,
and belongs to the second. -/
theorem moved_root_violated : ∃ t, Steps start [.setRoot 0 0, .setRoot 1 2, .into 0 2] t ∧ t.root 0 = some 0 ∧
    Owner t 0 (some 1) := by
  let s2 : State := { start with
    stored := fun x => if x = 2 then some 1 else if x ≤ 1 then some 0 else none,
    root := set rooted.root 1 (some 2) }
  have u2 : ∀ x z, Up s2 x z ↔ x = z ∨ (x = 1 ∧ z = 0) := fun x z => start_up
  have h2 : Step rooted (.setRoot 1 2) s2 := by
    refine .setRoot (st := s2.stored) rfl fun x => ?_
    rw [rooted_up]
    constructor
    · intro h
      exact if_pos (by omega)
    · intro h
      exact if_neg (by omega)
  refine ⟨_, .cons rooted_step (.cons h2 (.cons (.into (o := some 1)
    (st := fun x => if x ≤ 2 then some 1 else none) ?_ (.own rfl) fun x => ?_) (.nil _))), rfl, .own rfl⟩
  · rw [u2]
    omega
  · rw [u2]
    constructor
    · intro h
      exact if_pos (by omega)
    · intro h
      show (if x ≤ 2 then some 1 else none) = if x = 2 then some 1 else if x ≤ 1 then some 0 else none
      by_cases h1 : x = 2
      · rw [if_pos h1, if_pos (by omega)]
      · rw [if_neg h1, if_neg (by omega), if_neg (by omega)]

end SvgPy.OwnerDoc
