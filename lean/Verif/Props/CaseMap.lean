import Verif.Model.CaseMap
import Verif.Lemmas.PyDict

/-! Property C18: the case-insensitive mapping. -/

set_option linter.unusedSectionVars false
set_option linter.unusedSimpArgs false

namespace SvgPy.CaseMap

variable {κ β : Type} [DecidableEq κ]

/-! ### Specification: a map indexed by the lower-cased key -/

/-- The abstract state: the value of every lower-cased key, and the spellings
first used, oldest first. -/
structure Abs (κ β : Type) where
  val : κ → Option β
  order : List κ

/-- Nothing stored. -/
def Abs.empty : Abs κ β := ⟨fun _ => none, []⟩

/-- Assign. -/
def Abs.set (low : κ → κ) (a : Abs κ β) (k : κ) (v : β) : Abs κ β :=
  ⟨fun l => if l = low k then some v else a.val l,
   if (a.val (low k)).isSome then a.order else a.order ++ [k]⟩

/-- Remove. -/
def Abs.remove (low : κ → κ) (a : Abs κ β) (k : κ) : Abs κ β :=
  ⟨fun l => if l = low k then none else a.val l, a.order.filter (fun o => low o ≠ low k)⟩

/-- The operations a user can call. -/
inductive Op (κ β : Type)
  | set (k : κ) (v : β)
  | del (k : κ)
  | get (k : κ)
  | contains (k : κ)
  | pop (k : κ)
  | setdefault (k : κ) (v : β)
  | popitem
  | update (ps : List (κ × β))
  | clear

/-- What a call returns or raises. -/
inductive Out (κ β : Type)
  | none
  | bool (b : Bool)
  | value (v : β)
  | item (k : κ) (v : β)
  | raised (e : PyErr)
deriving DecidableEq

/-- The specification of each call. -/
def Abs.step (low : κ → κ) (a : Abs κ β) : Op κ β → Out κ β × Abs κ β
  | .set k v => (.none, a.set low k v)
  | .del k => if (a.val (low k)).isSome then (.none, a.remove low k) else (.raised .keyError, a)
  | .get k => match a.val (low k) with
    | some v => (.value v, a)
    | none => (.raised .keyError, a)
  | .contains k => (.bool (a.val (low k)).isSome, a)
  | .pop k => match a.val (low k) with
    | some v => (.value v, a.remove low k)
    | none => (.raised .keyError, a)
  | .setdefault k v => match a.val (low k) with
    | some v' => (.value v', a)
    | none => (.value v, a.set low k v)
  | .popitem => match a.order with
    | [] => (.raised .keyError, a)
    | k :: _ => match a.val (low k) with
      | some v => (.item k v, a.remove low k)
      | none => (.raised .keyError, a)
  | .update ps => (.none, ps.foldl (fun a p => a.set low p.1 p.2) a)
  | .clear => (.none, Abs.empty)

/-- All outputs of a history. -/
def Abs.run (low : κ → κ) : Abs κ β → List (Op κ β) → List (Out κ β) × Abs κ β
  | a, [] => ([], a)
  | a, op :: ops => let r := a.step low op; let s := r.2.run low ops; (r.1 :: s.1, s.2)

/-! ### The model's calls with the same interface -/

/-- One call on the modelled object; an exception leaves the object as it was. -/
def CMap.step (low : κ → κ) (m : CMap κ β) : Op κ β → Out κ β × CMap κ β
  | .set k v => (.none, m.setitem low k v)
  | .del k => match m.delitem low k with
    | .ok m' => (.none, m')
    | .error e => (.raised e, m)
  | .get k => match m.getitem low k with
    | .ok v => (.value v, m)
    | .error e => (.raised e, m)
  | .contains k => (.bool (m.contains low k), m)
  | .pop k => match m.pop low k with
    | .ok (v, m') => (.value v, m')
    | .error e => (.raised e, m)
  | .setdefault k v => let r := m.setdefault low k v; (.value r.1, r.2)
  | .popitem => match m.popitem low with
    | .ok ((k, v), m') => (.item k v, m')
    | .error e => (.raised e, m)
  | .update ps => (.none, m.update low ps)
  | .clear => (.none, m.clear low m.len)

/-- A history on the modelled object. -/
def CMap.run (low : κ → κ) : CMap κ β → List (Op κ β) → List (Out κ β) × CMap κ β
  | m, [] => ([], m)
  | m, op :: ops => let r := m.step low op; let s := r.2.run low ops; (r.1 :: s.1, s.2)

/-! ### Refinement -/

/-- The representation invariant: both dictionaries list the same entries, in the
order of the abstract state. -/
private structure Rel (low : κ → κ) (m : CMap κ β) (a : Abs κ β) : Prop where
  nodup : (a.order.map low).Nodup
  mem : ∀ l, (a.val l).isSome ↔ l ∈ a.order.map low
  keys : m.keys = a.order.map (fun o => (low o, o))
  data : m.data.map (fun p => (p.1, some p.2)) = a.order.map (fun o => (o, a.val (low o)))

private theorem keys_eq_of (d : Dict κ β) (L : List κ) (f : κ → Option β)
    (h : d.map (fun p => (p.1, some p.2)) = L.map (fun o => (o, f o))) : Dict.keys d = L := by
  have := congrArg (List.map Prod.fst) h
  simpa [Dict.keys, Function.comp_def] using this

private theorem get?_of (d : Dict κ β) (L : List κ) (f : κ → Option β)
    (h : d.map (fun p => (p.1, some p.2)) = L.map (fun o => (o, f o))) (k : κ) (hk : k ∈ L) :
    Dict.get? d k = f k := by
  induction d generalizing L with
  | nil => cases L <;> simp at h; simp at hk
  | cons p d ih =>
    obtain ⟨a, b⟩ := p
    cases L with
    | nil => simp at h
    | cons o L =>
      simp only [List.map_cons, List.cons.injEq, Prod.mk.injEq] at h
      obtain ⟨⟨rfl, h1⟩, h2⟩ := h
      by_cases e : a = k
      · subst e; simp [Dict.get?, h1]
      · simp only [Dict.get?, e, if_false]
        exact ih L h2 (by simpa [Ne.symm e] using hk)

private theorem keys_get? (low : κ → κ) (L : List κ) (l : κ) :
    Dict.get? (L.map (fun o => (low o, o))) l = L.find? (fun o => low o = l) := by
  induction L with
  | nil => rfl
  | cons o L ih =>
    by_cases e : low o = l
    · simp [Dict.get?, e]
    · simp [Dict.get?, e, ih]

private theorem low_inj {low : κ → κ} {L : List κ} (h : (L.map low).Nodup) {o o' : κ}
    (ho : o ∈ L) (ho' : o' ∈ L) (e : low o = low o') : o = o' :=
  List.inj_on_of_nodup_map h ho ho' e

private theorem order_nodup {low : κ → κ} {L : List κ} (h : (L.map low).Nodup) : L.Nodup :=
  h.of_map

private theorem rel_find {low : κ → κ} {m : CMap κ β} {a : Abs κ β} (R : Rel low m a) (k : κ) :
    (a.val (low k) = none ∧ Dict.get? m.keys (low k) = none) ∨
    (∃ o v, o ∈ a.order ∧ low o = low k ∧ a.val (low k) = some v ∧
      Dict.get? m.keys (low k) = some o ∧ Dict.get? m.data o = some v) := by
  rw [R.keys, keys_get?]
  cases hf : a.order.find? (fun o => decide (low o = low k)) with
  | none =>
    left
    refine ⟨?_, rfl⟩
    rw [List.find?_eq_none] at hf
    rw [← Option.not_isSome_iff_eq_none, R.mem]
    simp only [List.mem_map, not_exists, not_and]
    intro o ho
    simpa using hf o ho
  | some o =>
    right
    have ho := List.mem_of_find?_eq_some hf
    have hl : low o = low k := by simpa using List.find?_some hf
    have hs : (a.val (low k)).isSome := (R.mem _).mpr (List.mem_map.mpr ⟨o, ho, hl⟩)
    obtain ⟨v, hv⟩ := Option.isSome_iff_exists.mp hs
    refine ⟨o, v, ho, hl, hv, rfl, ?_⟩
    rw [get?_of m.data a.order (fun o => a.val (low o)) R.data o ho, hl, hv]

private theorem rel_empty (low : κ → κ) : Rel low (CMap.empty : CMap κ β) Abs.empty :=
  ⟨by simp [Abs.empty], by simp [Abs.empty], rfl, rfl⟩

private theorem getitem_rel {low : κ → κ} {m : CMap κ β} {a : Abs κ β} (R : Rel low m a) (k : κ) :
    m.getitem low k = match a.val (low k) with
      | some v => .ok v
      | none => .error .keyError := by
  rcases rel_find R k with ⟨h1, h2⟩ | ⟨o, v, ho, hl, hv, hk, hd⟩
  · simp [CMap.getitem, h1, h2]
  · simp [CMap.getitem, hv, hk, hd]

private theorem set_data (d : Dict κ β) (L : List κ) (f g : κ → Option β) (o : κ) (v : β)
    (hn : L.Nodup) (ho : o ∈ L)
    (h : d.map (fun p => (p.1, some p.2)) = L.map (fun o => (o, f o)))
    (hg : g o = some v) (hg' : ∀ o' ∈ L, o' ≠ o → g o' = f o') :
    (Dict.set d o v).map (fun p => (p.1, some p.2)) = L.map (fun o => (o, g o)) := by
  induction d generalizing L with
  | nil => cases L <;> simp at h; simp at ho
  | cons p d ih =>
    obtain ⟨a, b⟩ := p
    cases L with
    | nil => simp at h
    | cons c L =>
      simp only [List.map_cons, List.cons.injEq, Prod.mk.injEq] at h
      obtain ⟨⟨rfl, h1⟩, h2⟩ := h
      simp only [List.nodup_cons] at hn
      by_cases e : a = o
      · subst e
        simp only [Dict.set, if_true, List.map_cons, hg, h2, List.cons.injEq, true_and]
        apply List.map_congr_left
        intro x hx
        rw [hg' x (by simp [hx]) (fun e => hn.1 (e ▸ hx))]
      · simp only [Dict.set, e, if_false, List.map_cons]
        rw [ih L hn.2 (by simpa [Ne.symm e] using ho) h2 (fun o' h' => hg' o' (by simp [h'])),
          hg' a (by simp) e, h1]

private theorem set_data_new (d : Dict κ β) (L : List κ) (f g : κ → Option β) (o : κ) (v : β)
    (ho : o ∉ L)
    (h : d.map (fun p => (p.1, some p.2)) = L.map (fun o => (o, f o)))
    (hg : g o = some v) (hg' : ∀ o' ∈ L, g o' = f o') :
    (Dict.set d o v).map (fun p => (p.1, some p.2)) = (L ++ [o]).map (fun o => (o, g o)) := by
  induction d generalizing L with
  | nil => cases L <;> simp at h; simp [Dict.set, hg]
  | cons p d ih =>
    obtain ⟨a, b⟩ := p
    cases L with
    | nil => simp at h
    | cons c L =>
      simp only [List.map_cons, List.cons.injEq, Prod.mk.injEq] at h
      obtain ⟨⟨rfl, h1⟩, h2⟩ := h
      simp only [List.mem_cons, not_or] at ho
      simp only [Dict.set, Ne.symm ho.1, if_false, List.map_cons, List.cons_append]
      rw [ih L ho.2 h2 (fun o' h' => hg' o' (by simp [h'])), hg' a (by simp), h1]

private theorem set_rel {low : κ → κ} {m : CMap κ β} {a : Abs κ β} (R : Rel low m a) (k : κ) (v : β) :
    Rel low (m.setitem low k v) (a.set low k v) := by
  rcases rel_find R k with ⟨h1, h2⟩ | ⟨o, w, ho, hl, hv, hk, hd⟩
  · have hnl : low k ∉ a.order.map low := by
      rw [← R.mem, h1]; simp
    have hno : k ∉ a.order := fun h => hnl (List.mem_map_of_mem h)
    have hne : ∀ o ∈ a.order, low o ≠ low k := fun o ho e => hnl (e ▸ List.mem_map_of_mem ho)
    simp only [CMap.setitem, h2, Abs.set, h1, Option.isSome_none, Bool.false_eq_true, if_false]
    refine ⟨?_, ?_, ?_, ?_⟩
    · simp only [List.map_append, List.map_cons, List.map_nil]
      rw [List.nodup_append]
      refine ⟨R.nodup, by simp, ?_⟩
      intro x hx y hy
      simp only [List.mem_singleton] at hy
      subst hy
      exact fun e => hnl (e ▸ hx)
    · intro l
      simp only [List.map_append, List.map_cons, List.map_nil, List.mem_append, List.mem_singleton]
      by_cases e : l = low k
      · simp [e]
      · simp only [e, if_false, or_false]; exact R.mem l
    · simp only
      rw [R.keys]
      have : ∀ L : List κ, (∀ o ∈ L, low o ≠ low k) →
          Dict.set (L.map fun o => (low o, o)) (low k) k = (L ++ [k]).map fun o => (low o, o) := by
        intro L
        induction L with
        | nil => simp [Dict.set]
        | cons c L ih =>
          intro h
          simp only [List.mem_cons, forall_eq_or_imp] at h
          simp only [List.map_cons, Dict.set, h.1, if_false, ih h.2, List.cons_append]
      exact this _ hne
    · exact set_data_new m.data a.order (fun o => a.val (low o)) _ k v hno R.data (by simp)
        (fun o' ho' => by simp [hne o' ho'])
  · simp only [CMap.setitem, hk, Abs.set, hv, Option.isSome_some, if_true]
    refine ⟨R.nodup, ?_, R.keys, ?_⟩
    · intro l
      by_cases e : l = low k
      · subst e
        simp only [if_true, Option.isSome_some, true_iff]
        exact List.mem_map.mpr ⟨o, ho, hl⟩
      · simp only [e, if_false]; exact R.mem l
    · refine set_data m.data a.order (fun o => a.val (low o)) _ o v (order_nodup R.nodup) ho R.data
        (by simp [hl]) ?_
      intro o' ho' hne
      have : low o' ≠ low k := fun e => hne (low_inj R.nodup ho' ho (e.trans hl.symm))
      simp [this]

private theorem del_data (d : Dict κ β) (L : List κ) (f g : κ → Option β) (o : κ)
    (hn : L.Nodup)
    (h : d.map (fun p => (p.1, some p.2)) = L.map (fun o => (o, f o)))
    (hg' : ∀ o' ∈ L, o' ≠ o → g o' = f o') :
    (Dict.del d o).map (fun p => (p.1, some p.2)) =
      (L.filter (fun o' => decide (o' ≠ o))).map (fun o => (o, g o)) := by
  induction d generalizing L with
  | nil => cases L <;> simp at h; simp [Dict.del]
  | cons p d ih =>
    obtain ⟨a, b⟩ := p
    cases L with
    | nil => simp at h
    | cons c L =>
      simp only [List.map_cons, List.cons.injEq, Prod.mk.injEq] at h
      obtain ⟨⟨rfl, h1⟩, h2⟩ := h
      simp only [List.nodup_cons] at hn
      by_cases e : a = o
      · subst e
        have hf : L.filter (fun o' => decide (o' ≠ a)) = L := by
          rw [List.filter_eq_self]
          intro x hx
          simpa using fun e : x = a => hn.1 (e ▸ hx)
        simp only [Dict.del, if_true, h2, ne_eq, not_true_eq_false, decide_false, Bool.false_eq_true,
          not_false_eq_true, List.filter_cons_of_neg]
        rw [hf]
        apply List.map_congr_left
        intro x hx
        rw [hg' x (by simp [hx]) (fun e => hn.1 (e ▸ hx))]
      · simp only [Dict.del, e, if_false, List.map_cons]
        rw [ih L hn.2 h2 (fun o' h' => hg' o' (by simp [h'])), List.filter_cons_of_pos (by simp [e]),
          List.map_cons, hg' a (by simp) e, h1]

private theorem del_keys (low : κ → κ) (L : List κ) (l : κ) (hn : (L.map low).Nodup) :
    Dict.del (L.map fun o => (low o, o)) l =
      (L.filter (fun o' => decide (low o' ≠ l))).map fun o => (low o, o) := by
  induction L with
  | nil => rfl
  | cons c L ih =>
    simp only [List.map_cons, List.nodup_cons] at hn
    by_cases e : low c = l
    · subst e
      have hf : L.filter (fun o' => decide (low o' ≠ low c)) = L := by
        rw [List.filter_eq_self]
        intro x hx
        simpa using fun e : low x = low c => hn.1 (e ▸ List.mem_map_of_mem hx)
      simp only [List.map_cons, Dict.del, if_true]
      rw [List.filter_cons_of_neg (by simp), hf]
    · simp only [List.map_cons, Dict.del, e, if_false]
      rw [List.filter_cons_of_pos (by simp [e]), List.map_cons, ih hn.2]

private theorem del_rel {low : κ → κ} {m : CMap κ β} {a : Abs κ β} (R : Rel low m a) (k : κ) :
    (a.val (low k) = none ∧ m.delitem low k = .error .keyError) ∨
    ((a.val (low k)).isSome ∧ ∃ m', m.delitem low k = .ok m' ∧ Rel low m' (a.remove low k)) := by
  rcases rel_find R k with ⟨h1, h2⟩ | ⟨o, w, ho, hl, hv, hk, hd⟩
  · left; simp [CMap.delitem, h1, h2]
  · right
    refine ⟨by simp [hv], ⟨Dict.del m.data o, Dict.del m.keys (low k)⟩, ?_, ?_⟩
    · simp [CMap.delitem, hk, Dict.contains, hd]
    · have hfe : a.order.filter (fun o' => decide (low o' ≠ low k)) =
          a.order.filter (fun o' => decide (o' ≠ o)) := by
        apply List.filter_congr
        intro x hx
        simp only [decide_eq_decide, ne_eq, not_iff_not]
        constructor
        · intro e; exact low_inj R.nodup hx ho (e.trans hl.symm)
        · intro e; rw [e, hl]
      refine ⟨?_, ?_, ?_, ?_⟩
      · exact (List.filter_sublist.map low).nodup R.nodup
      · intro l
        simp only [Abs.remove, List.mem_map, List.mem_filter, decide_eq_true_eq]
        by_cases e : l = low k
        · subst e
          simp only [if_true, Option.isSome_none, Bool.false_eq_true, ne_eq, false_iff, not_exists]
          rintro x ⟨⟨_, h1⟩, h2⟩
          exact h1 h2
        · simp only [e, if_false, R.mem l, List.mem_map]
          constructor
          · rintro ⟨x, hx, rfl⟩; exact ⟨x, ⟨hx, e⟩, rfl⟩
          · rintro ⟨x, ⟨hx, _⟩, rfl⟩; exact ⟨x, hx, rfl⟩
      · simp only [Abs.remove]
        rw [R.keys]
        exact del_keys low a.order (low k) R.nodup
      · simp only [Abs.remove]
        rw [hfe]
        refine del_data m.data a.order (fun o => a.val (low o)) _ o (order_nodup R.nodup) R.data ?_
        intro o' ho' hne
        have : low o' ≠ low k := fun e => hne (low_inj R.nodup ho' ho (e.trans hl.symm))
        simp [this]

private theorem popitem_rel {low : κ → κ} {m : CMap κ β} {a : Abs κ β} (R : Rel low m a) :
    (a.order = [] ∧ m.popitem low = .error .keyError) ∨
    (∃ k L v m', a.order = k :: L ∧ a.val (low k) = some v ∧
      m.popitem low = .ok ((k, v), m') ∧ Rel low m' (a.remove low k)) := by
  have hk : m.iter = a.order := keys_eq_of _ _ _ R.data
  cases ho : a.order with
  | nil => left; simp [CMap.popitem, hk, ho]
  | cons k L =>
    right
    have hs : (a.val (low k)).isSome := by
      rw [R.mem, ho]; simp
    obtain ⟨v, hv⟩ := Option.isSome_iff_exists.mp hs
    rcases del_rel R k with ⟨h, _⟩ | ⟨_, m', hd, R'⟩
    · simp [hv] at h
    · refine ⟨k, L, v, m', rfl, hv, ?_, R'⟩
      have hg := getitem_rel R k
      rw [hv] at hg
      simp only [CMap.popitem, hk, ho, hg, hd]
      rfl

private theorem clear_rel (low : κ → κ) (n : Nat) (m : CMap κ β) (a : Abs κ β) (R : Rel low m a)
    (hn : a.order.length = n) : Rel low (m.clear low n) Abs.empty := by
  induction n generalizing m a with
  | zero =>
    have ho : a.order = [] := List.length_eq_zero_iff.mp hn
    have hv : ∀ l, a.val l = none := by
      intro l
      rw [← Option.not_isSome_iff_eq_none, R.mem, ho]; simp
    have : a = Abs.empty := by
      obtain ⟨f, L⟩ := a
      simp only at ho hv
      subst ho
      simp only [Abs.empty, Abs.mk.injEq, and_true]
      funext l; exact hv l
    rw [← this]; exact R
  | succ n ih =>
    rcases popitem_rel R with ⟨h, _⟩ | ⟨k, L, v, m', ho, hv, hp, R'⟩
    · rw [h] at hn; simp at hn
    · simp only [CMap.clear, hp]
      refine ih m' _ R' ?_
      have hnd := R.nodup
      rw [ho, List.map_cons, List.nodup_cons] at hnd
      simp only [Abs.remove, ho]
      rw [List.filter_cons_of_neg (by simp)]
      rw [List.filter_eq_self.mpr]
      · rw [ho] at hn; simpa using hn
      · intro x hx
        simpa using fun e : low x = low k => hnd.1 (e ▸ List.mem_map_of_mem hx)

private theorem update_rel (low : κ → κ) (ps : List (κ × β)) (m : CMap κ β) (a : Abs κ β)
    (R : Rel low m a) :
    Rel low (m.update low ps) (ps.foldl (fun a p => a.set low p.1 p.2) a) := by
  induction ps generalizing m a with
  | nil => exact R
  | cons p ps ih => exact ih _ _ (set_rel R p.1 p.2)

private theorem len_rel {low : κ → κ} {m : CMap κ β} {a : Abs κ β} (R : Rel low m a) :
    m.len = a.order.length := by
  have := congrArg List.length R.data
  simpa [CMap.len] using this

private theorem step_rel {low : κ → κ} {m : CMap κ β} {a : Abs κ β} (R : Rel low m a) (op : Op κ β) :
    (m.step low op).1 = (a.step low op).1 ∧ Rel low (m.step low op).2 (a.step low op).2 := by
  cases op with
  | set k v => exact ⟨rfl, set_rel R k v⟩
  | del k =>
    rcases del_rel R k with ⟨h, h'⟩ | ⟨h, m', h', R'⟩
    · simp [CMap.step, Abs.step, h, h', R]
    · simp [CMap.step, Abs.step, h, h', R']
  | get k =>
    have := getitem_rel R k
    cases hv : a.val (low k) <;> simp [CMap.step, Abs.step, this, hv, R]
  | contains k =>
    rcases rel_find R k with ⟨h1, h2⟩ | ⟨o, w, ho, hl, hv, hk, hd⟩
    · simp [CMap.step, Abs.step, CMap.contains, Dict.contains, h1, h2, R]
    · simp [CMap.step, Abs.step, CMap.contains, Dict.contains, hv, hk, R]
  | pop k =>
    have hg := getitem_rel R k
    rcases del_rel R k with ⟨h, h'⟩ | ⟨h, m', h', R'⟩
    · simp [CMap.step, Abs.step, CMap.pop, h, h', hg, R, bind, Except.bind]
    · obtain ⟨v, hv⟩ := Option.isSome_iff_exists.mp h
      simp [CMap.step, Abs.step, CMap.pop, hv, h', hg, R', bind, Except.bind, pure, Except.pure]
  | setdefault k v =>
    have hg := getitem_rel R k
    cases hv : a.val (low k) with
    | none =>
      rw [hv] at hg
      simp [CMap.step, Abs.step, CMap.setdefault, hg, hv, set_rel R]
    | some w =>
      rw [hv] at hg
      simp [CMap.step, Abs.step, CMap.setdefault, hg, hv, R]
  | popitem =>
    rcases popitem_rel R with ⟨h, h'⟩ | ⟨k, L, v, m', ho, hv, hp, R'⟩
    · simp [CMap.step, Abs.step, h, h', R]
    · simp [CMap.step, Abs.step, ho, hv, hp, R']
  | update ps => exact ⟨rfl, update_rel low ps m a R⟩
  | clear => exact ⟨rfl, clear_rel low m.len m a R (len_rel R).symm⟩

private theorem run_rel (low : κ → κ) (ops : List (Op κ β)) (m : CMap κ β) (a : Abs κ β)
    (R : Rel low m a) :
    (m.run low ops).1 = (a.run low ops).1 ∧ Rel low (m.run low ops).2 (a.run low ops).2 := by
  induction ops generalizing m a with
  | nil => exact ⟨rfl, R⟩
  | cons op ops ih =>
    have h := step_rel R op
    have h' := ih _ _ h.2
    exact ⟨by simp only [CMap.run, Abs.run, h.1, h'.1], h'.2⟩

/-- **C18**.  Starting from an empty mapping, every history of calls returns what
the map indexed by lower-cased keys returns (including which calls raise
`KeyError`). -/
theorem run_outputs (low : κ → κ) (ops : List (Op κ β)) :
    ((CMap.empty : CMap κ β).run low ops).1 = ((Abs.empty : Abs κ β).run low ops).1 :=
  (run_rel low ops _ _ (rel_empty low)).1

/-- **C18**.  After any history the mapping iterates over the spellings first
used, with the current values; its length is the number of distinct lower-cased
keys. -/
theorem run_observe (low : κ → κ) (ops : List (Op κ β)) :
    let m := ((CMap.empty : CMap κ β).run low ops).2
    let a := ((Abs.empty : Abs κ β).run low ops).2
    m.iter = a.order ∧
    m.items.map (fun p => (p.1, some p.2)) = a.order.map (fun o => (o, a.val (low o))) ∧
    m.len = a.order.length ∧
    (a.order.map low).Nodup ∧ (∀ l, l ∈ a.order.map low ↔ (a.val l).isSome) ∧
    (∀ k, m.getitem low k = match a.val (low k) with
      | some v => .ok v
      | none => .error .keyError) := by
  have R := (run_rel low ops _ _ (rel_empty (β := β) low)).2
  exact ⟨keys_eq_of _ _ _ R.data, R.data, len_rel R, R.nodup, fun l => (R.mem l).symm,
    getitem_rel R⟩

/-- A direct corollary: what is read is what was last assigned under any
spelling with the same lower case. -/
theorem get_after_set (low : κ → κ) (ops : List (Op κ β)) (k k' : κ) (v : β) (h : low k = low k') :
    ((CMap.empty : CMap κ β).run low (ops ++ [.set k v, .get k'])).1 =
      ((CMap.empty : CMap κ β).run low ops).1 ++ [.none, .value v] := by
  have app : ∀ (a : Abs κ β) (xs ys : List (Op κ β)), (a.run low (xs ++ ys)).1 =
      (a.run low xs).1 ++ ((a.run low xs).2.run low ys).1 := by
    intro a xs ys
    induction xs generalizing a with
    | nil => rfl
    | cons x xs ih => simp [Abs.run, ih]
  rw [run_outputs, run_outputs, app]
  congr 1
  simp [Abs.run, Abs.step, Abs.set, h]

/-- Non-trivial case: `"A" := 1, "a" := 2, "b" := 3, del "B"` with real lower-casing. -/
example : ((CMap.empty : CMap Char Nat).run Char.toLower
    [.set 'A' 1, .set 'a' 2, .set 'b' 3, .del 'B', .get 'A', .get 'b']).1 =
      [.none, .none, .none, .none, .value 2, .raised .keyError] := by decide +kernel

example : ((CMap.empty : CMap Char Nat).run Char.toLower
    [.set 'A' 1, .set 'a' 2, .set 'b' 3]).2.items = [('A', 2), ('b', 3)] := by decide +kernel

end SvgPy.CaseMap
