import Verif.Model.StyleText
import Verif.Lemmas.PyStr
import Verif.Lemmas.PyDict

/-! Property C19: the style attribute text. -/

namespace SvgPy.StyleText

open PyStr

/-- A name or value that can be written: no separator, no outer white space. -/
def Plain (s : Str) : Prop := ':' ∉ s ∧ ';' ∉ s ∧ strip s = s

private theorem ofPairs_nodup (ps : List (Str × Str)) (d : Dict Str Str)
    (h : ((d ++ ps).map (·.1)).Nodup) : Dict.update d ps = d ++ ps := by
  induction ps generalizing d with
  | nil => simp [Dict.update]
  | cons p ps ih =>
    have hset : Dict.set d p.1 p.2 = d ++ [p] := by
      have : p.1 ∉ d.map (·.1) := by
        simp only [List.map_append, List.map_cons] at h
        have := (List.nodup_append.mp h).2.2
        intro hm
        exact this p.1 hm p.1 (by simp) rfl
      clear h ih
      induction d with
      | nil => rfl
      | cons q d ihd =>
        simp only [List.map_cons, List.mem_cons, not_or] at this
        obtain ⟨a, b⟩ := q
        simp only at this
        simp [Dict.set, Ne.symm this.1, ihd this.2]
    simp only [Dict.update, List.foldl_cons, hset]
    have := ih (d ++ [p]) (by simpa using h)
    simpa [Dict.update] using this

/-- The text of a non-empty list of items, after `split(';')`. -/
private theorem split_items (p : Str × Str) (ps : List (Str × Str))
    (h : ∀ q ∈ p :: ps, Plain q.1 ∧ Plain q.2) :
    splitOn ';' (join [' '] ((p :: ps).map item)) =
      (p.1 ++ [':', ' '] ++ p.2) :: (ps.map (fun q => ' ' :: (q.1 ++ [':', ' '] ++ q.2)) ++ [[]]) := by
  induction ps generalizing p with
  | nil =>
    have hp := h p (by simp)
    simp only [List.map_cons, List.map_nil, join, item]
    rw [show p.1 ++ [':', ' '] ++ p.2 ++ [';'] = (p.1 ++ [':', ' '] ++ p.2) ++ ';' :: [] by simp]
    rw [splitOn_append]
    · simp [splitOn]
    · simp [hp.1.2.1, hp.2.2.1]
  | cons q ps ih =>
    have hp := h p (by simp)
    have ih' := ih q (fun r hr => h r (by simp only [List.mem_cons] at hr ⊢; tauto))
    simp only [List.map_cons, join] at ih' ⊢
    rw [show item p ++ [' '] ++ join [' '] (item q :: List.map item ps) =
      (p.1 ++ [':', ' '] ++ p.2) ++ ';' :: (' ' :: join [' '] (item q :: List.map item ps)) by
        simp [item]]
    rw [splitOn_append _ _ _ (by simp [hp.1.2.1, hp.2.2.1])]
    simp only [List.cons_append, List.cons.injEq, true_and]
    rw [splitOn, if_neg (by decide), ih']

private theorem pair_item (w : Str) (q : Str × Str) (hw : w = [] ∨ w = [' '])
    (h : Plain q.1 ∧ Plain q.2) :
    pairOf (splitOn ':' (w ++ (q.1 ++ [':', ' '] ++ q.2))) = some q := by
  have e : w ++ (q.1 ++ [':', ' '] ++ q.2) = (w ++ q.1) ++ ':' :: (' ' :: q.2) := by simp
  rw [e, splitOn_append, splitOn_notMem]
  · simp only [pairOf, Option.some.injEq]
    have h1 : strip (w ++ q.1) = q.1 := by
      rcases hw with rfl | rfl
      · exact h.1.2.2
      · rw [List.singleton_append, strip_cons_space _ _ (by decide)]; exact h.1.2.2
    rw [h1, strip_cons_space _ _ (by decide), h.2.2.2]
  · simp [h.2.1]
  · rcases hw with rfl | rfl <;> simp [h.1.1]

private theorem strip_text (p : Str × Str) (ps : List (Str × Str))
    (h : ∀ q ∈ p :: ps, Plain q.1 ∧ Plain q.2) :
    strip (join [' '] ((p :: ps).map item)) = join [' '] ((p :: ps).map item) := by
  have hl : ∃ s, join [' '] ((p :: ps).map item) = s ++ [';'] := by
    clear h
    induction ps generalizing p with
    | nil => exact ⟨p.1 ++ [':', ' '] ++ p.2, by simp [join, item]⟩
    | cons q ps ih =>
      obtain ⟨s, hs⟩ := ih q
      refine ⟨item p ++ [' '] ++ s, ?_⟩
      simp only [List.map_cons, join] at hs ⊢
      rw [hs]; simp
  have hf : lstrip (join [' '] ((p :: ps).map item)) = join [' '] ((p :: ps).map item) := by
    have hp := (h p (by simp)).1.2.2
    have : ∃ s, join [' '] ((p :: ps).map item) = p.1 ++ ':' :: s := by
      cases ps with
      | nil => exact ⟨' ' :: (p.2 ++ [';']), by simp [join, item]⟩
      | cons q ps => exact ⟨_, by simp [join, item]; rfl⟩
    obtain ⟨s, hs⟩ := this
    rw [hs]
    cases hk : p.1 with
    | nil => exact lstrip_of_head _ _ (by decide)
    | cons x xs =>
      have hx : isSpace x = false := by
        by_contra hx
        simp only [Bool.not_eq_false] at hx
        rw [hk, strip_cons_space _ _ hx] at hp
        have := congrArg List.length hp
        have l1 : (strip xs).length ≤ xs.length := by
          simp only [strip, rstrip, lstrip, List.length_reverse]
          refine le_trans (List.dropWhile_sublist _).length_le ?_
          simp only [List.length_reverse]
          exact (List.dropWhile_sublist _).length_le
        simp at this
        omega
      exact lstrip_of_head _ _ hx
  rw [strip, hf]
  obtain ⟨s, hs⟩ := hl
  rw [hs]
  exact rstrip_append_of _ _ (by decide)

/-- Parsing the text of a list of pairs with distinct plain names gives the list. -/
private theorem parse_items (ps : List (Str × Str)) (hk : (ps.map (·.1)).Nodup)
    (h : ∀ q ∈ ps, Plain q.1 ∧ Plain q.2) : styleToDict (join [' '] (ps.map item)) = ps := by
  cases ps with
  | nil => rfl
  | cons p ps =>
    unfold styleToDict
    rw [strip_text p ps h, split_items p ps h]
    rw [if_neg]
    · simp only [List.map_cons, List.map_append, List.map_map, List.map_nil, Function.comp_def]
      have e1 := pair_item [] p (Or.inl rfl) (h p (by simp))
      simp only [List.nil_append] at e1
      rw [List.filterMap_cons_some e1, List.filterMap_append]
      have e2 : (ps.map (fun x => splitOn ':' (' ' :: (x.1 ++ [':', ' '] ++ x.2)))).filterMap pairOf = ps := by
        rw [List.filterMap_map]
        have : ∀ q ∈ ps, (pairOf ∘ fun x : Str × Str => splitOn ':' (' ' :: (x.1 ++ [':', ' '] ++ x.2))) q
            = some q := by
          intro q hq
          exact pair_item [' '] q (Or.inr rfl) (h q (by simp [hq]))
        rw [List.filterMap_congr this]
        simp
      rw [e2]
      have e3 : List.filterMap pairOf [splitOn ':' []] = [] := by simp [splitOn, pairOf]
      rw [e3, List.append_nil, Dict.ofPairs, ofPairs_nodup _ _ (by simpa using hk)]
      rfl
    · cases ps <;> simp [join, item]

/-- **C19** (round trip).  Writing a dictionary (distinct names) of plain names
and values and parsing the text gives the same dictionary: the same pairs, and
hence the same answer to every lookup. -/
theorem styleToDict_dictToStyle (d : Dict Str Str) (hk : (Dict.keys d).Nodup)
    (h : ∀ q ∈ d, Plain q.1 ∧ Plain q.2) :
    (styleToDict (dictToStyle d)).Perm d ∧
    ∀ k, Dict.get? (styleToDict (dictToStyle d)) k = Dict.get? d k := by
  -- the sorted texts are the texts of a permutation of the pairs
  obtain ⟨d', hd', hperm⟩ : ∃ d' : List (Str × Str), d'.map item = sorted (d.map item) ∧ d'.Perm d := by
    have hp := sorted_perm (d.map item)
    have : ∀ l : List Str, l.Perm (d.map item) → ∃ d' : List (Str × Str), d'.map item = l ∧ d'.Perm d := by
      intro l hl
      have aux : ∀ (l m : List Str), l.Perm m → ∀ d : List (Str × Str), m = d.map item →
          ∃ d' : List (Str × Str), d'.map item = l ∧ d'.Perm d := by
        intro l m hlm
        induction hlm with
        | nil =>
          intro d hd
          refine ⟨[], rfl, ?_⟩
          cases d <;> simp at hd; exact List.Perm.refl _
        | cons x _ ih =>
          intro d hd
          cases d with
          | nil => simp at hd
          | cons q d =>
            simp only [List.map_cons, List.cons.injEq] at hd
            obtain ⟨d', e, hp⟩ := ih d hd.2
            exact ⟨q :: d', by simp [e, hd.1], List.Perm.cons q hp⟩
        | swap x y l =>
          intro d hd
          match d, hd with
          | a :: b :: d, hd =>
            simp only [List.map_cons, List.cons.injEq] at hd
            exact ⟨b :: a :: d, by simp [hd.1, hd.2.1, hd.2.2], List.Perm.swap a b d⟩
        | trans _ _ ih1 ih2 =>
          intro d hd
          obtain ⟨d2, e2, p2⟩ := ih2 d hd
          obtain ⟨d1, e1, p1⟩ := ih1 d2 e2.symm
          exact ⟨d1, e1, p1.trans p2⟩
      exact aux l _ hl d rfl
    exact this _ hp
  have key : styleToDict (dictToStyle d) = d' := by
    rw [dictToStyle, ← hd']
    apply parse_items
    · exact (hperm.map (fun q : Str × Str => q.1)).nodup_iff.mpr hk
    · intro q hq; exact h q (hperm.mem_iff.mp hq)
  rw [key]
  refine ⟨hperm, ?_⟩
  have hk' : (Dict.keys d').Nodup := (hperm.map (fun q : Str × Str => q.1)).nodup_iff.mpr hk
  intro k
  apply Option.ext
  intro v
  rw [← Dict.mem_iff_get? d' hk', ← Dict.mem_iff_get? d hk]
  exact hperm.mem_iff

/-- **C19** (insertion order).  Dictionaries with the same pairs have the same text. -/
theorem dictToStyle_perm (d d' : Dict Str Str) (h : d.Perm d') : dictToStyle d = dictToStyle d' := by
  rw [dictToStyle, dictToStyle, sorted_eq_of_perm (h.map item)]

/-- Non-trivial instance. -/
example : (Dict.keys [("stroke".toList, "none".toList), ("fill".toList, "rgb(1, 2, 3)".toList)]).Nodup ∧
    ∀ q ∈ [("stroke".toList, "none".toList), ("fill".toList, "rgb(1, 2, 3)".toList)],
      Plain q.1 ∧ Plain q.2 := by
  constructor
  · decide +kernel
  · unfold Plain; decide +kernel

example : dictToStyle [("stroke".toList, "none".toList), ("fill".toList, "red".toList)] =
    "fill: red; stroke: none;".toList := by decide +kernel

/-- The restriction on separators is needed: a value with a colon, such as a URL,
is dropped when the text is parsed. -/
theorem styleToDict_colon_dropped (k a b : Str) (hk : Plain k) (ha : ':' ∉ a ∧ ';' ∉ a) (hb : ';' ∉ b) :
    styleToDict (dictToStyle [(k, a ++ ':' :: b)]) = [] := by
  have hd : dictToStyle [(k, a ++ ':' :: b)] = (k ++ [':', ' '] ++ (a ++ ':' :: b)) ++ [';'] := by
    simp [dictToStyle, sorted, insertSorted, join, item]
  have hstrip : ∃ w : Str, ';' ∉ w ∧
      strip (dictToStyle [(k, a ++ ':' :: b)]) = w ++ ':' :: ((' ' :: a) ++ ':' :: (b ++ [';'])) ∧ ':' ∉ w := by
    rw [hd, strip]
    have hl : lstrip (k ++ [':', ' '] ++ (a ++ ':' :: b) ++ [';']) =
        k ++ [':', ' '] ++ (a ++ ':' :: b) ++ [';'] := by
      cases hk' : k with
      | nil => exact lstrip_of_head _ _ (by decide)
      | cons x xs =>
        have hx : isSpace x = false := by
          by_contra hx
          simp only [Bool.not_eq_false] at hx
          have hp := hk.2.2
          rw [hk', strip_cons_space _ _ hx] at hp
          have := congrArg List.length hp
          have l1 : (strip xs).length ≤ xs.length := by
            simp only [strip, rstrip, lstrip, List.length_reverse]
            refine le_trans (List.dropWhile_sublist _).length_le ?_
            simp only [List.length_reverse]
            exact (List.dropWhile_sublist _).length_le
          simp at this
          omega
        simp [lstrip, hx]
    rw [hl, rstrip_append_of _ _ (by decide)]
    exact ⟨k, hk.2.1, by simp, hk.1⟩
  obtain ⟨w, hw, hs, hw'⟩ := hstrip
  rw [styleToDict, hs]
  have hne : ¬ (w ++ ':' :: ((' ' :: a) ++ ':' :: (b ++ [';']))).isEmpty = true := by cases w <;> simp
  rw [if_neg hne]
  have e : w ++ ':' :: ((' ' :: a) ++ ':' :: (b ++ [';'])) =
      (w ++ ':' :: ((' ' :: a) ++ ':' :: b)) ++ ';' :: [] := by simp
  rw [e, splitOn_append _ _ _ (by simp [hw, ha.2, hb]), splitOn]
  simp only [List.map_cons, List.map_nil]
  have e2 : splitOn ':' (w ++ ':' :: (' ' :: a ++ ':' :: b)) = w :: (' ' :: a) :: splitOn ':' b := by
    rw [splitOn_append _ _ _ hw', splitOn_append _ _ _ (by simp [ha.1])]
  have e3 : pairOf (splitOn ':' (w ++ ':' :: (' ' :: a ++ ':' :: b))) = none := by
    rw [e2]
    cases h : splitOn ':' b with
    | nil => exact absurd h (splitOn_ne_nil _ _)
    | cons x xs => simp [pairOf]
  rw [List.filterMap_cons_none e3]
  rfl

end SvgPy.StyleText
