import Verif.Model.MediaList
import Verif.Props.CssText
import Verif.Lemmas.PyStr

/-! Property C33: media lists. -/

set_option linter.unusedSimpArgs false

namespace SvgPy.MediaList

open PyStr
open PyList (clamp)

/-! ### Specification -/

/-- A text that names one medium: no comma. -/
def Single (m : Str) : Prop := ',' ∉ m

/-- A medium as it is stored: one medium without outer white space. -/
def Stored (m : Str) : Prop := Single m ∧ Trimmed m

/-- Operations of a history. -/
inductive Op
  | append (m : Str)
  | delete (m : Str)
  | setText (s : Str)

/-- One operation; a failing deletion leaves the list alone. -/
def step (items : List Str) : Op → List Str
  | .append m => append items m
  | .delete m => (delete items m).toOption.getD items
  | .setText s => setText s

/-- Texts naming no medium twice. -/
def Op.Distinct : Op → Prop
  | .setText s => ((splitOn ',' s).map strip).Nodup
  | _ => True

/-! ### Proofs -/

private theorem parseOne_single (m : Str) (h : Single m) : parseOne m = some (strip m) := by
  simp [parseOne, parseList, splitOn_notMem ',' m h]

private theorem splitOn_length (m : Str) (h : ¬ Single m) : ∃ a b c, splitOn ',' m = a :: b :: c := by
  have h' : ',' ∈ m := by simpa [Single] using h
  cases hc : cut ',' m with
  | none => exact absurd h' ((cut_none_iff ',' m).mp hc)
  | some p =>
    obtain ⟨a, b⟩ := p
    obtain ⟨rfl, ha⟩ := (cut_some_iff ',' m a b).mp hc
    rw [splitOn_append ',' a b ha]
    obtain ⟨x, xs, hx⟩ := List.exists_cons_of_ne_nil (splitOn_ne_nil ',' b)
    exact ⟨a, x, xs, by rw [hx]⟩

private theorem parseOne_not_single (m : Str) (h : ¬ Single m) : parseOne m = none := by
  obtain ⟨a, b, c, hs⟩ := splitOn_length m h
  simp [parseOne, parseList, hs]

private theorem insert_end (items : List Str) (m : Str) :
    insert items items.length m = items ++ [strip m] := by
  have h : clamp items.length (items.length : Int) = items.length := by
    unfold clamp; split <;> omega
  rw [insert, PyList.insertAt, h]
  simp

/-- **C33** (append).  Appending one medium adds it at the end unless it is there;
appending several at once does nothing. -/
theorem append_spec (items : List Str) (m : Str) :
    (Single m → append items m = if strip m ∈ items then items else items ++ [strip m]) ∧
    (¬ Single m → append items m = items) := by
  constructor
  · intro h
    simp only [append, parseOne_single m h, insert_end, strip_strip]
  · intro h
    simp only [append, parseOne_not_single m h]

/-- **C33** (append is idempotent). -/
theorem append_append (items : List Str) (m : Str) : append (append items m) m = append items m := by
  by_cases h : Single m
  · rw [(append_spec _ m).1 h, (append_spec items m).1 h]
    by_cases hm : strip m ∈ items
    · simp [hm]
    · simp [hm]
  · rw [(append_spec _ m).2 h]

private theorem delFirst_spec (m : Str) (items : List Str) :
    (m ∈ items → ∃ a b, items = a ++ m :: b ∧ m ∉ a ∧ delFirst m items = .ok (a ++ b)) ∧
    (m ∉ items → delFirst m items = .error .valueError) := by
  induction items with
  | nil => exact ⟨by simp, fun _ => rfl⟩
  | cons x xs ih =>
    constructor
    · intro h
      by_cases hx : x = m
      · subst hx
        exact ⟨[], xs, rfl, by simp, by simp [delFirst]⟩
      · have hm : m ∈ xs := by
          rcases List.mem_cons.mp h with h | h
          · exact absurd h.symm hx
          · exact h
        obtain ⟨a, b, h1, h2, h3⟩ := ih.1 hm
        refine ⟨x :: a, b, by rw [h1]; rfl, ?_, by simp [delFirst, hx, h3]⟩
        simp only [List.mem_cons, not_or]
        exact ⟨fun e => hx e.symm, h2⟩
    · intro h
      simp only [List.mem_cons, not_or] at h
      have hx : ¬ x = m := fun e => h.1 e.symm
      simp [delFirst, hx, ih.2 h.2]

/-- **C33** (delete).  Deleting a medium that is there takes out its first occurrence
and leaves the others in order; one that is not there is an error; several at once do
nothing. -/
theorem delete_spec (items : List Str) (m : Str) :
    (Single m → strip m ∈ items →
      ∃ a b, items = a ++ strip m :: b ∧ strip m ∉ a ∧ delete items m = .ok (a ++ b)) ∧
    (Single m → strip m ∉ items → delete items m = .error .valueError) ∧
    (¬ Single m → delete items m = .ok items) := by
  refine ⟨fun h hm => ?_, fun h hm => ?_, fun h => ?_⟩
  · simp only [delete, parseOne_single m h]
    exact (delFirst_spec _ items).1 hm
  · simp only [delete, parseOne_single m h]
    exact (delFirst_spec _ items).2 hm
  · simp only [delete, parseOne_not_single m h]

/-- **C33** (delete removes).  In a list without duplicates a deleted medium is gone
and deleting it again fails. -/
theorem delete_gone_partial (items : List Str) (h : items.Nodup) (m : Str) (hs : Single m) (items' : List Str)
    (hd : delete items m = .ok items') : strip m ∉ items' ∧ delete items' m = .error .valueError := by
  have hgone : strip m ∉ items' := by
    by_cases hm : strip m ∈ items
    · obtain ⟨a, b, h1, h2, h3⟩ := (delete_spec items m).1 hs hm
      rw [hd] at h3
      cases h3
      rw [h1, List.nodup_append] at h
      have h4 := h.2.1
      rw [List.nodup_cons] at h4
      simp only [List.mem_append, not_or]
      exact ⟨h2, h4.1⟩
    · rw [(delete_spec items m).2.1 hs hm] at hd
      cases hd
  exact ⟨hgone, (delete_spec items' m).2.1 hs hgone⟩

/-- **C33** (append, then delete).  Deleting what was just added gives the list back. -/
theorem delete_append (items : List Str) (m : Str) (hs : Single m) (hm : strip m ∉ items) :
    delete (append items m) m = .ok items := by
  rw [(append_spec items m).1 hs, if_neg hm]
  obtain ⟨a, b, h1, h2, h3⟩ := (delete_spec (items ++ [strip m]) m).1 hs (by simp)
  rw [h3]
  have hb : b = [] := by
    by_contra hb
    obtain ⟨b', x, rfl⟩ := (List.eq_nil_or_concat b).resolve_left hb
    rw [List.concat_eq_append, ← List.cons_append, ← List.append_assoc] at h1
    obtain ⟨h4, _⟩ := List.append_inj' h1 rfl
    exact hm (by rw [h4]; simp)
  subst hb
  obtain ⟨h4, _⟩ := List.append_inj' h1 rfl
  rw [List.append_nil, ← h4]

private theorem mem_splitOn (c : Char) (s p : Str) (h : p ∈ splitOn c s) : c ∉ p := by
  induction s generalizing p with
  | nil => simp [splitOn] at h; simp [h]
  | cons x xs ih =>
    simp only [splitOn] at h
    split at h
    · rcases List.mem_cons.mp h with rfl | h
      · simp
      · exact ih p h
    · rename_i hx
      split at h
      · rename_i he
        exact absurd he (splitOn_ne_nil c xs)
      · rename_i q qs he
        rcases List.mem_cons.mp h with rfl | h
        · have := ih q (by rw [he]; simp)
          simp only [List.mem_cons, not_or]
          exact ⟨fun e => hx e.symm, this⟩
        · exact ih p (by rw [he]; simp [h])

private theorem strip_single (m : Str) (h : Single m) : Stored (strip m) := by
  refine ⟨fun hc => ?_, trimmed_strip m⟩
  obtain ⟨a, b, h1, _⟩ := strip_split m
  exact h (by rw [h1]; simp [hc])

/-- **C33** (histories).  Starting from the empty list, any history of appending,
deleting and assigning texts without repetitions leaves a list without duplicates,
of single media without outer white space. -/
theorem history_set_partial (ops : List Op) (h : ∀ o ∈ ops, o.Distinct) :
    (ops.foldl step []).Nodup ∧ ∀ m ∈ ops.foldl step [], Stored m := by
  have key : ∀ (ops : List Op) (items : List Str), (∀ o ∈ ops, o.Distinct) →
      (items.Nodup ∧ ∀ m ∈ items, Stored m) →
      ((ops.foldl step items).Nodup ∧ ∀ m ∈ ops.foldl step items, Stored m) := by
    intro ops
    induction ops with
    | nil => intro items _ hi; exact hi
    | cons o os ih =>
      intro items ho hi
      apply ih _ (fun o' ho' => ho o' (by simp [ho']))
      cases o with
      | append m =>
        simp only [step]
        by_cases hs : Single m
        · rw [(append_spec items m).1 hs]
          by_cases hm : strip m ∈ items
          · rw [if_pos hm]; exact hi
          · rw [if_neg hm]
            refine ⟨?_, ?_⟩
            · rw [List.nodup_append]
              refine ⟨hi.1, by simp, ?_⟩
              intro a ha b hb e
              simp only [List.mem_cons, List.not_mem_nil, or_false] at hb
              exact hm (hb ▸ e ▸ ha)
            · intro x hx
              simp only [List.mem_append, List.mem_cons, List.not_mem_nil, or_false] at hx
              rcases hx with hx | rfl
              · exact hi.2 x hx
              · exact strip_single m hs
        · rw [(append_spec items m).2 hs]; exact hi
      | delete m =>
        simp only [step]
        by_cases hs : Single m
        · by_cases hm : strip m ∈ items
          · obtain ⟨a, b, h1, _, h3⟩ := (delete_spec items m).1 hs hm
            rw [h3]
            have hsub : (a ++ b).Sublist items := by
              rw [h1]
              exact List.Sublist.append (List.Sublist.refl _) (List.sublist_cons_self _ _)
            exact ⟨hi.1.sublist hsub, fun x hx => hi.2 x (hsub.subset hx)⟩
          · rw [(delete_spec items m).2.1 hs hm]; exact hi
        · rw [(delete_spec items m).2.2 hs]; exact hi
      | setText s =>
        simp only [step, setText]
        split
        · exact ⟨List.nodup_nil, by simp⟩
        · refine ⟨ho (.setText s) (by simp), ?_⟩
          intro m hm
          simp only [parseList, List.mem_map] at hm
          obtain ⟨p, hp, rfl⟩ := hm
          exact strip_single p (mem_splitOn ',' s p hp)
  exact key ops [] h ⟨List.nodup_nil, by simp⟩

private theorem splitOn_join_sep (ps : List Str) : ∀ (p : Str), (∀ q ∈ p :: ps, ',' ∉ q) →
    splitOn ',' (join [',', ' '] (p :: ps)) = p :: ps.map (' ' :: ·) := by
  induction ps with
  | nil => intro p h; simp only [join, List.map_nil]; exact splitOn_notMem ',' p (h p (by simp))
  | cons q qs ih =>
    intro p h
    have h1 : ',' ∉ p := h p (by simp)
    have h2 := ih q (fun x hx => h x (by simp [List.mem_cons.mp hx]))
    have hj : join [',', ' '] (p :: q :: qs) = p ++ ',' :: (' ' :: join [',', ' '] (q :: qs)) := by
      simp [join]
    rw [hj, splitOn_append ',' p _ h1]
    have hs : ∀ t : Str, splitOn ',' (' ' :: t) = match splitOn ',' t with
      | [] => [[' ']]
      | a :: b => (' ' :: a) :: b := by
      intro t
      simp only [splitOn, show ¬ (' ' : Char) = ',' by decide, if_false]
      cases splitOn ',' t <;> rfl
    rw [hs, h2]
    rfl

private theorem join_map (low : Char → Char) (h1 : low ',' = ',') (h2 : low ' ' = ' ') (ps : List Str) :
    (join [',', ' '] ps).map low = join [',', ' '] (ps.map (List.map low)) := by
  induction ps with
  | nil => rfl
  | cons p ps ih =>
    cases ps with
    | nil => rfl
    | cons q qs =>
      have hj : ∀ (a b : Str) (c : List Str), join [',', ' '] (a :: b :: c) =
          a ++ [',', ' '] ++ join [',', ' '] (b :: c) := fun a b c => rfl
      rw [hj, List.map_append, List.map_append, ih]
      simp [hj, h1, h2]

private theorem join_nonblank (ps : List Str) (hne : ps ≠ []) (ht : ∀ p ∈ ps, Trimmed p)
    (h1 : ps ≠ [[]]) : CssText.normalizeText (join [',', ' '] ps) ≠ [] := by
  rw [ne_eq, CssText.normalizeText_eq_nil_iff, strip_eq_nil_iff]
  intro hall
  match ps, hne with
  | [p], _ =>
    have hp : p ≠ [] := fun e => h1 (by rw [e])
    obtain ⟨x, t, hx⟩ := List.exists_cons_of_ne_nil hp
    have a := (ht p (by simp)).1 x (by rw [hx]; rfl)
    have b := hall x (by simp [join, hx])
    rw [a] at b; exact absurd b (by decide)
  | p :: q :: qs, _ =>
    have := hall ',' (by simp [join])
    revert this; decide

/-- **C33** (text round trip).  For single media without outer white space, other than
the list of one empty medium, assigning the serialisation gives the (lower-cased)
list back.  Lower-casing must not turn anything into a comma or into white space. -/
theorem setText_getText_partial (low : Char → Char) (hc : ∀ c, low c = ',' ↔ c = ',')
    (hsp : low ' ' = ' ') (hs : ∀ c, isSpace (low c) = isSpace c) (items : List Str)
    (hi : ∀ m ∈ items, Stored m) (hne : items ≠ [[]]) :
    setText (getText low items) = items.map (List.map low) := by
  have hcc : low ',' = ',' := (hc ',').mpr rfl
  rw [getText, join_map low hcc hsp]
  have hi' : ∀ m ∈ items.map (List.map low), Stored m := by
    intro m hm
    simp only [List.mem_map] at hm
    obtain ⟨m', hm', rfl⟩ := hm
    obtain ⟨a, b⟩ := hi m' hm'
    refine ⟨?_, ?_, ?_⟩
    · simp only [Single, List.mem_map, not_exists, not_and]
      intro c hcm e
      exact a ((hc c).mp e ▸ hcm)
    · intro x hx
      rw [List.head?_map] at hx
      cases hy : m'.head? with
      | none => simp [hy] at hx
      | some y => simp [hy] at hx; rw [← hx, hs]; exact b.1 y hy
    · intro x hx
      rw [List.getLast?_map] at hx
      cases hy : m'.getLast? with
      | none => simp [hy] at hx
      | some y => simp [hy] at hx; rw [← hx, hs]; exact b.2 y hy
  have hne' : items.map (List.map low) ≠ [[]] := by
    intro e
    apply hne
    match items with
    | [] => simp at e
    | [m] => simp at e; rw [e]
    | a :: b :: c => simp at e
  generalize items.map (List.map low) = ps at *
  unfold setText
  cases ps with
  | nil => rfl
  | cons p ps =>
    rw [if_neg (join_nonblank _ (by simp) (fun m hm => (hi' m hm).2) hne'), parseList,
      splitOn_join_sep ps p (fun m hm => (hi' m hm).1)]
    simp only [List.map_cons, List.map_map, Function.comp_def]
    rw [strip_of_trimmed p (hi' p (by simp)).2]
    congr 1
    conv_rhs => rw [← List.map_id ps]
    apply List.map_congr_left
    intro m hm
    rw [strip_cons_space ' ' m (by decide), strip_of_trimmed m (hi' m (by simp [hm])).2]
    rfl

/-- The text itself is stable: serialise, assign, serialise gives the same text. -/
theorem getText_setText_getText (low : Char → Char) (hc : ∀ c, low c = ',' ↔ c = ',')
    (hsp : low ' ' = ' ') (hs : ∀ c, isSpace (low c) = isSpace c) (hidem : ∀ c, low (low c) = low c)
    (items : List Str) (hi : ∀ m ∈ items, Stored m) :
    getText low (setText (getText low items)) = getText low items := by
  by_cases hne : items = [[]]
  · subst hne; rfl
  · rw [setText_getText_partial low hc hsp hs items hi hne]
    have hcc : low ',' = ',' := (hc ',').mpr rfl
    rw [getText, getText, join_map low hcc hsp, join_map low hcc hsp, List.map_map]
    congr 1
    apply List.map_congr_left
    intro m _
    simp [List.map_map, Function.comp_def, hidem]

/-- **C33** violated: assigning a text with a repetition stores it twice, and deleting
the medium leaves one. -/
theorem setText_duplicate_violated :
    setText "a, a".toList = ["a".toList, "a".toList] ∧
    delete (setText "a, a".toList) "a".toList = .ok ["a".toList] := by
  decide

/-- **C33** violated: the empty medium can be appended and is lost by the text. -/
theorem append_empty_violated :
    append [] [] = [[]] ∧ setText (getText id (append [] [])) = [] := by
  decide

/-- **C33** violated: `insert` accepts several media as one. -/
theorem insert_violated :
    insert [] 0 "a,b".toList = ["a,b".toList] ∧
    setText (getText id (insert [] 0 "a,b".toList)) = ["a".toList, "b".toList] := by
  decide

/-- Insertion keeps the other media in order, at any (also negative) index. -/
theorem insert_spec (items : List Str) (i : Int) (m : Str) :
    ∃ a b, items = a ++ b ∧ insert items i m = a ++ strip m :: b ∧
      (0 ≤ i → i ≤ items.length → a.length = i) ∧ (i < 0 → -i ≤ items.length → a.length = items.length + i) ∧
      (items.length ≤ i → b = []) ∧ (i ≤ -items.length → a = []) := by
  refine ⟨items.take (clamp items.length i), items.drop (clamp items.length i), by simp, rfl, ?_, ?_, ?_, ?_⟩
  · intro h1 h2
    simp only [List.length_take, clamp]
    rw [if_neg (by omega)]
    omega
  · intro h1 h2
    simp only [List.length_take, clamp]
    rw [if_pos h1]
    omega
  · intro h
    rw [List.drop_eq_nil_iff, clamp]
    split <;> omega
  · intro h
    have : clamp items.length i = 0 := by
      unfold clamp; split <;> omega
    rw [this]; rfl

/-- Non-trivial instances. -/
example : [Op.append " screen ".toList, .append "print".toList, .append "screen".toList,
    .setText "tv ,  print".toList, .append "all".toList, .delete "tv".toList].foldl step [] =
    ["print".toList, "all".toList] := by decide

example : setText (getText Char.toLower ["Screen".toList, "(min-width: 1px)".toList]) =
    ["screen".toList, "(min-width: 1px)".toList] := by decide

end SvgPy.MediaList
