import Verif.Model.Registry
import Verif.Lemmas.PyDict

/-!
C135: registered custom properties.
-/

set_option linter.unusedSimpArgs false

namespace SvgPy.Registry

/-! ### Specification -/

/-- The document a call is for: the one given, or else the one of the window. -/
def Call.doc (c : Call) : Nat :=
  match c.context with
  | some d => d
  | none => c.current

/-- The name of a custom property begins with two hyphens. -/
def Custom (n : Str) : Prop := ∃ r, n = "--".toList ++ r

/-- A call that asks for a custom property of that name in that document. -/
def Asks (d : Nat) (n : Str) (c : Call) : Prop := c.doc = d ∧ c.desc.name = n ∧ Custom n

/-- The registered property: that of the first call that asks for it. -/
def Registered (cs : List Call) (d : Nat) (n : Str) (x : Desc) : Prop :=
  ∃ before c after, cs = before ++ c :: after ∧ Asks d n c ∧ c.desc = x ∧ ∀ b ∈ before, ¬ Asks d n b

/-! ### Proofs -/

theorem isCustom_iff (n : Str) : isCustom n = true ↔ Custom n := by
  unfold isCustom Custom
  rw [List.isPrefixOf_iff_prefix]
  constructor
  · rintro ⟨r, rfl⟩; exact ⟨r, rfl⟩
  · rintro ⟨r, rfl⟩; exact ⟨r, rfl⟩

theorem doc_eq (c : Call) : c.context.getD c.current = c.doc := by
  unfold Call.doc; cases c.context <;> rfl

/-- One call. -/
theorem register_cases (s : State) (c : Call) :
    (register s c = (s, some .valueError) ∧ (¬ Custom c.desc.name ∨ ∃ x, (s c.doc).get? c.desc.name = some x)) ∨
    ((register s c).2 = none ∧ Custom c.desc.name ∧ (s c.doc).get? c.desc.name = none ∧
      ∀ d n, ((register s c).1 d).get? n = if d = c.doc ∧ n = c.desc.name then some c.desc else (s d).get? n) := by
  unfold register
  rw [doc_eq]
  by_cases h : isCustom c.desc.name = true
  · rw [if_neg (by simp [h])]
    simp only
    cases hg : (s c.doc).get? c.desc.name with
    | some x =>
      left
      rw [if_pos (by simp [Dict.contains, hg])]
      exact ⟨rfl, .inr ⟨x, rfl⟩⟩
    | none =>
      right
      rw [if_neg (by simp [Dict.contains, hg])]
      refine ⟨rfl, (isCustom_iff _).1 h, rfl, fun d n => ?_⟩
      simp only
      by_cases hd : d = c.doc
      · subst hd
        rw [if_pos rfl, Dict.get?_set]
        by_cases hn : n = c.desc.name
        · simp [hn]
        · simp [hn, Ne.symm hn]
      · simp [hd]
  · left
    rw [if_pos (by simpa using h)]
    exact ⟨rfl, .inl (fun hc => h ((isCustom_iff _).2 hc))⟩

theorem run_get (cs : List Call) : ∀ (s : State) (d : Nat) (n : Str) (x : Desc),
    ((run s cs).1 d).get? n = some x ↔
      (s d).get? n = some x ∨ ((s d).get? n = none ∧ Registered cs d n x) := by
  induction cs with
  | nil =>
    intro s d n x
    simp [run, Registered]
  | cons c cs ih =>
    intro s d n x
    show ((run (register s c).1 cs).1 d).get? n = some x ↔ _
    rw [ih]
    have hreg : Registered (c :: cs) d n x ↔ (Asks d n c ∧ c.desc = x) ∨ (¬ Asks d n c ∧ Registered cs d n x) := by
      constructor
      · rintro ⟨b, e, a, h1, h2, h3, h4⟩
        cases b with
        | nil =>
          simp only [List.nil_append, List.cons.injEq] at h1
          obtain ⟨rfl, rfl⟩ := h1
          exact .inl ⟨h2, h3⟩
        | cons b0 b =>
          simp only [List.cons_append, List.cons.injEq] at h1
          obtain ⟨rfl, rfl⟩ := h1
          exact .inr ⟨h4 _ (by simp), b, e, a, rfl, h2, h3, fun y hy => h4 y (by simp [hy])⟩
      · rintro (⟨h1, h2⟩ | ⟨h1, b, e, a, rfl, h2, h3, h4⟩)
        · exact ⟨[], c, cs, rfl, h1, h2, by simp⟩
        · refine ⟨c :: b, e, a, rfl, h2, h3, ?_⟩
          intro y hy
          rcases List.mem_cons.1 hy with rfl | hy
          · exact h1
          · exact h4 y hy
    rw [hreg]
    rcases register_cases s c with ⟨e, hc⟩ | ⟨_, hcu, hno, hg⟩
    · rw [e]
      by_cases ha : Asks d n c
      · obtain ⟨rfl, rfl, hcu⟩ := id ha
        rcases hc with hc | ⟨y, hy⟩
        · exact absurd hcu hc
        · simp [hy]
      · simp [ha]
    · rw [hg]
      by_cases ha : Asks d n c
      · obtain ⟨rfl, rfl, _⟩ := id ha
        simp [hno, ha]
      · have : ¬ (d = c.doc ∧ n = c.desc.name) := by
          rintro ⟨rfl, rfl⟩
          exact ha ⟨rfl, rfl, hcu⟩
        rw [if_neg this]
        simp [ha]

/-- **C135** After any calls, a document has a custom property registered as the first call for that document
and name has it, and no others: later calls change nothing, nor do calls for other documents. -/
theorem registered_spec (cs : List Call) (d : Nat) (n : Str) (x : Desc) :
    ((run initial cs).1 d).get? n = some x ↔ Registered cs d n x := by
  rw [run_get]
  simp [initial, Dict.get?]

/-- **C135** A call is refused with a `ValueError` exactly if its name is not that of a custom property or an
earlier call registered it for the same document; a refused call changes nothing. -/
theorem refused_iff (cs : List Call) (c : Call) :
    let s := (run initial cs).1
    ((register s c).2 = some .valueError ↔ ¬ Custom c.desc.name ∨ ∃ b ∈ cs, Asks c.doc c.desc.name b) ∧
    ((register s c).2 = none ∨ (register s c).2 = some .valueError) ∧
    ((register s c).2 ≠ none → (register s c).1 = s) := by
  intro s
  have key : (∃ x, (s c.doc).get? c.desc.name = some x) ↔ ∃ b ∈ cs, Asks c.doc c.desc.name b := by
    constructor
    · rintro ⟨x, hx⟩
      obtain ⟨b, e, a, rfl, h2, _, _⟩ := (registered_spec cs _ _ _).1 hx
      exact ⟨e, by simp, h2⟩
    · rintro ⟨b, hb, ha⟩
      cases hg : (s c.doc).get? c.desc.name with
      | some x => exact ⟨x, rfl⟩
      | none =>
        exfalso
        have hno : ∀ x, ¬ Registered cs c.doc c.desc.name x := fun x hx => by
          have := (registered_spec cs _ _ _).2 hx
          rw [show (run initial cs).1 = s from rfl, hg] at this
          cases this
        have : ∀ l : List Call, (∃ b ∈ l, Asks c.doc c.desc.name b) → ∃ x, Registered l c.doc c.desc.name x := by
          intro l
          induction l with
          | nil => rintro ⟨b, hb, _⟩; cases hb
          | cons y l ih =>
            rintro ⟨b, hb, ha⟩
            by_cases hy : Asks c.doc c.desc.name y
            · exact ⟨y.desc, [], y, l, rfl, hy, rfl, by simp⟩
            · rcases List.mem_cons.1 hb with rfl | hb
              · exact absurd ha hy
              · obtain ⟨x, p, e, a, rfl, h2, h3, h4⟩ := ih ⟨b, hb, ha⟩
                refine ⟨x, y :: p, e, a, rfl, h2, h3, fun z hz => ?_⟩
                rcases List.mem_cons.1 hz with rfl | hz
                · exact hy
                · exact h4 z hz
        obtain ⟨x, hx⟩ := this cs ⟨b, hb, ha⟩
        exact hno x hx
  rcases register_cases s c with ⟨e, hc⟩ | ⟨e, hcu, hno, _⟩
  · rw [key] at hc
    simp [e, hc]
  · refine ⟨?_, .inl e, fun h => absurd e h⟩
    rw [e]
    constructor
    · intro h; cases h
    · rintro (h | h)
      · exact absurd hcu h
      · obtain ⟨x, hx⟩ := key.2 h
        rw [hno] at hx; cases hx

/-- **C135** What the calls of a sequence raise is what each raises after those before it. -/
theorem run_raised (cs : List Call) (c : Call) (rest : List Call) :
    (run initial (cs ++ c :: rest)).2[cs.length]? = some (register (run initial cs).1 c).2 := by
  generalize initial = s
  induction cs generalizing s with
  | nil => simp [run]
  | cons y cs ih => simpa [run] using ih (register s y).1

/-- Two documents, a repeated name and a name that is not one of a custom property. -/
example : ∃ a b : Desc, a ≠ b ∧
    let cs : List Call := [⟨a, none, 1⟩, ⟨b, some 1, 2⟩, ⟨b, none, 2⟩, ⟨{ a with name := "-x".toList }, none, 1⟩]
    Registered cs 1 "--x".toList a ∧ Registered cs 2 "--x".toList b ∧
    (run initial cs).2 = [none, some .valueError, none, some .valueError] := by
  refine ⟨⟨"--x".toList, true, "<length>".toList, none⟩, ⟨"--x".toList, false, "*".toList, none⟩, by decide, ?_⟩
  refine ⟨?_, ?_, by decide⟩
  · exact (registered_spec _ _ _ _).1 (by decide)
  · exact (registered_spec _ _ _ _).1 (by decide)

/-! ### Which descriptor a value is checked against -/

/-- **C135** (part) Values are kept as they are written if they have a `var()` or are of a custom property that
is not registered; names of custom properties keep their case. -/
theorem chosen_unregistered_partial (table : Dict Str Desc) (cs : List Call) (d : Nat) (n : Str) (hn : Custom n)
    (hasVar : Bool) :
    chosen table ((run initial cs).1 d) hasVar n = none ↔ hasVar = true ∨ ∀ b ∈ cs, ¬ Asks d n b := by
  have hk : keyName n = n := by unfold keyName; rw [if_pos ((isCustom_iff n).2 hn)]
  have key : (((run initial cs).1 d).contains n = true) ↔ ∃ b ∈ cs, Asks d n b := by
    obtain ⟨h, _, _⟩ := refused_iff cs ⟨⟨n, false, [], none⟩, some d, d⟩
    rcases register_cases (run initial cs).1 ⟨⟨n, false, [], none⟩, some d, d⟩ with ⟨e, hc⟩ | ⟨e, _, hno, _⟩
    · have h1 : ∃ b ∈ cs, Asks d n b := by
        rcases h.1 (by rw [e]) with h | h
        · exact absurd hn h
        · exact h
      rcases hc with hc | ⟨x, hx⟩
      · exact absurd hn hc
      · have hx : ((run initial cs).1 d).get? n = some x := hx
        simp [Dict.contains, hx, h1]
    · have hno : ((run initial cs).1 d).get? n = none := hno
      have h2 : ¬ ∃ b ∈ cs, Asks d n b := fun hb => by
        have := h.2 (.inr hb)
        rw [e] at this; cases this
      simp [Dict.contains, hno, h2]
  unfold chosen
  rw [hk]
  simp only [(isCustom_iff n).2 hn, Bool.true_and]
  by_cases hc : ((run initial cs).1 d).contains n = true
  · obtain ⟨b, hb, ha⟩ := key.1 hc
    cases hasVar
    · simp only [hc, Bool.not_true, Bool.or_self, Bool.false_eq_true, if_false, false_or]
      constructor
      · intro h; cases h
      · intro h; exact absurd ha (h b hb)
    · simp
  · have : ∀ b ∈ cs, ¬ Asks d n b := fun b hb ha => hc (key.2 ⟨b, hb, ha⟩)
    simp only [Bool.not_eq_true] at hc
    simp [hc]
    exact .inr this

/-- **C135** A built-in property is looked up whatever the case of its letters and whatever is registered. -/
theorem chosen_builtin (table reg : Dict Str Desc) (n : Str) (x : Desc) (hn : ¬ Custom n)
    (hl : ¬ Custom (n.map Char.toLower)) (hx : table.get? (n.map Char.toLower) = some x) :
    chosen table reg false n = some x := by
  have hk : keyName n = n.map Char.toLower := by
    unfold keyName; rw [if_neg (fun h => hn ((isCustom_iff n).1 h))]
  unfold chosen
  rw [hk]
  have : isCustom (n.map Char.toLower) = false := by
    rw [← Bool.not_eq_true, isCustom_iff]; exact hl
  simp [this, hx]

/-- **C135** does not hold for the syntax: whatever descriptor is registered, values are checked against `*`,
which takes anything (no built-in name is that of a custom property). -/
theorem registered_syntax_ignored (table : Dict Str Desc) (ht : ∀ n, Custom n → table.get? n = none)
    (cs : List Call) (d : Nat) (n : Str) (x : Desc) (h : Registered cs d n x) :
    chosen table ((run initial cs).1 d) false n = some ⟨n, false, "*".toList, none⟩ := by
  have hn : Custom n := by obtain ⟨_, _, _, _, ⟨_, _, h⟩, _⟩ := h; exact h
  have hk : keyName n = n := by unfold keyName; rw [if_pos ((isCustom_iff n).2 hn)]
  have hg := (registered_spec cs d n x).2 h
  unfold chosen
  rw [hk]
  simp [Dict.contains, hg, ht n hn]

/-- **C135** is violated: a property registered as an inherited length is checked as `*`, not inherited. -/
theorem registered_syntax_violated : ∃ (cs : List Call) (d : Nat) (n : Str) (x : Desc),
    Registered cs d n x ∧ chosen [] ((run initial cs).1 d) false n ≠ some x :=
  ⟨[⟨⟨"--w".toList, true, "<length>".toList, some "1px".toList⟩, none, 0⟩], 0, "--w".toList, _,
    (registered_spec _ _ _ _).1 rfl, by decide⟩

/-- **C135** `CSS.supports` is what the built-in property says, whatever the case of its letters. -/
theorem supports_iff (table : Dict Str Desc) (ht : (Dict.keys table).Nodup) (sup : Desc → Str → Bool) (n v : Str) :
    supports table sup n v = true ↔ ∃ x, (n.map Char.toLower, x) ∈ table ∧ sup x v = true := by
  unfold supports
  cases h : table.get? (n.map Char.toLower) with
  | none =>
    simp only [Bool.false_eq_true, false_iff]
    rintro ⟨x, hx, _⟩
    rw [Dict.mem_iff_get? _ ht, h] at hx; cases hx
  | some d =>
    simp only
    constructor
    · intro hs; exact ⟨d, (Dict.mem_iff_get? _ ht _ _).2 h, hs⟩
    · rintro ⟨x, hx, hs⟩
      rw [Dict.mem_iff_get? _ ht, h] at hx; cases hx; exact hs

/-- A built-in property in capital letters. -/
example : let t : Dict Str Desc := [("fill".toList, ⟨"fill".toList, true, "<color>".toList, none⟩)]
    chosen t [] false "FILL".toList = t.get? "fill".toList ∧ (Dict.keys t).Nodup ∧
    supports t (fun x v => x.inherits && v == "red".toList) "Fill".toList "red".toList = true ∧
    (∀ n, Custom n → t.get? n = none) := by
  refine ⟨by decide, by decide, by decide, ?_⟩
  rintro n ⟨r, rfl⟩
  simp [Dict.get?]

end SvgPy.Registry
