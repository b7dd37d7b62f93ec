import Verif.Model.FeatureValues
import Verif.Props.CaseMap

/-! Property C124: the values of font features. -/

set_option linter.unusedSectionVars false
set_option linter.unusedSimpArgs false
set_option linter.unusedVariables false

namespace SvgPy.FeatureValues

open SvgPy.CaseMap

/-! ### Specification -/

/-- The types of features that have named values. -/
inductive Feature
  | annotation | characterVariant | ornaments | styleset | stylistic | swash
  deriving DecidableEq

/-- The keyword of the at-rule of a feature. -/
def Feature.keyword : Feature → Str
  | .annotation => "annotation".toList
  | .characterVariant => "character-variant".toList
  | .ornaments => "ornaments".toList
  | .styleset => "styleset".toList
  | .stylistic => "stylistic".toList
  | .swash => "swash".toList

/-- The mapping that the rule shows for a feature. -/
def Maps.of (m : Maps) : Feature → Values
  | .annotation => m.annotation
  | .characterVariant => m.characterVariant
  | .ornaments => m.ornaments
  | .styleset => m.styleset
  | .stylistic => m.stylistic
  | .swash => m.swash

/-- A setting: a name and its numbers. -/
abbrev Setting := Str × List Nat

/-- Tokens that are white space or comments. -/
def Gap (ts : List Tok) : Prop := ∀ t ∈ ts, t = .space

/-- Tokens that are these numbers, with gaps around. -/
inductive Numbers : List Tok → List Nat → Prop
  | nil {g : List Tok} : Gap g → Numbers g []
  | cons {g r : List Tok} {n : Nat} {ns : List Nat} : Gap g → Numbers r ns →
      Numbers (g ++ .integer n :: r) (n :: ns)

/-- The content of a block: settings `name : number+ ;`. -/
inductive Block : List Tok → List Setting → Prop
  | nil {g : List Tok} : Gap g → Block g []
  | cons {g h v r : List Tok} {name : Str} {ns : List Nat} {ss : List Setting} :
      Gap g → Gap h → Numbers v ns → ns ≠ [] → Block r ss →
      Block (g ++ .ident name :: (h ++ .colon :: (v ++ .semicolon :: r))) ((name, ns) :: ss)

/-- The content of the rule: blocks of the features with their settings, and other rules, which are skipped: those
without feature may have any block. -/
inductive Content : List Node → List (Feature × List Setting) → Prop
  | nil : Content [] []
  | feature {f : Feature} {c : List Tok} {ss : List Setting} {ns : List Node} {bs : List (Feature × List Setting)} :
      Block c ss → Content ns bs → Content (.atRule f.keyword (some c) :: ns) ((f, ss) :: bs)
  | unknown {k : Str} {c : List Tok} {ns : List Node} {bs : List (Feature × List Setting)} :
      (∀ f : Feature, k ≠ f.keyword) → Content ns bs → Content (.atRule k (some c) :: ns) bs
  | other {ns : List Node} {bs : List (Feature × List Setting)} : Content ns bs → Content (.other :: ns) bs

/-- All settings of a feature, in order. -/
def settingsOf (f : Feature) (bs : List (Feature × List Setting)) : List Setting :=
  (bs.filter (fun b => b.1 = f)).flatMap (fun b => b.2)

/-- The numbers of a name: those of the last setting whose name is the same up to case. -/
def lookup (low : Str → Str) (name : Str) (ss : List Setting) : Option (List Nat) :=
  (ss.reverse.find? (fun s => low s.1 = low name)).map (fun s => s.2)

/-- The names, as first spelled, in order. -/
def spellings (low : Str → Str) : List Setting → List Str
  | [] => []
  | s :: ss => s.1 :: spellings low (ss.filter (fun t => low t.1 ≠ low s.1))
termination_by ss => ss.length
decreasing_by
  simp only [List.length_cons, List.length_unattach]
  exact Nat.lt_succ_of_le (Nat.le_trans (List.length_filter_le _ _) (Nat.le_of_eq List.length_attach))

/-! ### What the tokens of any block set -/

/-- The settings that the loop carries out, from its local variables. -/
def emitted : Option Str → Option (List Int) → List Tok → List (Str × List Int)
  | _, _, [] => []
  | n, v, .ident s :: ts => emitted (some s) v ts
  | n, v, .colon :: ts => if n.isSome then emitted n (some []) ts else emitted n v ts
  | n, v, .integer i :: ts =>
    match v with
    | some vs => if 0 ≤ i then emitted n (some (vs ++ [i])) ts else emitted n v ts
    | none => emitted n v ts
  | n, v, .semicolon :: ts =>
    match n, v with
    | some n, some vs => if 0 < vs.length then (n, vs) :: emitted none none ts else emitted none none ts
    | _, _ => emitted none none ts
  | n, v, .number :: ts => emitted n v ts
  | n, v, .space :: ts => emitted n v ts
  | n, v, .other :: ts => emitted n v ts

theorem block_emitted (low : Str → Str) (type : Str) (ts : List Tok) (n : Option Str) (v : Option (List Int))
    (m : Maps) : (ts.foldl (token low type) ⟨n, v, m⟩).maps =
      (emitted n v ts).foldl (fun m p => assign low type p.1 p.2 m) m := by
  induction ts generalizing n v m with
  | nil => simp [emitted]
  | cons t ts ih =>
    cases t with
    | ident s => simp only [List.foldl_cons, token, emitted]; rw [ih]
    | colon =>
      simp only [List.foldl_cons, token, emitted]
      split <;> rw [ih]
    | semicolon =>
      cases n with
      | none => simp only [List.foldl_cons, token, emitted]; rw [ih]
      | some n =>
        cases v with
        | none => simp only [List.foldl_cons, token, emitted]; rw [ih]
        | some vs =>
          simp only [List.foldl_cons, token, emitted]
          rw [ih]
          split <;> simp
    | integer i =>
      cases v with
      | none => simp only [List.foldl_cons, token, emitted]; rw [ih]
      | some vs =>
        simp only [List.foldl_cons, token, emitted]
        split <;> rw [ih]
    | number => simp only [List.foldl_cons, token, emitted]; rw [ih]
    | space => simp only [List.foldl_cons, token, emitted]; rw [ih]
    | other => simp only [List.foldl_cons, token, emitted]; rw [ih]

/-- Numbers as the code keeps them. -/
def toInts (ns : List Nat) : List Int := ns.map Int.ofNat

theorem emitted_gap (n : Option Str) (v : Option (List Int)) (g ts : List Tok) (h : Gap g) :
    emitted n v (g ++ ts) = emitted n v ts := by
  induction g with
  | nil => rfl
  | cons t g ih =>
    have ht := h t (by simp)
    subst ht
    simp only [List.cons_append, emitted]
    exact ih (fun t ht => h t (by simp [ht]))

theorem emitted_numbers {v : List Tok} {ns : List Nat} (h : Numbers v ns) (n : Option Str) (vs : List Int)
    (ts : List Tok) : emitted n (some vs) (v ++ ts) = emitted n (some (vs ++ toInts ns)) ts := by
  induction h generalizing vs with
  | nil hg => rw [emitted_gap _ _ _ _ hg]; simp [toInts]
  | cons hg _ ih =>
    rw [List.append_assoc, emitted_gap _ _ _ _ hg]
    simp only [List.cons_append, emitted, Int.natCast_nonneg, if_true]
    rw [ih]
    simp [toInts]

theorem emitted_block {c : List Tok} {ss : List Setting} (h : Block c ss) :
    emitted none none c = ss.map (fun s => (s.1, toInts s.2)) := by
  induction h with
  | nil hg =>
    have := emitted_gap none none _ [] hg
    rw [List.append_nil] at this
    rw [this]
    rfl
  | @cons g h v r name ns ss hg hh hv hn _ ih =>
    rw [emitted_gap _ _ _ _ hg]
    simp only [emitted]
    rw [emitted_gap _ _ _ _ hh]
    simp only [emitted, Option.isSome_some, if_true]
    rw [emitted_numbers hv]
    have : 0 < (toInts ns).length := by
      cases ns with
      | nil => exact absurd rfl hn
      | cons _ _ => simp [toInts]
    simp only [emitted, List.nil_append, this, if_true, ih, List.map_cons]

/-! ### The mappings -/

theorem keyword_inj (f g : Feature) : f.keyword = g.keyword ↔ f = g := by
  constructor
  · cases f <;> cases g <;> first | (intro _; rfl) | (intro h; exact absurd h (by decide))
  · rintro rfl; rfl

/-- The choice of the mapping with the keywords of the features. -/
theorem assign_eq (low : Str → Str) (k name : Str) (vs : List Int) (m : Maps) : assign low k name vs m =
    if k = Feature.annotation.keyword then { m with annotation := m.annotation.setitem low name vs }
    else if k = Feature.characterVariant.keyword then
      { m with characterVariant := m.characterVariant.setitem low name vs }
    else if k = Feature.ornaments.keyword then { m with ornaments := m.ornaments.setitem low name vs }
    else if k = Feature.styleset.keyword then { m with styleset := m.styleset.setitem low name vs }
    else if k = Feature.stylistic.keyword then { m with stylistic := m.stylistic.setitem low name vs }
    else if k = Feature.swash.keyword then { m with swash := m.swash.setitem low name vs }
    else m := by
  unfold assign Feature.keyword
  rfl

theorem assign_of (low : Str → Str) (f f' : Feature) (name : Str) (vs : List Int) (m : Maps) :
    (assign low f.keyword name vs m).of f' = if f = f' then (m.of f').setitem low name vs else m.of f' := by
  rw [assign_eq]
  simp only [keyword_inj]
  cases f <;> cases f' <;> simp [Maps.of]

theorem assign_unknown (low : Str → Str) (k : Str) (h : ∀ f : Feature, k ≠ f.keyword) (name : Str) (vs : List Int)
    (m : Maps) : assign low k name vs m = m := by
  rw [assign_eq, if_neg (h _), if_neg (h _), if_neg (h _), if_neg (h _), if_neg (h _), if_neg (h _)]

theorem assign_all (low : Str → Str) (f f' : Feature) (ps : List (Str × List Int)) (m : Maps) :
    (ps.foldl (fun m p => assign low f.keyword p.1 p.2 m) m).of f' =
      if f = f' then (m.of f').update low ps else m.of f' := by
  induction ps generalizing m with
  | nil => simp [CMap.update]
  | cons p ps ih =>
    rw [List.foldl_cons, ih, assign_of]
    by_cases h : f = f'
    · simp [h, CMap.update]
    · simp [h]

theorem assign_none (low : Str → Str) (k : Str) (h : ∀ f : Feature, k ≠ f.keyword) (ps : List (Str × List Int))
    (m : Maps) : ps.foldl (fun m p => assign low k p.1 p.2 m) m = m := by
  induction ps generalizing m with
  | nil => rfl
  | cons p ps ih => rw [List.foldl_cons, assign_unknown low k h, ih]

theorem update_append (low : Str → Str) (m : Values) (ps qs : List (Str × List Int)) :
    m.update low (ps ++ qs) = (m.update low ps).update low qs := by
  simp [CMap.update, List.foldl_append]

theorem nodes_content (low : Str → Str) {ns : List Node} {bs : List (Feature × List Setting)} (h : Content ns bs)
    (m : Maps) : ∃ m', nodes low ns m = .ok m' ∧ ∀ f : Feature,
      m'.of f = (m.of f).update low ((settingsOf f bs).map (fun s => (s.1, toInts s.2))) := by
  induction h generalizing m with
  | nil => exact ⟨m, rfl, fun f => by simp [settingsOf, CMap.update]⟩
  | @feature f c ss ns bs hb _ ih =>
    obtain ⟨m', h1, h2⟩ := ih (block low f.keyword c m)
    refine ⟨m', by simpa only [nodes] using h1, fun f' => ?_⟩
    rw [h2 f', block, block_emitted, emitted_block hb, assign_all]
    by_cases hf : f = f'
    · subst hf
      simp [settingsOf, update_append]
    · simp [settingsOf, hf]
  | @unknown k c ns bs hk _ ih =>
    obtain ⟨m', h1, h2⟩ := ih (block low k c m)
    refine ⟨m', by simpa only [nodes] using h1, fun f' => ?_⟩
    rw [h2 f', block, block_emitted, assign_none low k hk]
  | other _ ih => exact ih m

/-- The last value with the name. -/
def lastOf {β : Type} (low : Str → Str) (l : Str) : List (Str × β) → Option β
  | [] => none
  | p :: ps =>
    match lastOf low l ps with
    | some v => some v
    | none => if l = low p.1 then some p.2 else none

theorem foldl_val {β : Type} (low : Str → Str) (ps : List (Str × β)) (a : Abs Str β) (l : Str) :
    (ps.foldl (fun a p => a.set low p.1 p.2) a).val l = (lastOf low l ps).or (a.val l) := by
  induction ps generalizing a with
  | nil => simp [lastOf]
  | cons p ps ih =>
    rw [List.foldl_cons, ih, lastOf]
    cases lastOf low l ps with
    | some v => simp
    | none =>
      simp only [Option.none_or, Abs.set]
      split <;> simp

theorem lastOf_eq (low : Str → Str) (name : Str) (ss : List Setting) :
    lastOf low (low name) (ss.map (fun s => (s.1, toInts s.2))) = (lookup low name ss).map toInts := by
  induction ss with
  | nil => rfl
  | cons s ss ih =>
    simp only [List.map_cons, lastOf, ih, lookup, List.reverse_cons, List.find?_append]
    cases h : List.find? (fun s => decide (low s.1 = low name)) ss.reverse with
    | some x => simp [lookup, h]
    | none =>
      by_cases e : low s.1 = low name
      · simp [lookup, h, e]
      · simp [lookup, h, e, Ne.symm e]

theorem update_run {β : Type} (low : Str → Str) (ps : List (Str × β)) :
    (CMap.empty : CMap Str β).update low ps = ((CMap.empty : CMap Str β).run low [.update ps]).2 := rfl

theorem foldl_order (low : Str → Str) (ss : List Setting) (a : Abs Str (List Int)) :
    ((ss.map (fun s => (s.1, toInts s.2))).foldl (fun a p => a.set low p.1 p.2) a).order =
      a.order ++ spellings low (ss.filter (fun s => (a.val (low s.1)).isNone)) := by
  induction ss generalizing a with
  | nil => simp [spellings]
  | cons s ss ih =>
    rw [List.map_cons, List.foldl_cons, ih]
    have e : ∀ t : Setting, (((a.set low s.1 (toInts s.2)).val (low t.1)).isNone) =
        (decide (low t.1 ≠ low s.1) && (a.val (low t.1)).isNone) := by
      intro t
      simp only [Abs.set]
      by_cases h : low t.1 = low s.1 <;> simp [h]
    simp only [e]
    cases hv : a.val (low s.1) with
    | some w =>
      have : (ss.filter fun t => decide (low t.1 ≠ low s.1) && (a.val (low t.1)).isNone) =
          ss.filter fun t => (a.val (low t.1)).isNone := by
        apply List.filter_congr
        intro t _
        by_cases h : low t.1 = low s.1
        · simp [h, hv]
        · simp [h]
      rw [this]
      simp [Abs.set, hv]
    | none =>
      simp only [Abs.set, hv, Option.isSome_none, Bool.false_eq_true, if_false, Option.isNone_none, List.filter_cons,
        if_true]
      rw [spellings, List.filter_filter, List.append_assoc]
      rfl

/-! ### Theorems -/

/-- **C124** (partial).  If the content consists of blocks of settings, each closed by a semicolon, then for every
feature a name has the numbers of its last setting in the blocks of the feature, names being equal up to case, and no
other name has any; the mapping lists the names in the order and the spelling in which they first occur.  Blocks of
unknown features and other rules do not matter.  Not in here: settings that are not closed, which the code loses
(`open_setting_violated`). -/
theorem settings_partial (low : Str → Str) (ns : List Node) (bs : List (Feature × List Setting))
    (h : Content ns bs) : ∃ m, parseContent low ns = .ok m ∧ ∀ f : Feature,
      (∀ name, (m.of f).getitem low name = match lookup low name (settingsOf f bs) with
        | some v => .ok (v.map Int.ofNat)
        | none => .error .keyError) ∧
      (m.of f).iter = spellings low (settingsOf f bs) := by
  obtain ⟨m, h1, h2⟩ := nodes_content low h .empty
  refine ⟨m, h1, fun f => ?_⟩
  have he : (Maps.empty).of f = CMap.empty := by cases f <;> rfl
  have hr := run_observe (κ := Str) (β := List Int) low
    [.update ((settingsOf f bs).map (fun s => (s.1, toInts s.2)))]
  constructor
  · intro name
    rw [h2 f, he, update_run, hr.2.2.2.2.2 name]
    have : (((Abs.empty : Abs Str (List Int)).run low
        [.update ((settingsOf f bs).map (fun s => (s.1, toInts s.2)))]).2).val (low name) =
        (lookup low name (settingsOf f bs)).map toInts := by
      simp only [Abs.run, Abs.step]
      rw [foldl_val, lastOf_eq]
      simp [Abs.empty]
    rw [this]
    cases lookup low name (settingsOf f bs) <;> rfl
  · rw [h2 f, he, update_run, hr.1]
    simp only [Abs.run, Abs.step]
    rw [foldl_order]
    have : ((settingsOf f bs).filter fun s => ((Abs.empty : Abs Str (List Int)).val (low s.1)).isNone) =
        settingsOf f bs := by simp [Abs.empty]
    rw [this]
    simp [Abs.empty]

/-- The content `@swash {a: 1 2; b: 3; A: 4;}` and `@unknown {}`. -/
def sample : List Node :=
  [.atRule "swash".toList (some [.ident "a".toList, .colon, .space, .integer 1, .space, .integer 2, .semicolon,
    .space, .ident "b".toList, .colon, .space, .integer 3, .semicolon,
    .ident "A".toList, .colon, .integer 4, .semicolon]),
   .atRule "unknown".toList (some [])]

/-- Its settings. -/
def sampleSettings : List (Feature × List Setting) :=
  [(.swash, [("a".toList, [1, 2]), ("b".toList, [3]), ("A".toList, [4])])]

theorem gap_nil : Gap [] := by intro t ht; simp at ht
theorem gap_one : Gap [.space] := by intro t ht; simpa using ht

example : Content sample sampleSettings := by
  refine Content.feature (f := .swash) ?_ (Content.unknown ?_ Content.nil)
  · refine Block.cons (g := []) (h := []) (v := [.space, .integer 1, .space, .integer 2]) gap_nil gap_nil
      (Numbers.cons (g := [.space]) gap_one (Numbers.cons (g := [.space]) (r := []) gap_one (Numbers.nil gap_nil)))
      (by simp) ?_
    refine Block.cons (g := [.space]) (h := []) (v := [.space, .integer 3]) gap_one gap_nil
      (Numbers.cons (g := [.space]) (r := []) gap_one (Numbers.nil gap_nil)) (by simp) ?_
    exact Block.cons (g := []) (h := []) (v := [.integer 4]) gap_nil gap_nil
      (Numbers.cons (g := []) (r := []) gap_nil (Numbers.nil gap_nil)) (by simp) (Block.nil gap_nil)
  · intro f
    cases f <;> decide

/-- The names are looked up without case. -/
example : lookup (fun s => s.map Char.toLower) "a".toList (settingsOf .swash sampleSettings) = some [4] := by
  decide

/-! ### Any content -/

/-- The whole numbers of a block. -/
def integersOf (ts : List Tok) : List Int := ts.filterMap (fun t => match t with | .integer n => some n | _ => none)

theorem emitted_sound (n : Option Str) (v : Option (List Int)) (ts : List Tok) (all done : List Tok)
    (ha : all = done ++ ts) (hn : ∀ s, n = some s → Tok.ident s ∈ done)
    (hv : ∀ vs, v = some vs → (∀ x ∈ vs, 0 ≤ x) ∧ vs.Sublist (integersOf done)) :
    ∀ p ∈ emitted n v ts, Tok.ident p.1 ∈ all ∧ p.2 ≠ [] ∧ (∀ x ∈ p.2, 0 ≤ x) ∧
      p.2.Sublist (integersOf all) := by
  have happ : ∀ a b : List Tok, integersOf (a ++ b) = integersOf a ++ integersOf b := by
    intro a b; simp [integersOf]
  have keep : ∀ t : Tok, (∀ vs, v = some vs → (∀ x ∈ vs, 0 ≤ x) ∧ vs.Sublist (integersOf (done ++ [t]))) := by
    intro t vs e
    refine ⟨(hv vs e).1, ?_⟩
    rw [happ]
    exact (hv vs e).2.trans (List.sublist_append_left _ _)
  have keepn : ∀ t : Tok, (∀ s, n = some s → Tok.ident s ∈ done ++ [t]) := by
    intro t s e; simp [hn s e]
  induction ts generalizing n v done with
  | nil => intro p hp; simp [emitted] at hp
  | cons t ts ih =>
    have go : ∀ n' v', (∀ s, n' = some s → Tok.ident s ∈ done ++ [t]) →
        (∀ vs, v' = some vs → (∀ x ∈ vs, 0 ≤ x) ∧ vs.Sublist (integersOf (done ++ [t]))) →
        ∀ p ∈ emitted n' v' ts, Tok.ident p.1 ∈ all ∧ p.2 ≠ [] ∧ (∀ x ∈ p.2, 0 ≤ x) ∧
          p.2.Sublist (integersOf all) := by
      intro n' v' h1 h2
      refine ih n' v' (done ++ [t]) (by simp [ha]) h1 h2 ?_ ?_
      · intro t' vs e
        refine ⟨(h2 vs e).1, ?_⟩
        rw [happ (done ++ [t])]
        exact (h2 vs e).2.trans (List.sublist_append_left _ _)
      · intro t' s e
        have := h1 s e
        simp only [List.mem_append] at this ⊢
        tauto
    have empty : ∀ vs : List Int, (none : Option (List Int)) = some vs →
        (∀ x ∈ vs, 0 ≤ x) ∧ vs.Sublist (integersOf (done ++ [t])) := by
      intro vs e; simp at e
    have emptyn : ∀ s : Str, (none : Option Str) = some s → Tok.ident s ∈ done ++ [t] := by
      intro s e; simp at e
    cases t with
    | ident s =>
      simp only [emitted]
      exact go _ _ (by intro s' e; simp at e; simp [e]) (keep _)
    | colon =>
      simp only [emitted]
      split
      · exact go _ _ (keepn _) (by intro vs e; simp at e; subst e; simp)
      · exact go _ _ (keepn _) (keep _)
    | semicolon =>
      cases n with
      | none => simp only [emitted]; exact go _ _ emptyn empty
      | some n =>
        cases v with
        | none => simp only [emitted]; exact go _ _ emptyn empty
        | some vs =>
          simp only [emitted]
          split
          · rename_i hl
            intro p hp
            rcases List.mem_cons.1 hp with rfl | hp
            · refine ⟨?_, ?_, (hv vs rfl).1, ?_⟩
              · rw [ha]; exact List.mem_append_left _ (hn n rfl)
              · intro e
                simp only at e
                rw [e] at hl
                simp at hl
              · rw [ha, happ]
                exact (hv vs rfl).2.trans (List.sublist_append_left _ _)
            · exact go _ _ emptyn empty p hp
          · exact go _ _ emptyn empty
    | integer i =>
      cases v with
      | none => simp only [emitted]; exact go _ _ (keepn _) empty
      | some vs =>
        simp only [emitted]
        split
        · rename_i hi
          refine go _ _ (keepn _) ?_
          intro ws e
          simp only [Option.some.injEq] at e
          subst e
          refine ⟨?_, ?_⟩
          · intro x hx
            rcases List.mem_append.1 hx with hx | hx
            · exact (hv vs rfl).1 x hx
            · simp at hx; omega
          · rw [happ]
            exact (hv vs rfl).2.append (List.Sublist.refl _)
        · exact go _ _ (keepn _) (keep _)
    | number => simp only [emitted]; exact go _ _ (keepn _) (keep _)
    | space => simp only [emitted]; exact go _ _ (keepn _) (keep _)
    | other => simp only [emitted]; exact go _ _ (keepn _) (keep _)


/-- The lists that some mapping of a feature holds, from any start. -/
theorem nodes_sound (low : Str → Str) (ns : List Node) (f : Feature) :
    ∀ m m', nodes low ns m = .ok m' → ∃ ps : List (Str × List Int),
      m'.of f = (m.of f).update low ps ∧
      ∀ p ∈ ps, ∃ c, Node.atRule f.keyword (some c) ∈ ns ∧ Tok.ident p.1 ∈ c ∧ p.2 ≠ [] ∧
        (∀ x ∈ p.2, 0 ≤ x) ∧ p.2.Sublist (integersOf c) := by
  induction ns with
  | nil =>
    intro m m' h
    simp only [nodes, Except.ok.injEq] at h
    exact ⟨[], by simp [CMap.update, h], by simp⟩
  | cons n ns ih =>
    intro m m' h
    cases n with
    | other =>
      obtain ⟨ps, h1, h2⟩ := ih m m' h
      refine ⟨ps, h1, fun p hp => ?_⟩
      obtain ⟨c, hc, r⟩ := h2 p hp
      exact ⟨c, by simp [hc], r⟩
    | atRule k c =>
      cases c with
      | none => simp [nodes] at h
      | some c =>
        simp only [nodes] at h
        obtain ⟨ps, h1, h2⟩ := ih _ m' h
        by_cases hk : k = f.keyword
        · subst hk
          refine ⟨emitted none none c ++ ps, ?_, fun p hp => ?_⟩
          · rw [h1, block, block_emitted, assign_all, update_append]
            simp
          · rcases List.mem_append.1 hp with hp | hp
            · exact ⟨c, by simp, emitted_sound none none c c [] rfl (by simp) (by simp) p hp⟩
            · obtain ⟨c', hc, r⟩ := h2 p hp
              exact ⟨c', by simp [hc], r⟩
        · refine ⟨ps, ?_, fun p hp => ?_⟩
          · rw [h1, block, block_emitted]
            by_cases hk' : ∃ g : Feature, k = g.keyword
            · obtain ⟨g, rfl⟩ := hk'
              have : g ≠ f := fun e => hk (by rw [e])
              rw [assign_all]
              simp [this]
            · rw [assign_none low k (fun g e => hk' ⟨g, e⟩)]
          · obtain ⟨c', hc, r⟩ := h2 p hp
            exact ⟨c', by simp [hc], r⟩

theorem lastOf_mem {β : Type} (low : Str → Str) (l : Str) (ps : List (Str × β)) (v : β)
    (h : lastOf low l ps = some v) : ∃ p ∈ ps, low p.1 = l ∧ p.2 = v := by
  induction ps with
  | nil => simp [lastOf] at h
  | cons p ps ih =>
    simp only [lastOf] at h
    cases hl : lastOf low l ps with
    | some w =>
      rw [hl] at h
      simp only [Option.some.injEq] at h
      subst h
      obtain ⟨q, h1, h2⟩ := ih hl
      exact ⟨q, by simp [h1], h2⟩
    | none =>
      rw [hl] at h
      simp only at h
      split at h
      · rename_i e
        exact ⟨p, by simp, e.symm, by simpa using h⟩
      · simp at h

/-- **C124**.  Whatever the content, the numbers of a name are one or more numbers that are not negative, they stand in
this order in a block of the feature, and the name, up to case, stands there too. -/
theorem values_sound (low : Str → Str) (ns : List Node) (m : Maps) (h : parseContent low ns = .ok m) (f : Feature)
    (name : Str) (v : List Int) (hv : (m.of f).getitem low name = .ok v) :
    v ≠ [] ∧ (∀ x ∈ v, 0 ≤ x) ∧ ∃ c, Node.atRule f.keyword (some c) ∈ ns ∧ v.Sublist (integersOf c) ∧
      ∃ name', low name' = low name ∧ Tok.ident name' ∈ c := by
  obtain ⟨ps, h1, h2⟩ := nodes_sound low ns f _ _ h
  have he : (Maps.empty).of f = CMap.empty := by cases f <;> rfl
  have hr := run_observe (κ := Str) (β := List Int) low [.update ps]
  rw [h1, he, update_run, hr.2.2.2.2.2 name] at hv
  have e : (((Abs.empty : Abs Str (List Int)).run low [.update ps]).2).val (low name) = lastOf low (low name) ps := by
    simp only [Abs.run, Abs.step]
    rw [foldl_val]
    simp [Abs.empty]
  rw [e] at hv
  cases hl : lastOf low (low name) ps with
  | none => rw [hl] at hv; simp at hv
  | some w =>
    rw [hl] at hv
    simp only [Except.ok.injEq] at hv
    subst hv
    obtain ⟨p, hp, hn, rfl⟩ := lastOf_mem _ _ _ _ hl
    obtain ⟨c, hc, hi, h0, hp0, hs⟩ := h2 p hp
    exact ⟨h0, hp0, c, hc, hs, p.1, hn, hi⟩

/-- The hypotheses of `values_sound` hold for the sample. -/
example : ∃ m, parseContent id sample = .ok m ∧ (m.of .swash).getitem id "a".toList = .ok [1, 2] := ⟨_, rfl, rfl⟩

/-- **C124** (violated).  The last setting of a block needs no semicolon in CSS; the code loses it: `@swash {a: 1}`. -/
theorem open_setting_violated : ∃ m,
    parseContent id [.atRule "swash".toList (some [.ident "a".toList, .colon, .space, .integer 1])] = .ok m ∧
    (m.of .swash).getitem id "a".toList = .error .keyError := ⟨_, rfl, rfl⟩

/-- **C124** (violated).  A setting with a negative number is invalid, and with it all its numbers; the code keeps
the others: `@styleset {a: -1 2;}` gives `2`. -/
theorem negative_violated : ∃ m,
    parseContent id [.atRule "styleset".toList (some [.ident "a".toList, .colon, .integer (-1), .space, .integer 2,
      .semicolon])] = .ok m ∧
    (m.of .styleset).getitem id "a".toList = .ok [2] := ⟨_, rfl, rfl⟩

/-- **C124** (violated).  `@annotation` takes one number, and a setting with two is invalid; the code keeps both. -/
theorem two_numbers_violated : ∃ m,
    parseContent id [.atRule "annotation".toList (some [.ident "a".toList, .colon, .integer 1, .space, .integer 2,
      .semicolon])] = .ok m ∧
    (m.of .annotation).getitem id "a".toList = .ok [1, 2] := ⟨_, rfl, rfl⟩

/-- **C124** (violated).  An at-rule without block is to be ignored; it makes the whole rule raise TypeError,
whatever stands around it. -/
theorem no_block_violated (low : Str → Str) (before after : List Node) (bs : List (Feature × List Setting))
    (k : Str) (h : Content before bs) : parseContent low (before ++ .atRule k none :: after) = .error .typeError := by
  have go : ∀ m, nodes low (before ++ .atRule k none :: after) m = .error .typeError := by
    induction h with
    | nil => intro m; rfl
    | feature _ _ ih => intro m; exact ih _
    | unknown _ _ ih => intro m; exact ih _
    | other _ ih => intro m; exact ih _
  exact go _

end SvgPy.FeatureValues
