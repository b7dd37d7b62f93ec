import Mathlib.Data.List.Basic
import Mathlib.Data.List.Nodup
import Mathlib.Data.List.Sublists
import Verif.Lemmas.PyDict
import Verif.Model.Features

/-!
C114: each keyword of the font properties turns on or off the features that CSS names for it.
-/

set_option linter.unusedSimpArgs false
set_option linter.unusedVariables false

namespace SvgPy.Features

/-! ### Specification -/

namespace Spec

/-- The properties. -/
inductive Property where
  | kerning | alternates | caps | eastAsian | ligatures | numeric | position
  deriving DecidableEq

/-- The keywords of a property. -/
def keywords (st : Style) : Property → List String
  | .kerning => [st.kerning]
  | .alternates => st.alternates
  | .caps => [st.caps]
  | .eastAsian => st.eastAsian
  | .ligatures => st.ligatures
  | .numeric => st.numeric
  | .position => [st.position]

/-- A keyword and the features it turns on or off. -/
abbrev Row := String × List (String × Int)

/-- Alternatives: a value has at most one keyword of such a group (CSS Fonts 3, 6.4-6.10). -/
abbrev Group := Property × List Row

/-- The tables of CSS Fonts 3, 6.3-6.10. -/
def groups : List Group := [
  (.kerning, [("none", [("kern", 0), ("vkrn", 0)]), ("normal", [("kern", 1), ("vkrn", 1)])]),
  (.alternates, [("historical-forms", [("hist", 1)])]),
  (.caps, [("small-caps", [("smcp", 1)]), ("all-small-caps", [("c2sc", 1), ("smcp", 1)]),
    ("petite-caps", [("pcap", 1)]), ("all-petite-caps", [("c2pc", 1), ("pcap", 1)]), ("unicase", [("unic", 1)]),
    ("titling-caps", [("titl", 1)])]),
  (.eastAsian, [("jis78", [("jp78", 1)]), ("jis83", [("jp83", 1)]), ("jis90", [("jp90", 1)]),
    ("simplified", [("smpl", 1)]), ("traditional", [("trad", 1)])]),
  (.eastAsian, [("full-width", [("fwid", 1)]), ("proportional-width", [("pwid", 1)])]),
  (.eastAsian, [("ruby", [("ruby", 1)])]),
  (.ligatures, [("none", [("liga", 0), ("clig", 0), ("dlig", 0), ("hlig", 0), ("calt", 0)])]),
  (.ligatures, [("common-ligatures", [("liga", 1), ("clig", 1)]), ("no-common-ligatures", [("liga", 0), ("clig", 0)])]),
  (.ligatures, [("discretionary-ligatures", [("dlig", 1)]), ("no-discretionary-ligatures", [("dlig", 0)])]),
  (.ligatures, [("historical-ligatures", [("hlig", 1)]), ("no-historical-ligatures", [("hlig", 0)])]),
  (.ligatures, [("contextual", [("calt", 1)]), ("no-contextual", [("calt", 0)])]),
  (.numeric, [("lining-nums", [("lnum", 1)]), ("oldstyle-nums", [("onum", 1)])]),
  (.numeric, [("proportional-nums", [("pnum", 1)]), ("tabular-nums", [("tnum", 1)])]),
  (.numeric, [("diagonal-fractions", [("frac", 1)]), ("stacked-fractions", [("afrc", 1)])]),
  (.numeric, [("ordinal", [("ordn", 1)])]),
  (.numeric, [("slashed-zero", [("zero", 1)])]),
  (.position, [("sub", [("subs", 1)]), ("super", [("sups", 1)])])]

/-- The style has a keyword that gives the feature this value. -/
def Wants (st : Style) (tag : String) (v : Int) : Prop :=
  ∃ g ∈ groups, ∃ r ∈ g.2, r.1 ∈ keywords st g.1 ∧ (tag, v) ∈ r.2

/-- The values are those of CSS: at most one keyword of each group, `normal` and `none` stand alone. -/
structure Valid (st : Style) : Prop where
  one : ∀ g ∈ groups, ∀ r ∈ g.2, ∀ s ∈ g.2, r.1 ∈ keywords st g.1 → s.1 ∈ keywords st g.1 → r.1 = s.1
  alone : ∀ p, ∀ k ∈ ["normal", "none"], k ∈ keywords st p → keywords st p = [k]

end Spec

open Spec

/-! ### Choices -/

/-- What the first keyword of the group that is there asks for. -/
def pick (l : List String) : List Row → List (String × Int)
  | [] => []
  | r :: rs => if r.1 ∈ l then r.2 else pick l rs

theorem mem_pick (l : List String) (rs : List Row) (q : String × Int)
    (hn : (rs.map (·.1)).Nodup)
    (h : ∀ r ∈ rs, ∀ s ∈ rs, r.1 ∈ l → s.1 ∈ l → r.1 = s.1) :
    q ∈ pick l rs ↔ ∃ r ∈ rs, r.1 ∈ l ∧ q ∈ r.2 := by
  induction rs with
  | nil => simp [pick]
  | cons r rs ih =>
    rw [List.map_cons, List.nodup_cons] at hn
    rw [pick]
    by_cases hr : r.1 ∈ l
    · rw [if_pos hr]
      constructor
      · exact fun hq => ⟨r, by simp, hr, hq⟩
      · rintro ⟨s, hs, hsl, hq⟩
        rcases List.mem_cons.1 hs with rfl | hs'
        · exact hq
        · exact absurd (h r (by simp) s hs hr hsl) (fun e => hn.1 (e ▸ List.mem_map_of_mem hs'))
    · rw [if_neg hr, ih hn.2 (fun a ha b hb => h a (by simp [ha]) b (by simp [hb]))]
      constructor
      · rintro ⟨s, hs, h2⟩
        exact ⟨s, by simp [hs], h2⟩
      · rintro ⟨s, hs, hsl, hq⟩
        rcases List.mem_cons.1 hs with rfl | hs'
        · exact absurd hsl hr
        · exact ⟨s, hs', hsl, hq⟩

/-- All that the keywords of a style ask for, in order. -/
def assigned (st : Style) : List (String × Int) := groups.flatMap fun g => pick (keywords st g.1) g.2

theorem groups_nodup : ∀ g ∈ groups, (g.2.map (·.1)).Nodup := by decide +kernel

theorem mem_assigned (st : Style) (hv : Valid st) (tag : String) (v : Int) :
    (tag, v) ∈ assigned st ↔ Wants st tag v := by
  rw [assigned, List.mem_flatMap]
  unfold Wants
  constructor
  · rintro ⟨g, hg, h⟩
    exact ⟨g, hg, (mem_pick _ _ _ (groups_nodup g hg) (hv.one g hg)).1 h⟩
  · rintro ⟨g, hg, h⟩
    exact ⟨g, hg, (mem_pick _ _ _ (groups_nodup g hg) (hv.one g hg)).2 h⟩

/-! ### The code -/

section steps

theorem kerning_eq (st : Style) (d : Dict String Int) : kerning st d =
    d.update (pick [st.kerning] [("none", [("kern", 0), ("vkrn", 0)]), ("normal", [("kern", 1), ("vkrn", 1)])]) := by
  simp only [pick, List.mem_singleton, eq_comm (b := st.kerning)]
  unfold kerning
  split_ifs <;> rfl

theorem caps_eq (st : Style) (d : Dict String Int) : caps st d =
    d.update (pick [st.caps] [("small-caps", [("smcp", 1)]), ("all-small-caps", [("c2sc", 1), ("smcp", 1)]),
    ("petite-caps", [("pcap", 1)]), ("all-petite-caps", [("c2pc", 1), ("pcap", 1)]), ("unicase", [("unic", 1)]),
    ("titling-caps", [("titl", 1)])]) := by
  simp only [pick, List.mem_singleton, eq_comm (b := st.caps)]
  unfold caps
  split_ifs <;> rfl

theorem alternates_eq (st : Style) (d : Dict String Int) : alternates st d =
    d.update (pick st.alternates [("historical-forms", [("hist", 1)])]) := by
  simp only [pick]
  unfold alternates
  split_ifs with h1 h2
  · rw [h1] at h2; simp at h2
  all_goals rfl

theorem eastAsianForm_eq (st : Style) (d : Dict String Int) : eastAsianForm st d =
    d.update (pick st.eastAsian [("jis78", [("jp78", 1)]), ("jis83", [("jp83", 1)]), ("jis90", [("jp90", 1)]),
    ("simplified", [("smpl", 1)]), ("traditional", [("trad", 1)])]) := by
  simp only [pick]
  unfold eastAsianForm
  split_ifs <;> rfl

theorem eastAsianWidth_eq (st : Style) (d : Dict String Int) : eastAsianWidth st d =
    d.update (pick st.eastAsian [("full-width", [("fwid", 1)]), ("proportional-width", [("pwid", 1)])]) := by
  simp only [pick]
  unfold eastAsianWidth
  split_ifs <;> rfl

theorem ruby_eq (st : Style) (d : Dict String Int) : ruby st d =
    d.update (pick st.eastAsian [("ruby", [("ruby", 1)])]) := by
  simp only [pick]
  unfold ruby
  split_ifs <;> rfl

theorem common_eq (st : Style) (d : Dict String Int) : common st d =
    d.update (pick st.ligatures [("common-ligatures", [("liga", 1), ("clig", 1)]),
      ("no-common-ligatures", [("liga", 0), ("clig", 0)])]) := by
  simp only [pick]
  unfold common
  split_ifs <;> rfl

theorem discretionary_eq (st : Style) (d : Dict String Int) : discretionary st d =
    d.update (pick st.ligatures [("discretionary-ligatures", [("dlig", 1)]),
      ("no-discretionary-ligatures", [("dlig", 0)])]) := by
  simp only [pick]
  unfold discretionary
  split_ifs <;> rfl

theorem historical_eq (st : Style) (d : Dict String Int) : historical st d =
    d.update (pick st.ligatures [("historical-ligatures", [("hlig", 1)]),
      ("no-historical-ligatures", [("hlig", 0)])]) := by
  simp only [pick]
  unfold historical
  split_ifs <;> rfl

theorem contextual_eq (st : Style) (d : Dict String Int) : contextual st d =
    d.update (pick st.ligatures [("contextual", [("calt", 1)]), ("no-contextual", [("calt", 0)])]) := by
  simp only [pick]
  unfold contextual
  split_ifs <;> rfl

theorem update_nil (d : Dict String Int) : d.update [] = d := rfl

theorem ligatures_eq (st : Style) (hv : Valid st) (d : Dict String Int) : ligatures st d =
    d.update (pick st.ligatures [("none", [("liga", 0), ("clig", 0), ("dlig", 0), ("hlig", 0), ("calt", 0)])] ++
      pick st.ligatures [("common-ligatures", [("liga", 1), ("clig", 1)]),
        ("no-common-ligatures", [("liga", 0), ("clig", 0)])] ++
      pick st.ligatures [("discretionary-ligatures", [("dlig", 1)]), ("no-discretionary-ligatures", [("dlig", 0)])] ++
      pick st.ligatures [("historical-ligatures", [("hlig", 1)]), ("no-historical-ligatures", [("hlig", 0)])] ++
      pick st.ligatures [("contextual", [("calt", 1)]), ("no-contextual", [("calt", 0)])]) := by
  unfold ligatures
  have hn := hv.alone .ligatures "none" (by simp)
  simp only [keywords] at hn
  split_ifs with h1 h2
  · rw [h1]; rfl
  · rw [h2]; rfl
  · have h3 : "none" ∉ st.ligatures := fun h => h2 (hn h)
    have h4 : pick st.ligatures
        [("none", [("liga", 0), ("clig", 0), ("dlig", 0), ("hlig", 0), ("calt", 0)])] = [] := by
      rw [pick, if_neg h3, pick]
    rw [h4, List.nil_append, Dict.get?_update_append, Dict.get?_update_append, Dict.get?_update_append,
      contextual_eq, historical_eq, discretionary_eq, common_eq]

theorem numeric_eq (st : Style) (d : Dict String Int) : numeric st d =
    d.update (pick st.numeric [("lining-nums", [("lnum", 1)]), ("oldstyle-nums", [("onum", 1)])] ++
      pick st.numeric [("proportional-nums", [("pnum", 1)]), ("tabular-nums", [("tnum", 1)])] ++
      pick st.numeric [("diagonal-fractions", [("frac", 1)]), ("stacked-fractions", [("afrc", 1)])] ++
      pick st.numeric [("ordinal", [("ordn", 1)])] ++
      pick st.numeric [("slashed-zero", [("zero", 1)])]) := by
  unfold numeric
  split_ifs with h1
  · rw [h1]; rfl
  · rw [Dict.get?_update_append, Dict.get?_update_append, Dict.get?_update_append, Dict.get?_update_append]
    have e1 : figures st d =
        d.update (pick st.numeric [("lining-nums", [("lnum", 1)]), ("oldstyle-nums", [("onum", 1)])]) := by
      simp only [pick]; unfold figures; split_ifs <;> rfl
    have e2 : ∀ d, spacing st d =
        Dict.update d (pick st.numeric [("proportional-nums", [("pnum", 1)]), ("tabular-nums", [("tnum", 1)])]) := by
      intro d; simp only [pick]; unfold spacing; split_ifs <;> rfl
    have e3 : ∀ d, fractions st d = Dict.update d
        (pick st.numeric [("diagonal-fractions", [("frac", 1)]), ("stacked-fractions", [("afrc", 1)])]) := by
      intro d; simp only [pick]; unfold fractions; split_ifs <;> rfl
    have e4 : ∀ d, ordinal st d = Dict.update d (pick st.numeric [("ordinal", [("ordn", 1)])]) := by
      intro d; simp only [pick]; unfold ordinal; split_ifs <;> rfl
    have e5 : ∀ d, slashedZero st d = Dict.update d (pick st.numeric [("slashed-zero", [("zero", 1)])]) := by
      intro d; simp only [pick]; unfold slashedZero; split_ifs <;> rfl
    rw [e5, e4, e3, e2, e1]

theorem position_eq (st : Style) (d : Dict String Int) : position st d =
    d.update (pick [st.position] [("sub", [("subs", 1)]), ("super", [("sups", 1)])]) := by
  simp only [pick, List.mem_singleton, eq_comm (b := st.position)]
  unfold position
  split_ifs <;> rfl

end steps

theorem featureMap_eq (st : Style) (hv : Valid st) : featureMap st = st.featureSettings.update (assigned st) := by
  unfold featureMap
  rw [position_eq, numeric_eq, ligatures_eq st hv, ruby_eq, eastAsianWidth_eq, eastAsianForm_eq, caps_eq,
    alternates_eq, kerning_eq]
  simp only [← Dict.get?_update_append]
  congr 1
  simp only [assigned, groups, keywords, List.flatMap_cons, List.flatMap_nil, List.append_assoc, List.append_nil]

/-! ### No feature twice -/

/-- The features in the order of the code. -/
def order : List (List String) := [["kern", "vkrn"], ["hist"], ["c2sc", "smcp", "c2pc", "pcap", "unic", "titl"],
  ["jp78", "jp83", "jp90", "smpl", "trad"], ["fwid", "pwid"], ["ruby"], ["liga", "clig", "dlig", "hlig", "calt"],
  ["lnum", "onum"], ["pnum", "tnum"], ["frac", "afrc"], ["ordn"], ["zero"], ["subs", "sups"]]

theorem pick_sublist (l : List String) (rs : List Row) (tags : List String)
    (h : ∀ r ∈ rs, (r.2.map (·.1)).Sublist tags) : ((pick l rs).map (·.1)).Sublist tags := by
  induction rs with
  | nil => simp [pick]
  | cons r rs ih =>
    rw [pick]
    split
    · exact h r (by simp)
    · exact ih fun s hs => h s (by simp [hs])

theorem pick_absent (l : List String) (rs : List Row) (h : ∀ r ∈ rs, r.1 ∉ l) : pick l rs = [] := by
  induction rs with
  | nil => rfl
  | cons r rs ih =>
    rw [pick, if_neg (h r (by simp)), ih fun s hs => h s (by simp [hs])]

/-- A valid style asks for each feature once. -/
theorem assigned_nodup (st : Style) (hv : Valid st) : ((assigned st).map (·.1)).Nodup := by
  have hn := hv.alone .ligatures "none" (by simp)
  simp only [keywords] at hn
  have hl : ((pick st.ligatures [("none", [("liga", 0), ("clig", 0), ("dlig", 0), ("hlig", 0), ("calt", 0)])] ++
      (pick st.ligatures [("common-ligatures", [("liga", 1), ("clig", 1)]),
        ("no-common-ligatures", [("liga", 0), ("clig", 0)])] ++
      (pick st.ligatures [("discretionary-ligatures", [("dlig", 1)]), ("no-discretionary-ligatures", [("dlig", 0)])] ++
      (pick st.ligatures [("historical-ligatures", [("hlig", 1)]), ("no-historical-ligatures", [("hlig", 0)])] ++
      pick st.ligatures [("contextual", [("calt", 1)]), ("no-contextual", [("calt", 0)])])))).map (·.1)).Sublist
      ["liga", "clig", "dlig", "hlig", "calt"] := by
    by_cases h : "none" ∈ st.ligatures
    · rw [hn h]; decide +kernel
    · have h4 : pick st.ligatures
          [("none", [("liga", 0), ("clig", 0), ("dlig", 0), ("hlig", 0), ("calt", 0)])] = [] := by
        rw [pick, if_neg h, pick]
      rw [h4, List.nil_append, List.map_append, List.map_append, List.map_append]
      show List.Sublist _ (["liga", "clig"] ++ (["dlig"] ++ (["hlig"] ++ ["calt"])))
      refine (pick_sublist _ _ _ ?_).append ((pick_sublist _ _ _ ?_).append ((pick_sublist _ _ _ ?_).append
        (pick_sublist _ _ _ ?_))) <;> decide +kernel
  have hs : ((assigned st).map (·.1)).Sublist order.flatten := by
    simp only [assigned, groups, keywords, List.flatMap_cons, List.flatMap_nil, List.append_nil]
    have e : ∀ A B C D E F G : List (String × Int), A ++ (B ++ (C ++ (D ++ (E ++ F)))) = (A ++ (B ++ (C ++ (D ++ E)))) ++ F := by
      intros; simp
    rw [e (pick st.ligatures _)  _ _ _ _ _ []]
    simp only [List.map_append (f := fun x : String × Int => x.1)] at hl ⊢
    show List.Sublist _ (["kern", "vkrn"] ++ (["hist"] ++ (["c2sc", "smcp", "c2pc", "pcap", "unic", "titl"] ++
      (["jp78", "jp83", "jp90", "smpl", "trad"] ++ (["fwid", "pwid"] ++ (["ruby"] ++
      (["liga", "clig", "dlig", "hlig", "calt"] ++ (["lnum", "onum"] ++ (["pnum", "tnum"] ++ (["frac", "afrc"] ++
      (["ordn"] ++ (["zero"] ++ ["subs", "sups"]))))))))))))
    refine (pick_sublist _ _ _ ?_).append ((pick_sublist _ _ _ ?_).append ((pick_sublist _ _ _ ?_).append
      ((pick_sublist _ _ _ ?_).append ((pick_sublist _ _ _ ?_).append ((pick_sublist _ _ _ ?_).append
      (hl.append ((pick_sublist _ _ _ ?_).append ((pick_sublist _ _ _ ?_).append ((pick_sublist _ _ _ ?_).append
      ((pick_sublist _ _ _ ?_).append ((pick_sublist _ _ _ ?_).append (pick_sublist _ _ _ ?_)))))))))))) <;>
      decide +kernel
  exact hs.nodup (by decide +kernel)

/-- C114: the features are those that the keywords ask for, and those of font-feature-settings that no keyword
speaks of; each of them once, written as `tag=value`. -/
theorem features_spec (st : Style) (hv : Valid st) (hd : (st.featureSettings.map (·.1)).Nodup) :
    ∃ ps : List (String × Int), features st = ps.map (fun p => p.1 ++ "=" ++ toString p.2) ∧
      (ps.map (·.1)).Nodup ∧
      ∀ tag v, (tag, v) ∈ ps ↔
        Wants st tag v ∨ (¬∃ w, Wants st tag w) ∧ (tag, v) ∈ st.featureSettings := by
  have hnd : (Dict.keys (featureMap st)).Nodup := by
    rw [featureMap_eq st hv]
    exact Dict.nodup_update _ _ hd
  refine ⟨featureMap st, rfl, hnd, fun tag v => ?_⟩
  rw [Dict.mem_iff_get? _ hnd, featureMap_eq st hv, Dict.get?_update _ _ _ (assigned_nodup st hv)]
  have hm : ∀ w, Wants st tag w ↔ Dict.get? (assigned st) tag = some w := fun w => by
    rw [← mem_assigned st hv, Dict.mem_iff_get? _ (assigned_nodup st hv)]
  rw [Dict.mem_iff_get? _ hd]
  simp only [hm]
  cases h : Dict.get? (assigned st) tag with
  | none => simp
  | some w => simp

/-- C114: each feature is asked for in one way only. -/
theorem wants_unique (st : Style) (hv : Valid st) (tag : String) (v w : Int) (h1 : Wants st tag v)
    (h2 : Wants st tag w) : v = w := by
  rw [← mem_assigned st hv, Dict.mem_iff_get? _ (assigned_nodup st hv)] at h1 h2
  rw [h1] at h2
  exact Option.some.inj h2

/-! ### What does not hold -/

/-- All properties with their initial values. -/
def initial : Style := ⟨[], "auto", ["normal"], "normal", ["normal"], ["normal"], ["normal"], "normal"⟩

/-- C114: CSS Fonts lets font-feature-settings have the last word; here the other properties have it. -/
theorem precedence_violated : ∃ st, Valid st ∧ ("smcp", 0) ∈ st.featureSettings ∧ features st = ["smcp=1"] := by
  refine ⟨{ initial with featureSettings := [("smcp", 0)], caps := "small-caps" }, ⟨?_, ?_⟩, by decide +kernel,
    by decide +kernel⟩
  · decide +kernel
  · rintro (_ | _) <;> decide +kernel

/-! ### Cases -/

example : Valid initial := ⟨by decide +kernel, by rintro (_ | _) <;> decide +kernel⟩

example : features { initial with featureSettings := [("ss01", 2)], kerning := "none", ligatures := ["contextual"] } =
    ["ss01=2", "kern=0", "vkrn=0", "calt=1"] := by decide +kernel

end SvgPy.Features
