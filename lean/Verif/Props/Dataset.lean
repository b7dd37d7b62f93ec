import Verif.Model.Dataset
import Verif.Lemmas.PyDict
import Verif.Lemmas.PyStr

/-! Property C45: the dataset of an element. -/

set_option linter.unusedSimpArgs false

namespace SvgPy.Dataset

open PyStr

/-! ### Specification -/

/-- What is used of the case mapping on the characters of a key. -/
structure Sane (C : Case) (key : Str) : Prop where
  hyphen : C.isUpper '-' = false
  dataPre : ∀ c ∈ dataPrefix, C.lower c = c
  up : ∀ c ∈ key, C.isUpper c = true → C.upper (C.lower c) = c ∧ C.lower c ≠ '-' ∧
    ('a'.toNat ≤ (C.lower c).toNat ∧ (C.lower c).toNat ≤ 'z'.toNat)
  other : ∀ c ∈ key, C.isUpper c = false → C.lower c = c ∧ (c ≠ '-' → C.upper c ≠ '-')

/-- The name the HTML standard prescribes: each upper-case letter becomes a hyphen and
its lower-case form, after `data-`. -/
def htmlName (C : Case) (key : Str) : Str :=
  "data-".toList ++ key.flatMap (fun c => if C.isUpper c then ['-', C.lower c] else [c])

/-- No hyphen is followed by a letter a-z. -/
def Admissible (key : Str) : Prop :=
  ∀ a c b, key = a ++ '-' :: c :: b → ¬ ('a'.toNat ≤ c.toNat ∧ c.toNat ≤ 'z'.toNat)

/-- The keys that are found again: they do not start with an upper-case letter, and
after each hyphen there is another one or an upper-case letter. -/
def Regular (C : Case) (key : Str) : Prop :=
  (∀ c t, key = c :: t → C.isUpper c = false) ∧
  ∀ a b, key = a ++ '-' :: b → ∃ c t, b = c :: t ∧ (c = '-' ∨ C.isUpper c = true)

/-! ### Proofs -/

private theorem badSyntax_iff (key : Str) : badSyntax key = false ↔ Admissible key := by
  induction key with
  | nil =>
    refine ⟨fun _ a c b h => ?_, fun _ => rfl⟩
    have := congrArg List.length h
    simp at this
  | cons x s ih =>
    simp only [badSyntax, Bool.or_eq_false_iff, Bool.and_eq_false_iff, ih]
    constructor
    · rintro ⟨h1, h2⟩ a c b h
      cases a with
      | nil =>
        simp only [List.nil_append, List.cons.injEq] at h
        obtain ⟨rfl, rfl⟩ := h
        simp only [decide_true, Bool.true_eq_false, false_or, Bool.and_eq_false_iff,
          decide_eq_false_iff_not] at h1
        omega
      | cons y a =>
        simp only [List.cons_append, List.cons.injEq] at h
        exact h2 a c b h.2
    · intro h
      refine ⟨?_, fun a c b hs => h (x :: a) c b (by rw [hs]; rfl)⟩
      by_cases hx : x = '-'
      · right
        cases s with
        | nil => rfl
        | cons d t =>
          have := h [] d t (by rw [hx]; rfl)
          simp only [Bool.and_eq_false_iff, decide_eq_false_iff_not]
          omega
      · left; simpa using hx

/-- The encoded key. -/
private def enc (C : Case) (key : Str) : Str :=
  key.flatMap (fun c => if C.isUpper c then ['-', C.lower c] else [c])

private theorem enc_cons (C : Case) (c : Char) (s : Str) :
    enc C (c :: s) = (if C.isUpper c then ['-', C.lower c] else [c]) ++ enc C s := rfl

private theorem lower_hyphen (C : Case) (key : Str) (h : Sane C key) : C.lower '-' = '-' :=
  h.dataPre '-' (by decide)

private theorem sane_tail (C : Case) (c : Char) (s : Str) (h : Sane C (c :: s)) : Sane C s :=
  ⟨h.hyphen, h.dataPre, fun x hx => h.up x (by simp [hx]), fun x hx => h.other x (by simp [hx])⟩

private theorem map_hyphenate (C : Case) (key : Str) (h : Sane C key) :
    (hyphenate C key).map C.lower = enc C key := by
  induction key with
  | nil => rfl
  | cons c s ih =>
    have ih := ih (sane_tail C c s h)
    rw [enc_cons]
    by_cases hc : C.isUpper c = true
    · simp [hyphenate, hc, ih, lower_hyphen C _ h]
    · have hc' : C.isUpper c = false := by simpa using hc
      simp [hyphenate, hc', ih, (h.other c (by simp) hc').1]

/-- **C45** (name).  An admissible key is stored under the prescribed name; another key
is refused. -/
theorem convertName_spec (C : Case) (key : Str) (h : Sane C key) :
    (Admissible key → convertName C key = .ok (htmlName C key)) ∧
    (¬ Admissible key → convertName C key = .error .valueError) := by
  constructor
  · intro ha
    unfold convertName
    rw [(badSyntax_iff key).mpr ha]
    simp only [Bool.false_eq_true, if_false, List.map_append, map_hyphenate C key h]
    have : dataPrefix.map C.lower = dataPrefix := by
      conv_rhs => rw [← List.map_id dataPrefix]
      exact List.map_congr_left (fun c hc => h.dataPre c hc)
    rw [this]; rfl
  · intro ha
    have : badSyntax key = true := by
      rw [← Bool.not_eq_false, badSyntax_iff]; exact ha
    simp [convertName, this]

/-- The inverse of the HTML rule. -/
private def dec (C : Case) : Str → Str
  | [] => []
  | [c] => [c]
  | c :: d :: s =>
    if c = '-' ∧ 'a'.toNat ≤ d.toNat ∧ d.toNat ≤ 'z'.toNat then C.upper d :: dec C s
    else c :: dec C (d :: s)

private theorem dec_enc (C : Case) (key : Str) (h : Sane C key) (ha : Admissible key) :
    dec C (enc C key) = key := by
  induction key with
  | nil => rfl
  | cons c s ih =>
    have hs := sane_tail C c s h
    have has : Admissible s := fun a x b e => ha (c :: a) x b (by rw [e]; rfl)
    have ih := ih hs has
    rw [enc_cons]
    by_cases hc : C.isUpper c = true
    · obtain ⟨h1, _, h3⟩ := h.up c (by simp) hc
      simp only [hc, if_true, List.cons_append, List.nil_append, dec, h3, and_self, ih, h1]
    · have hc' : C.isUpper c = false := by simpa using hc
      simp only [hc', Bool.false_eq_true, if_false, List.cons_append, List.nil_append]
      cases he : enc C s with
      | nil =>
        rw [he] at ih
        simp only [dec] at ih ⊢
        rw [← ih]
      | cons d t =>
        rw [he] at ih
        have hn : ¬ (c = '-' ∧ 'a'.toNat ≤ d.toNat ∧ d.toNat ≤ 'z'.toNat) := by
          rintro ⟨rfl, hd⟩
          cases s with
          | nil => simp [enc] at he
          | cons y u =>
            rw [enc_cons] at he
            by_cases hy : C.isUpper y = true
            · simp only [hy, if_true, List.cons_append, List.cons.injEq] at he
              rw [← he.1] at hd
              revert hd; decide
            · have hy' : C.isUpper y = false := by simpa using hy
              simp only [hy', Bool.false_eq_true, if_false, List.cons_append, List.nil_append,
                List.cons.injEq] at he
              exact ha [] y u rfl (he.1 ▸ hd)
        simp only [dec, hn, if_false, ih]

/-- **C45** (no sharing).  Different admissible keys whose upper-case letters are A-Z
have different attributes. -/
theorem convertName_injective_partial (C : Case) (k k' : Str) (h : Sane C k) (h' : Sane C k')
    (n : Str) (hn : convertName C k = .ok n) (hn' : convertName C k' = .ok n) : k = k' := by
  have ha : Admissible k := by
    by_contra hb; rw [(convertName_spec C k h).2 hb] at hn; cases hn
  have ha' : Admissible k' := by
    by_contra hb; rw [(convertName_spec C k' h').2 hb] at hn'; cases hn'
  rw [(convertName_spec C k h).1 ha] at hn
  rw [(convertName_spec C k' h').1 ha'] at hn'
  have e : htmlName C k = htmlName C k' := by
    rw [← hn'] at hn
    exact Except.ok.inj hn
  unfold htmlName at e
  have e' : enc C k = enc C k' := List.append_cancel_left e
  rw [← dec_enc C k h ha, ← dec_enc C k' h' ha', e']

/-- The loop of `_convert_key` one character at a time: `first` while in the piece at
position 0, `fresh` at the beginning of a piece. -/
private def chars (C : Case) : Bool → Bool → Str → Str
  | _, _, [] => []
  | first, fresh, c :: s =>
    if c = '-' then (if fresh then ['-'] else []) ++ chars C false true s
    else (if first then c else if fresh then C.upper c else C.lower c) :: chars C first false s

private theorem chars_in (C : Case) (first : Bool) (p : Str) (hp : '-' ∉ p) (s : Str) :
    chars C first false (p ++ s) = (if first then p else p.map C.lower) ++ chars C first false s := by
  induction p with
  | nil => cases first <;> rfl
  | cons c p ih =>
    simp only [List.mem_cons, not_or] at hp
    have hc : ¬ c = '-' := fun e => hp.1 e.symm
    simp only [List.cons_append, chars, hc, if_false, Bool.false_eq_true, ih hp.2]
    cases first <;> simp

private theorem chars_piece (C : Case) (first : Bool) (p : Str) (hne : p ≠ []) (hp : '-' ∉ p) (s : Str) :
    chars C first true (p ++ s) = (if first then p else capitalize C p) ++ chars C first false s := by
  cases p with
  | nil => exact absurd rfl hne
  | cons c p =>
    simp only [List.mem_cons, not_or] at hp
    have hc : ¬ c = '-' := fun e => hp.1 e.symm
    simp only [List.cons_append, chars, hc, if_false, if_true, chars_in C first p hp.2, capitalize]
    cases first <;> simp

private theorem convertPieces_eq (C : Case) (s : Str) : ∀ first,
    convertPieces C first (splitOn '-' s) = chars C first true s := by
  have key : ∀ (n : Nat) (s : Str), s.length ≤ n → ∀ first,
      convertPieces C first (splitOn '-' s) = chars C first true s := by
    intro n
    induction n with
    | zero =>
      intro s hs first
      have : s = [] := List.eq_nil_of_length_eq_zero (by omega)
      subst this
      simp [splitOn, convertPieces, chars]
    | succ n ih =>
      intro s hs first
      cases hc : cut '-' s with
      | none =>
        have hn := (cut_none_iff '-' s).mp hc
        rw [splitOn_notMem '-' s hn]
        by_cases he : s = []
        · subst he; simp [convertPieces, chars]
        · have := chars_piece C first s he hn []
          simp only [List.append_nil] at this
          rw [this]
          simp [convertPieces, he, chars]
      | some ab =>
        obtain ⟨a, b⟩ := ab
        obtain ⟨rfl, ha⟩ := (cut_some_iff '-' s a b).mp hc
        rw [splitOn_append '-' a b ha]
        obtain ⟨x, xs, hx⟩ := List.exists_cons_of_ne_nil (splitOn_ne_nil '-' b)
        have ih := ih b (by simp at hs; omega) false
        rw [hx] at ih ⊢
        simp only [convertPieces, ih]
        by_cases he : a = []
        · subst he; simp [chars]
        · rw [chars_piece C first a he ha]
          simp [chars, he]
  exact key s.length s (Nat.le_refl _)

private def Pend (C : Case) (b : Str) : Prop := ∃ c t, b = c :: t ∧ (c = '-' ∨ C.isUpper c = true)

private def Reg (C : Case) (s : Str) : Prop := ∀ a b, s = a ++ '-' :: b → Pend C b

private theorem reg_nil (C : Case) : Reg C [] := by
  intro a b h
  have := congrArg List.length h
  simp at this

private theorem reg_cons (C : Case) (c : Char) (s : Str) :
    Reg C (c :: s) ↔ (c = '-' → Pend C s) ∧ Reg C s := by
  constructor
  · intro h
    refine ⟨fun e => h [] s (by rw [e]; rfl), fun a b e => h (c :: a) b (by rw [e]; rfl)⟩
  · rintro ⟨h1, h2⟩ a b e
    cases a with
    | nil =>
      simp only [List.nil_append, List.cons.injEq] at e
      rw [← e.2]; exact h1 e.1
    | cons x a =>
      simp only [List.cons_append, List.cons.injEq] at e
      exact h2 a b e.2

private theorem chars_enc (C : Case) (r : Str) (h : Sane C r) :
    (∀ first, chars C first false (enc C r) = r ↔ Reg C r) ∧
    (chars C false true (enc C r) = '-' :: r ↔ Pend C r ∧ Reg C r) := by
  induction r with
  | nil =>
    refine ⟨fun first => by simp [enc, chars, reg_nil], ?_⟩
    simp [enc, chars, Pend]
  | cons c s ih =>
    obtain ⟨i1, i2⟩ := ih (sane_tail C c s h)
    by_cases hc : C.isUpper c = true
    · obtain ⟨h1, h2, _⟩ := h.up c (by simp) hc
      have hne : ¬ c = '-' := by rintro rfl; rw [h.hyphen] at hc; exact absurd hc (by decide)
      have hp : Pend C (c :: s) := ⟨c, s, rfl, .inr hc⟩
      rw [enc_cons]
      simp only [hc, if_true, List.cons_append, List.nil_append]
      refine ⟨fun first => ?_, ?_⟩
      · simp only [chars, h2, if_true, if_false, Bool.false_eq_true, List.nil_append, List.cons.injEq, h1,
          true_and, i1, reg_cons, hne, false_implies]
      · simp only [chars, h2, if_true, if_false, Bool.false_eq_true, List.cons_append, List.nil_append,
          List.cons.injEq, h1, true_and, i1, reg_cons, hne, false_implies, hp]
    · have hc' : C.isUpper c = false := by simpa using hc
      obtain ⟨h1, h2⟩ := h.other c (by simp) hc'
      rw [enc_cons]
      simp only [hc', Bool.false_eq_true, if_false, List.cons_append, List.nil_append]
      by_cases hh : c = '-'
      · subst hh
        have hp : Pend C ('-' :: s) := ⟨'-', s, rfl, .inl rfl⟩
        refine ⟨fun first => ?_, ?_⟩
        · simp only [chars, if_true, Bool.false_eq_true, if_false, List.nil_append, i2, reg_cons, true_implies]
        · simp only [chars, if_true, List.cons_append, List.nil_append, List.cons.injEq, true_and, i2,
            reg_cons, true_implies, hp]
      · have hp : ¬ Pend C (c :: s) := by
          rintro ⟨x, t, e, hx⟩
          simp only [List.cons.injEq] at e
          obtain ⟨rfl, rfl⟩ := e
          rcases hx with hx | hx
          · exact hh hx
          · exact hc hx
        refine ⟨fun first => ?_, ?_⟩
        · simp only [chars, hh, if_false, Bool.false_eq_true, h1, ite_self, List.cons.injEq, true_and, i1,
            reg_cons, false_implies]
        · simp only [chars, hh, if_false, Bool.false_eq_true, if_true, List.cons.injEq, h2 hh, false_and,
            hp]

/-- **C45** (round trip, exactly).  A key that does not start with a hyphen is found
again from its attribute name exactly when it is regular. -/
theorem convertKey_convertName_iff_partial (C : Case) (key : Str) (h : Sane C key)
    (hh : ∀ t, key ≠ '-' :: t) : convertKey C (htmlName C key) = key ↔ Regular C key := by
  have hd : (htmlName C key).drop dataPrefix.length = enc C key := by
    unfold htmlName
    exact List.drop_left
  rw [convertKey, hd, convertPieces_eq]
  have hreg : Regular C key ↔ (∀ c t, key = c :: t → C.isUpper c = false) ∧ Reg C key := Iff.rfl
  rw [hreg]
  cases key with
  | nil => simp [enc, chars, reg_nil]
  | cons c s =>
    obtain ⟨i1, i2⟩ := chars_enc C s (sane_tail C c s h)
    have hne : ¬ c = '-' := fun e => hh s (by rw [e])
    rw [enc_cons]
    by_cases hc : C.isUpper c = true
    · simp only [hc, if_true, List.cons_append, List.nil_append, chars, List.cons.injEq]
      constructor
      · rintro ⟨e, _⟩; exact absurd e.symm hne
      · rintro ⟨h1, _⟩
        have := h1 c s ⟨rfl, rfl⟩
        rw [hc] at this; exact absurd this (by decide)
    · have hc' : C.isUpper c = false := by simpa using hc
      simp only [hc', Bool.false_eq_true, if_false, List.cons_append, List.nil_append, chars, hne, if_true,
        List.cons.injEq, true_and, i1, reg_cons, false_implies]
      constructor
      · rintro h
        refine ⟨?_, h⟩
        rintro x t ⟨rfl, rfl⟩
        exact hc'
      · exact fun h => h.2

/-- **C45** (set, then get).  Setting an admissible key to a non-empty value, when the
name is a valid attribute name, gives that value for the key and leaves the other keys
and all attributes outside the dataset alone. -/
theorem get_set_partial (C : Case) (xmlName : Str → Bool) (d : Attrs) (k v : Str) (h : Sane C k)
    (ha : Admissible k) (hv : v ≠ []) (hx : xmlName (htmlName C k) = true) :
    ∃ d', set C xmlName d k v = .ok d' ∧ get C d' k = .ok v ∧
      (∀ k', Sane C k' → k' ≠ k → get C d' k' = get C d k') ∧
      (∀ n, n ≠ htmlName C k → Dict.get? d' n = Dict.get? d n) := by
  have hn := (convertName_spec C k h).1 ha
  refine ⟨Dict.set d (htmlName C k) v, ?_, ?_, ?_, ?_⟩
  · simp only [set, hv, if_false, hn, hx, if_true]
  · simp only [get, hn, Dict.get?_set, if_true]
  · intro k' h' hne
    cases hn' : convertName C k' with
    | error e => simp only [get, hn']
    | ok n' =>
      have : ¬ htmlName C k = n' := by
        rintro rfl
        exact hne (convertName_injective_partial C k' k h' h _ hn' hn)
      simp only [get, hn', Dict.get?_set, this, if_false]
  · intro n hne
    rw [Dict.get?_set, if_neg (fun e => hne e.symm)]

/-- **C45** (listing).  After setting a regular key it is listed among the keys. -/
theorem keys_set_partial (C : Case) (xmlName : Str → Bool) (d d' : Attrs) (k v : Str) (h : Sane C k)
    (hl : ∀ c ∈ htmlName C k, C.isUpper c = false) (hv : v ≠ []) (hh : ∀ t, k ≠ '-' :: t)
    (hr : Regular C k) (hs : set C xmlName d k v = .ok d') : k ∈ keys C d' := by
  have ha : Admissible k := by
    by_contra hb
    simp only [set, hv, if_false, (convertName_spec C k h).2 hb] at hs
    cases hs
  have hn := (convertName_spec C k h).1 ha
  simp only [set, hv, if_false, hn] at hs
  split at hs
  · cases hs
    unfold keys
    rw [List.mem_map]
    refine ⟨htmlName C k, ?_, (convertKey_convertName_iff_partial C k h hh).mpr hr⟩
    rw [List.mem_filter]
    refine ⟨?_, ?_⟩
    · rw [← Dict.contains_iff, Dict.contains, Dict.get?_set]; simp
    · simp only [Bool.and_eq_true, List.all_eq_true, Bool.not_eq_true']
      refine ⟨?_, hl⟩
      rw [List.isPrefixOf_iff_prefix]
      exact ⟨_, rfl⟩
  · cases hs

/-- **C45** (nothing else is listed).  Apart from the key itself, setting a regular key
lists exactly the keys listed before. -/
theorem keys_set_only_partial (C : Case) (xmlName : Str → Bool) (d d' : Attrs) (k v : Str) (h : Sane C k)
    (hv : v ≠ []) (hh : ∀ t, k ≠ '-' :: t) (hr : Regular C k) (hs : set C xmlName d k v = .ok d')
    (k' : Str) (hne : k' ≠ k) : k' ∈ keys C d' ↔ k' ∈ keys C d := by
  have ha : Admissible k := by
    by_contra hb
    simp only [set, hv, if_false, (convertName_spec C k h).2 hb] at hs
    cases hs
  have hn := (convertName_spec C k h).1 ha
  simp only [set, hv, if_false, hn] at hs
  split at hs
  · cases hs
    have hk : ∀ n, n ∈ Dict.keys (Dict.set d (htmlName C k) v) ↔ n = htmlName C k ∨ n ∈ Dict.keys d := by
      intro n
      rw [← Dict.contains_iff, ← Dict.contains_iff, Dict.contains, Dict.contains, Dict.get?_set]
      by_cases e : htmlName C k = n
      · simp [e]
      · have e' : ¬ n = htmlName C k := fun x => e x.symm
        simp [e, e']
    unfold keys
    simp only [List.mem_map, List.mem_filter, hk]
    constructor
    · rintro ⟨n, ⟨rfl | hm, hp⟩, e⟩
      · exact absurd (((convertKey_convertName_iff_partial C k h hh).mpr hr).symm.trans e).symm hne
      · exact ⟨n, ⟨hm, hp⟩, e⟩
    · rintro ⟨n, ⟨hm, hp⟩, e⟩
      exact ⟨n, ⟨.inr hm, hp⟩, e⟩
  · cases hs

/-- **C45** (reading).  An admissible key reads the attribute with the prescribed name,
and raises `KeyError` when the element does not have it; other keys are refused. -/
theorem get_spec (C : Case) (d : Attrs) (k : Str) (h : Sane C k) :
    (¬ Admissible k → get C d k = .error .valueError) ∧
    (Admissible k → ∀ v, get C d k = .ok v ↔ Dict.get? d (htmlName C k) = some v) ∧
    (Admissible k → (get C d k = .error .keyError ↔ htmlName C k ∉ Dict.keys d)) := by
  refine ⟨fun ha => ?_, fun ha v => ?_, fun ha => ?_⟩
  · simp only [get, (convertName_spec C k h).2 ha]
  · simp only [get, (convertName_spec C k h).1 ha]
    cases Dict.get? d (htmlName C k) <;> simp
  · simp only [get, (convertName_spec C k h).1 ha, ← Dict.get?_eq_none_iff]
    cases Dict.get? d (htmlName C k) <;> simp

/-- **C45** (removing).  Deleting a key that is present, or setting it to the empty
string, removes it and nothing else. -/
theorem del_spec (C : Case) (xmlName : Str → Bool) (d : Attrs) (k : Str) (h : Sane C k) (ha : Admissible k)
    (hd : (Dict.keys d).Nodup) (hp : htmlName C k ∈ Dict.keys d) :
    ∃ d', del C d k = .ok d' ∧ set C xmlName d k [] = .ok d' ∧ get C d' k = .error .keyError ∧
      ∀ n, n ≠ htmlName C k → Dict.get? d' n = Dict.get? d n := by
  have hn := (convertName_spec C k h).1 ha
  have hc : Dict.contains d (htmlName C k) = true := (Dict.contains_iff _ _).mpr hp
  have e : del C d k = .ok (Dict.del d (htmlName C k)) := by simp only [del, hn, hc, if_true]
  refine ⟨_, e, by simp only [set, if_true, e], ?_, ?_⟩
  · simp only [get, hn, Dict.get?_del _ _ _ hd, if_true]
  · intro n hne
    rw [Dict.get?_del _ _ _ hd, if_neg (fun e => hne e.symm)]

/-! ### Findings -/

/-- ASCII case mapping. -/
def ascii : Case := ⟨Char.isUpper, Char.toLower, Char.toUpper⟩

/-- **C45** violated: a key that starts with a capital comes back with a hyphen, and a
hyphen before a digit or at the end is lost. -/
theorem roundtrip_violated :
    convertKey ascii (htmlName ascii "Foo".toList) = "-Foo".toList ∧
    convertKey ascii (htmlName ascii "a-1".toList) = "a1".toList ∧
    convertKey ascii (htmlName ascii "a-".toList) = "a".toList := by
  decide

/-- ASCII case mapping extended by one letter of Latin-1. -/
def latin : Case :=
  ⟨fun c => c.isUpper || c = 'É', fun c => if c = 'É' then 'é' else c.toLower,
   fun c => if c = 'é' then 'É' else c.toUpper⟩

/-- **C45** violated: two admissible keys share an attribute when a capital is not one
of A-Z (`str.isupper` is not limited to ASCII, the refused syntax is). -/
theorem shared_name_violated :
    "É".toList ≠ "-é".toList ∧ convertName latin "É".toList = convertName latin "-é".toList ∧
    convertName latin "É".toList = .ok "data--é".toList := by
  decide

/-- **C45** violated: setting an absent key to the empty string raises `KeyError`. -/
theorem set_empty_violated : set ascii (fun _ => true) [] "foo".toList [] = .error .keyError := by
  decide

/-- Non-trivial instances. -/
example : convertName ascii "fooBar--X".toList = .ok "data-foo-bar---x".toList := by decide

example : keys ascii [("id".toList, "1".toList), ("data-foo-bar".toList, "x".toList)] = ["fooBar".toList] := by
  decide

example : Sane ascii "fooBar-X1".toList := by
  refine ⟨by decide, by decide, by decide, by decide⟩

end SvgPy.Dataset
