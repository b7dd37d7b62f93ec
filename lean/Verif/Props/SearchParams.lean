import Verif.Model.SearchParams
import Verif.Model.Url
import Verif.Lemmas.PyStr
import Verif.Lemmas.PyDict
import Batteries.Tactic.Init

/-! Property C91: the text of search parameters. -/

set_option linter.unusedSimpArgs false

namespace SvgPy.SearchParams

open SvgPy.PyStr

/-! ### Specification: reading `application/x-www-form-urlencoded` (URL Standard) -/

/-- The value of a hexadecimal digit. -/
def hexVal (c : Char) : Option Nat :=
  if '0' ≤ c ∧ c ≤ '9' then some (c.toNat - 48)
  else if 'A' ≤ c ∧ c ≤ 'F' then some (c.toNat - 55)
  else if 'a' ≤ c ∧ c ≤ 'f' then some (c.toNat - 87)
  else none

/-- Percent decoding: `%` with two hexadecimal digits is a byte, everything else stands for itself. -/
def percentDecode : Str → List UInt8
  | [] => []
  | c :: s =>
    if c = '%' then
      match s with
      | a :: b :: s' =>
        match hexVal a, hexVal b with
        | some x, some y => UInt8.ofNat (16 * x + y) :: percentDecode s'
        | _, _ => 37 :: percentDecode (a :: b :: s')
      | [a] => 37 :: percentDecode [a]
      | [] => [37]
    else String.utf8EncodeChar c ++ percentDecode s

/-- A name or a value: `+` is a space, then percent decoding, then UTF-8 (`none` if malformed). -/
def formValue (s : Str) : Option Str :=
  (percentDecode (s.map fun c => if c = '+' then ' ' else c)).toByteArray.utf8Decode?.map (·.toList)

/-- One pair: name and value are separated by the first `=`. -/
def formPair (s : Str) : Option (Str × Str) :=
  match formValue (s.takeWhile (· != '=')), formValue ((s.dropWhile (· != '=')).drop 1) with
  | some k, some v => some (k, v)
  | _, _ => none

/-- All pairs, separated by `&`. -/
def formPairs : List Str → Option (List (Str × Str))
  | [] => some []
  | s :: l =>
    if s = [] then formPairs l
    else match formPair s, formPairs l with
      | some p, some ps => some (p :: ps)
      | _, _ => none

def formDecode (s : Str) : Option (List (Str × Str)) := formPairs (splitOn '&' s)

/-- Ascending order of names by code points. -/
def Before (a b : Str) : Prop := List.Lex (fun x y : Char => x.toNat < y.toNat) a b

/-- What can be done to search parameters. -/
inductive Reachable : Params → Prop
  | init (ps) : Reachable (init ps)
  | set {d} (k v) : Reachable d → Reachable (set d k v)
  | del {d d'} (k) : Reachable d → del d k = some d' → Reachable d'

/-! ### Percent encoding -/

theorem hexVal_hexDigit (n : Nat) (h : n < 16) : hexVal (hexDigit n) = some n := by
  have : ∀ n : Fin 16, hexVal (hexDigit n) = some n.1 := by decide
  exact this ⟨n, h⟩

theorem hexDigit_plain (n : Nat) (h : n < 16) : hexDigit n ≠ ' ' ∧ hexDigit n ≠ '+' ∧ hexDigit n ≠ '=' ∧ hexDigit n ≠ '&' ∧ hexDigit n ≠ '%' := by
  have : ∀ n : Fin 16, hexDigit n ≠ ' ' ∧ hexDigit n ≠ '+' ∧ hexDigit n ≠ '=' ∧ hexDigit n ≠ '&' ∧ hexDigit n ≠ '%' := by decide
  exact this ⟨n, h⟩

/-- The safe characters are no separators. -/
theorem safe_plain (tilde : Bool) (c : Char) (h : formSafe tilde c = true) : c ≠ ' ' ∧ c ≠ '+' ∧ c ≠ '=' ∧ c ≠ '&' ∧ c ≠ '%' := by
  refine ⟨?_, ?_, ?_, ?_, ?_⟩ <;> rintro rfl <;> revert h <;> cases tilde <;> decide

/-- The plus sign of a space, otherwise the character itself. -/
def plus (s : Str) : Str := s.map fun c => if c = ' ' then '+' else c

def unplus (s : Str) : Str := s.map fun c => if c = '+' then ' ' else c

/-- The byte as it stands in the text: with or without the space among the safe characters. -/
theorem encode_small (b : UInt8) (h : b.toNat < 128) : String.utf8EncodeChar (Char.ofNat b.toNat) = [b] := by
  have hv : (Char.ofNat b.toNat).val.toNat = b.toNat := by
    have : Nat.isValidChar b.toNat := .inl (by omega)
    rw [Char.ofNat, dif_pos this]
    rfl
  simp only [String.utf8EncodeChar, hv]
  rw [if_pos (by omega)]
  simp

theorem percentDecode_byte (safe : Char → Bool) (hs : ∀ c, safe c = true → c ≠ '%') (b : UInt8) (t : Str) :
    percentDecode (quoteByte safe b ++ t) = b :: percentDecode t := by
  rw [quoteByte]
  split
  · rename_i h
    simp only [Bool.and_eq_true, decide_eq_true_eq] at h
    rw [List.singleton_append, percentDecode.eq_def]
    simp only [hs _ h.2, if_false, encode_small b h.1, List.singleton_append]
  · have hb := b.toNat_lt
    rw [List.cons_append, percentDecode.eq_def]
    simp only [if_true, List.cons_append, List.nil_append, hexVal_hexDigit (b.toNat / 16) (by omega), hexVal_hexDigit (b.toNat % 16) (by omega)]
    rw [show 16 * (b.toNat / 16) + b.toNat % 16 = b.toNat by omega]
    simp

theorem percentDecode_quote (safe : Char → Bool) (hs : ∀ c, safe c = true → c ≠ '%') (s : Str) :
    percentDecode (quote safe s) = s.flatMap String.utf8EncodeChar := by
  rw [quote]
  generalize s.flatMap String.utf8EncodeChar = l
  induction l with
  | nil => rfl
  | cons b l ih => rw [List.flatMap_cons, percentDecode_byte safe hs, ih]

theorem quote_mem (safe : Char → Bool) (s : Str) (c : Char) (h : c ∈ quote safe s) : safe c = true ∨ c = '%' ∨ ∃ n < 16, c = hexDigit n := by
  rw [quote, List.mem_flatMap] at h
  obtain ⟨b, -, hb⟩ := h
  have := b.toNat_lt
  rw [quoteByte] at hb
  split at hb
  · rename_i k
    simp only [Bool.and_eq_true] at k
    rw [List.mem_singleton.1 hb]
    exact .inl k.2
  · rcases List.mem_cons.1 hb with rfl | hb
    · exact .inr (.inl rfl)
    · rcases List.mem_cons.1 hb with rfl | hb
      · exact .inr (.inr ⟨_, by omega, rfl⟩)
      · rw [List.mem_singleton.1 hb]
        exact .inr (.inr ⟨_, by omega, rfl⟩)

theorem unplus_id (t : Str) (h : '+' ∉ t) : unplus t = t := by
  induction t with
  | nil => rfl
  | cons c t ih =>
    have : unplus (c :: t) = (if c = '+' then ' ' else c) :: unplus t := rfl
    rw [this, ih (fun k => h (by simp [k])), if_neg (fun k => h (by simp [k]))]

theorem unplus_plus (t : Str) (h : '+' ∉ t) : unplus (plus t) = t := by
  induction t with
  | nil => rfl
  | cons c t ih =>
    have : unplus (plus (c :: t)) = (if (if c = ' ' then '+' else c) = '+' then ' ' else (if c = ' ' then '+' else c)) :: unplus (plus t) := rfl
    rw [this, ih (fun k => h (by simp [k]))]
    have hc : c ≠ '+' := fun k => h (by simp [k])
    by_cases k : c = ' '
    · simp [k]
    · simp [k, hc]

/-- The separators and the characters with a meaning of their own do not appear in names and values. -/
theorem quotePlus_plain (tilde : Bool) (s : Str) : '=' ∉ quotePlus (formSafe tilde) s ∧ '&' ∉ quotePlus (formSafe tilde) s := by
  have key : ∀ (safe : Char → Bool) (c : Char), (c = '=' ∨ c = '&') → safe c = false → c ∉ quote safe s := by
    intro safe c hc hs hm
    rcases quote_mem safe s c hm with h | h | ⟨n, hn, h⟩
    · rw [hs] at h; cases h
    · subst h; rcases hc with h | h <;> cases h
    · have := hexDigit_plain n hn
      rcases hc with k | k
      · exact this.2.2.1 (h ▸ k)
      · exact this.2.2.2.1 (h ▸ k)
  have hs : ∀ c, (c = '=' ∨ c = '&') → formSafe tilde c = false := by
    rintro c (rfl | rfl) <;> cases tilde <;> rfl
  have hs' : ∀ c, (c = '=' ∨ c = '&') → (formSafe tilde c || c == ' ') = false := by
    rintro c (rfl | rfl) <;> cases tilde <;> rfl
  have hp : ∀ (c : Char) (t : Str), (c = '=' ∨ c = '&') → c ∉ t → c ∉ plus t := by
    intro c t hc hn hm
    obtain ⟨d, hd, e⟩ := List.mem_map.1 hm
    split at e
    · subst e; rcases hc with h | h <;> cases h
    · exact hn (e ▸ hd)
  rw [quotePlus]
  split
  · exact ⟨hp _ _ (.inl rfl) (key _ _ (.inl rfl) (hs' _ (.inl rfl))), hp _ _ (.inr rfl) (key _ _ (.inr rfl) (hs' _ (.inr rfl)))⟩
  · exact ⟨key _ _ (.inl rfl) (hs _ (.inl rfl)), key _ _ (.inr rfl) (hs _ (.inr rfl))⟩

theorem formValue_quotePlus (tilde : Bool) (s : Str) : formValue (quotePlus (formSafe tilde) s) = some s := by
  have noPlus : ∀ safe : Char → Bool, safe '+' = false → '+' ∉ quote safe s := by
    intro safe hs hm
    rcases quote_mem safe s _ hm with h | h | ⟨n, hn, h⟩
    · rw [hs] at h; cases h
    · cases h
    · exact (hexDigit_plain n hn).2.1 h.symm
  have key : percentDecode (unplus (quotePlus (formSafe tilde) s)) = s.flatMap String.utf8EncodeChar := by
    rw [quotePlus]
    split
    · have : ((quote (fun c => formSafe tilde c || c == ' ') s).map fun c => if c = ' ' then '+' else c) =
          plus (quote (fun c => formSafe tilde c || c == ' ') s) := rfl
      rw [this, unplus_plus _ (noPlus _ (by cases tilde <;> rfl)), percentDecode_quote]
      intro c hc
      rintro rfl
      revert hc
      cases tilde <;> decide
    · rw [unplus_id _ (noPlus _ (by cases tilde <;> rfl)), percentDecode_quote]
      exact fun c hc => (safe_plain tilde c hc).2.2.2.2
  have e : formValue (quotePlus (formSafe tilde) s) = (percentDecode (unplus (quotePlus (formSafe tilde) s))).toByteArray.utf8Decode?.map (·.toList) := rfl
  rw [e, key]
  have := @List.utf8Decode?_utf8Encode s
  rw [List.utf8Encode] at this
  rw [this]
  rfl

theorem formPair_urlencode (tilde : Bool) (k v : Str) : formPair (urlencode tilde k v) = some (k, v) := by
  have h := (quotePlus_plain tilde k).1
  have e1 : ∀ (a b : Str), '=' ∉ a → (a ++ '=' :: b).takeWhile (· != '=') = a ∧ (a ++ '=' :: b).dropWhile (· != '=') = '=' :: b := by
    intro a b ha
    induction a with
    | nil => simp
    | cons c a ih =>
      have hc : c ≠ '=' := fun k => ha (by simp [k])
      obtain ⟨i1, i2⟩ := ih (fun k => ha (by simp [k]))
      simp only [List.cons_append, List.takeWhile, List.dropWhile, bne_iff_ne, ne_eq, hc, not_false_eq_true, i1, i2, show (c != '=') = true by simpa using hc,
        and_self]
  obtain ⟨h1, h2⟩ := e1 _ (quotePlus (formSafe tilde) v) h
  rw [formPair, urlencode, h1, h2, List.drop_one, List.tail_cons, formValue_quotePlus, formValue_quotePlus]

theorem le_before (a b : Str) (h : le a b = true) (hne : a ≠ b) : Before a b := by
  induction a generalizing b with
  | nil =>
    cases b with
    | nil => exact absurd rfl hne
    | cons y b => exact List.Lex.nil
  | cons x a ih =>
    cases b with
    | nil => cases h
    | cons y b =>
      rw [le] at h
      split at h
      · rename_i k; exact List.Lex.rel k
      · split at h
        · rename_i k
          subst k
          exact List.Lex.cons (ih b h (fun e => hne (by rw [e])))
        · cases h

/-! ### C91 -/

/-- No name appears twice. -/
theorem reachable_nodup {d : Params} (h : Reachable d) : (Dict.keys d).Nodup := by
  induction h with
  | init ps => exact Dict.nodup_update _ _ (by simp [Dict.keys])
  | set k v _ ih => exact Dict.nodup_set _ _ _ ih
  | del k _ hd ih =>
    rw [del] at hd
    split at hd
    · cases hd; exact Dict.nodup_del _ _ ih
    · cases hd

/-- **C91** The text of search parameters, read by the rules for forms, gives all the names with
their values in the order of the names, whatever characters they contain. -/
theorem round_trip (tilde : Bool) (d : Params) (h : Reachable d) :
    ∃ ps, formDecode (tostring tilde d) = some ps ∧ ps.Perm d ∧ ps.Pairwise (fun a b => Before a.1 b.1) := by
  have hn := reachable_nodup h
  refine ⟨(sorted (Dict.keys d)).map fun k => (k, (get d k).getD []), ?_, ?_, ?_⟩
  · rw [tostring]
    split
    · rename_i h0
      rw [List.length_eq_zero_iff.1 h0]
      rfl
    · rename_i h0
      have hne : sorted (Dict.keys d) ≠ [] := by
        intro e
        have := (sorted_perm (Dict.keys d)).length_eq
        rw [e] at this
        simp only [Dict.keys, List.length_nil, List.length_map] at this
        exact h0 this.symm
      rw [formDecode, splitOn_join]
      · generalize sorted (Dict.keys d) = l
        induction l with
        | nil => rfl
        | cons k l ih =>
          rw [List.map_cons, formPairs, if_neg (by simp [urlencode]), formPair_urlencode, ih]
          rfl
      · simpa using hne
      · intro p hp
        obtain ⟨k, -, rfl⟩ := List.mem_map.1 hp
        rw [urlencode]
        simp only [List.mem_append, List.mem_cons, not_or]
        exact ⟨(quotePlus_plain tilde _).2, by decide, (quotePlus_plain tilde _).2⟩
  · have : d = (Dict.keys d).map fun k => (k, (get d k).getD []) := by
      conv => lhs; rw [← List.map_id d]
      rw [Dict.keys, List.map_map]
      apply List.map_congr_left
      intro p hp
      have := (Dict.mem_iff_get? d hn p.1 p.2).1 hp
      simp only [id_eq, Function.comp, get, this, Option.getD_some]
    conv => rhs; rw [this]
    exact (sorted_perm _).map _
  · rw [List.pairwise_map]
    have h1 := sorted_pairwise (Dict.keys d)
    have h2 : (sorted (Dict.keys d)).Pairwise (· ≠ ·) := (sorted_perm _).nodup_iff.2 hn
    exact (h1.and h2).imp (fun h => le_before _ _ h.1 h.2)

/-- **C91** A name has the value set last; other names keep theirs. -/
theorem get_set (d : Params) (k k' v : Str) : get (set d k v) k' = if k = k' then some v else get d k' := by
  rw [get, set, Dict.get?_set]
  rfl

/-- **C91** A deleted name is gone; other names keep their values; names that are not there cannot be deleted. -/
theorem get_del (d d' : Params) (h : Reachable d) (k k' : Str) : (del d k = none ↔ get d k = none) ∧
    (del d k = some d' → get d' k' = if k = k' then none else get d k') := by
  have hn := reachable_nodup h
  rw [del]
  constructor
  · split
    · rename_i hc
      simp only [reduceCtorEq, false_iff, get]
      intro e
      rw [Dict.contains, e] at hc
      cases hc
    · rename_i hc
      simp only [get, true_iff]
      cases e : Dict.get? d k with
      | none => rfl
      | some v => exact absurd (by rw [Dict.contains, e]; rfl) hc
  · split
    · intro e
      cases e
      rw [get, Dict.get?_del d k k' hn]
      rfl
    · intro e
      cases e

/-- Two texts of search parameters are equal only for equal parameters. -/
theorem text_injective (tilde : Bool) (d e : Params) (hd : Reachable d) (he : Reachable e) (h : tostring tilde d = tostring tilde e) : d.Perm e := by
  obtain ⟨ps, h1, h2, -⟩ := round_trip tilde d hd
  obtain ⟨qs, k1, k2, -⟩ := round_trip tilde e he
  rw [h, k1] at h1
  cases h1
  exact h2.symm.trans k2

/-! ### C92: the query of a URL -/

theorem utf8_small (c : Char) (b : UInt8) (h : b ∈ String.utf8EncodeChar c) (hb : b.toNat < 128) : Char.ofNat b.toNat = c := by
  simp only [String.utf8EncodeChar] at h
  split at h
  · rename_i hv
    have := List.mem_singleton.1 h
    subst this
    rw [UInt8.toNat_ofNat', Nat.mod_eq_of_lt (by omega)]
    exact Char.ofNat_toNat c
  · split at h
    · simp only [List.mem_cons, List.not_mem_nil, or_false] at h
      rcases h with rfl | rfl <;> rw [UInt8.toNat_ofNat'] at hb <;> omega
    · split at h
      · simp only [List.mem_cons, List.not_mem_nil, or_false] at h
        rcases h with rfl | rfl | rfl <;> rw [UInt8.toNat_ofNat'] at hb <;> omega
      · simp only [List.mem_cons, List.not_mem_nil, or_false] at h
        rcases h with rfl | rfl | rfl | rfl <;> rw [UInt8.toNat_ofNat'] at hb <;> omega

theorem quote_mem' (safe : Char → Bool) (s : Str) (c : Char) (h : c ∈ quote safe s) :
    (safe c = true ∧ c ∈ s) ∨ c = '%' ∨ ∃ n < 16, c = hexDigit n := by
  rw [quote, List.mem_flatMap] at h
  obtain ⟨b, hm, hb⟩ := h
  have := b.toNat_lt
  rw [quoteByte] at hb
  split at hb
  · rename_i k
    simp only [Bool.and_eq_true, decide_eq_true_eq] at k
    rw [List.mem_singleton.1 hb]
    obtain ⟨d, hd, hd'⟩ := List.mem_flatMap.1 hm
    exact .inl ⟨k.2, by rw [utf8_small d b hd' k.1]; exact hd⟩
  · rcases List.mem_cons.1 hb with rfl | hb
    · exact .inr (.inl rfl)
    · rcases List.mem_cons.1 hb with rfl | hb
      · exact .inr (.inr ⟨_, by omega, rfl⟩)
      · rw [List.mem_singleton.1 hb]
        exact .inr (.inr ⟨_, by omega, rfl⟩)

theorem quotePlus_mem (safe : Char → Bool) (s : Str) (c : Char) (hc : c = '=' ∨ c = '&') (h : c ∈ quotePlus safe s) : safe c = true ∧ c ∈ s := by
  have key : ∀ safe : Char → Bool, c ∈ quote safe s → safe c = true ∧ c ∈ s := by
    intro safe h
    rcases quote_mem' safe s c h with h | h | ⟨n, hn, h⟩
    · exact h
    · subst h; rcases hc with h | h <;> cases h
    · have := hexDigit_plain n hn
      rcases hc with k | k
      · exact absurd (h ▸ k) this.2.2.1
      · exact absurd (h ▸ k) this.2.2.2.1
  rw [quotePlus] at h
  split at h
  · obtain ⟨d, hd, e⟩ := List.mem_map.1 h
    split at e
    · subst e; rcases hc with h | h <;> cases h
    · rw [e] at hd
      obtain ⟨k1, k2⟩ := key _ hd
      refine ⟨?_, k2⟩
      rcases hc with rfl | rfl
      · simpa using k1
      · simpa using k1
  · exact key _ h

/-- The text stands for these bytes, whatever comes after it. -/
def Means (t : Str) (bs : List UInt8) : Prop := ∀ r, percentDecode (unplus t ++ r) = bs ++ percentDecode r

theorem Means.append {t u : Str} {a b : List UInt8} (h : Means t a) (k : Means u b) : Means (t ++ u) (a ++ b) := by
  intro r
  have : unplus (t ++ u) = unplus t ++ unplus u := by simp [unplus]
  rw [this, List.append_assoc, h, k, List.append_assoc]

theorem means_quote (safe : Char → Bool) (s : Str) (hp : '%' ∉ s) (r : Str) :
    percentDecode (quote safe s ++ r) = s.flatMap String.utf8EncodeChar ++ percentDecode r := by
  have hb : ∀ b ∈ s.flatMap String.utf8EncodeChar, b.toNat < 128 → Char.ofNat b.toNat ≠ '%' := by
    intro b hb hl
    obtain ⟨d, hd, hd'⟩ := List.mem_flatMap.1 hb
    rw [utf8_small d b hd' hl]
    rintro rfl
    exact hp hd
  rw [quote]
  revert hb
  generalize s.flatMap String.utf8EncodeChar = l
  intro hb
  induction l with
  | nil => rfl
  | cons b l ih =>
    have hl := b.toNat_lt
    rw [List.flatMap_cons, List.append_assoc]
    have : ∀ t, percentDecode (quoteByte safe b ++ t) = b :: percentDecode t := by
      intro t
      rw [quoteByte]
      split
      · rename_i h
        simp only [Bool.and_eq_true, decide_eq_true_eq] at h
        rw [List.singleton_append, percentDecode.eq_def]
        simp only [hb b (by simp) h.1, if_false, encode_small b h.1, List.singleton_append]
      · rw [List.cons_append, percentDecode.eq_def]
        simp only [if_true, List.cons_append, List.nil_append, hexVal_hexDigit (b.toNat / 16) (by omega), hexVal_hexDigit (b.toNat % 16) (by omega)]
        rw [show 16 * (b.toNat / 16) + b.toNat % 16 = b.toNat by omega]
        simp
    rw [this, ih (fun b h => hb b (by simp [h]))]
    rfl

theorem means_quotePlus (safe : Char → Bool) (s : Str) (hp : '%' ∉ s) (hq : '+' ∉ s) : Means (quotePlus safe s) (s.flatMap String.utf8EncodeChar) := by
  intro r
  have noPlus : ∀ safe : Char → Bool, '+' ∉ quote safe s := by
    intro safe hm
    rcases quote_mem' safe s _ hm with h | h | ⟨n, hn, h⟩
    · exact hq h.2
    · cases h
    · exact (hexDigit_plain n hn).2.1 h.symm
  rw [quotePlus]
  split
  · have : ((quote (fun c => safe c || c == ' ') s).map fun c => if c = ' ' then '+' else c) = plus (quote (fun c => safe c || c == ' ') s) := rfl
    rw [this, unplus_plus _ (noPlus _), means_quote _ _ hp]
  · rw [unplus_id _ (noPlus _), means_quote _ _ hp]

theorem refAt_some {s body r : Str} (h : refAt s = some (body, r)) :
    s = "&#".toList ++ body ++ ';' :: r ∧ ∀ c ∈ body, c.toNat < 128 ∧ c ≠ '%' ∧ c ≠ '+' ∧ c ≠ '=' ∧ c ≠ '&' := by
  have dig : ∀ c : Char, c.isDigit = true → c.toNat < 128 ∧ c ≠ '%' ∧ c ≠ '+' ∧ c ≠ '=' ∧ c ≠ '&' := by
    intro c hc
    refine ⟨?_, ?_, ?_, ?_, ?_⟩
    · simp only [Char.isDigit, Bool.and_eq_true, decide_eq_true_eq] at hc
      have : c.val.toNat ≤ 57 := by simpa [UInt32.le_iff_toNat_le] using hc.2
      show c.val.toNat < 128
      omega
    all_goals (rintro rfl; revert hc; decide)
  have hex : ∀ c : Char, isHex c = true → c.toNat < 128 ∧ c ≠ '%' ∧ c ≠ '+' ∧ c ≠ '=' ∧ c ≠ '&' := by
    intro c hc
    refine ⟨?_, ?_, ?_, ?_, ?_⟩
    · simp only [isHex, Bool.or_eq_true, Bool.and_eq_true, decide_eq_true_eq] at hc
      rcases hc with (hc | hc) | hc
      · exact (dig c hc).1
      · omega
      · omega
    all_goals (rintro rfl; revert hc; decide)
  unfold refAt at h
  split at h
  · split at h
    · rename_i hd
      cases h
      refine ⟨rfl, ?_⟩
      rw [List.all_eq_true] at hd
      exact fun c hc => dig c (hd c hc)
    · cases h
  · split at h
    · rename_i hd
      cases h
      refine ⟨rfl, ?_⟩
      simp only [Bool.and_eq_true, List.all_eq_true] at hd
      intro c hc
      rcases List.mem_cons.1 hc with rfl | hc
      · rcases Bool.or_eq_true _ _ ▸ hd.1 with h | h
        · rw [beq_iff_eq.1 h]; decide
        · rw [beq_iff_eq.1 h]; decide
      · exact hex c (hd.2 c hc)
    · cases h
  · cases h

theorem means_ascii (t : Str) (h : ∀ c ∈ t, c ≠ '%' ∧ c ≠ '+') : Means t (t.flatMap String.utf8EncodeChar) := by
  intro r
  rw [unplus_id t (fun k => (h _ k).2 rfl)]
  induction t with
  | nil => rfl
  | cons c t ih =>
    rw [List.cons_append, percentDecode.eq_def]
    simp only [(h c (by simp)).1, if_false]
    rw [ih (fun c hc => h c (by simp [hc])), List.flatMap_cons, List.append_assoc]

theorem means_quoteRefsN (safe : Char → Bool) (n : Nat) (acc s : Str) (hn : s.length < n) (hp : '%' ∉ acc ++ s) (hq : '+' ∉ acc ++ s) :
    Means (quoteRefsN (quotePlus safe) n acc s) ((acc.reverse ++ s).flatMap String.utf8EncodeChar) := by
  have flush : ∀ acc : Str, '%' ∉ acc → '+' ∉ acc → Means (if acc = [] then [] else quotePlus safe acc.reverse) (acc.reverse.flatMap String.utf8EncodeChar) := by
    intro acc h1 h2
    split
    · rename_i h; subst h; intro r; rfl
    · exact means_quotePlus safe _ (by simpa using h1) (by simpa using h2)
  induction n generalizing acc s with
  | zero => omega
  | succ n ih =>
    simp only [List.mem_append, not_or] at hp hq
    have fl := flush acc hp.1 hq.1
    rw [quoteRefsN.eq_def]
    simp only
    cases hr : refAt s with
    | some p =>
      obtain ⟨body, r⟩ := p
      obtain ⟨e, hb⟩ := refAt_some hr
      have er : '%' ∉ r ∧ '+' ∉ r := by
        rw [e] at hp hq
        simp only [List.mem_append, List.mem_cons, not_or] at hp hq
        exact ⟨hp.2.2.2, hq.2.2.2⟩
      have hl : r.length < n := by
        have := congrArg List.length e
        simp only [List.length_append, List.length_cons] at this
        omega
      have m1 : Means "%26%23".toList ("&#".toList.flatMap String.utf8EncodeChar) := fun r => rfl
      have m2 := means_ascii body (fun c hc => ⟨(hb c hc).2.1, (hb c hc).2.2.1⟩)
      have m3 : Means "%3B".toList (";".toList.flatMap String.utf8EncodeChar) := fun r => rfl
      have m4 := ih [] r hl (by simpa using er.1) (by simpa using er.2)
      have := (((fl.append m1).append m2).append m3).append m4
      have e' : ((((acc.reverse.flatMap String.utf8EncodeChar ++ "&#".toList.flatMap String.utf8EncodeChar) ++ body.flatMap String.utf8EncodeChar) ++
          ";".toList.flatMap String.utf8EncodeChar) ++ (([] : Str).reverse ++ r).flatMap String.utf8EncodeChar) = (acc.reverse ++ s).flatMap String.utf8EncodeChar := by
        rw [e, show ';' :: r = ";".toList ++ r from rfl]
        simp only [List.flatMap_append, List.reverse_nil, List.nil_append, List.append_assoc]
      rw [← e']
      exact this
    | none =>
      cases s with
      | nil => simpa using fl
      | cons c s =>
        simp only [List.length_cons] at hn
        have := ih (c :: acc) s (by omega) (by
          simp only [List.mem_append, List.mem_cons, not_or] at hp ⊢
          exact ⟨⟨hp.2.1, hp.1⟩, hp.2.2⟩) (by
          simp only [List.mem_append, List.mem_cons, not_or] at hq ⊢
          exact ⟨⟨hq.2.1, hq.1⟩, hq.2.2⟩)
        simpa using this

theorem quoteRefsN_mem (safe : Char → Bool) (n : Nat) (acc s : Str) (hn : s.length < n) (c : Char) (hc : c = '=' ∨ c = '&')
    (h : c ∈ quoteRefsN (quotePlus safe) n acc s) : safe c = true ∧ c ∈ acc ++ s := by
  have flush : ∀ acc : Str, c ∈ (if acc = [] then [] else quotePlus safe acc.reverse) → safe c = true ∧ c ∈ acc := by
    intro acc h
    split at h
    · cases h
    · have := quotePlus_mem safe _ c hc h
      exact ⟨this.1, by simpa using this.2⟩
  induction n generalizing acc s with
  | zero => omega
  | succ n ih =>
    rw [quoteRefsN.eq_def] at h
    simp only at h
    cases hr : refAt s with
    | some p =>
      obtain ⟨body, r⟩ := p
      obtain ⟨e, hb⟩ := refAt_some hr
      have hl : r.length < n := by
        have := congrArg List.length e
        simp only [List.length_append, List.length_cons] at this
        omega
      rw [hr] at h
      simp only [List.mem_append] at h
      rcases h with (((h | h) | h) | h) | h
      · obtain ⟨k1, k2⟩ := flush acc h
        exact ⟨k1, by simp [k2]⟩
      · exfalso
        rcases hc with rfl | rfl <;> revert h <;> decide
      · exfalso
        rcases hc with rfl | rfl
        · exact (hb _ h).2.2.2.1 rfl
        · exact (hb _ h).2.2.2.2 rfl
      · exfalso
        rcases hc with rfl | rfl <;> revert h <;> decide
      · obtain ⟨k1, k2⟩ := ih [] r hl h
        refine ⟨k1, ?_⟩
        rw [e]
        simp only [List.nil_append] at k2
        simp [k2]
    | none =>
      rw [hr] at h
      cases s with
      | nil =>
        obtain ⟨k1, k2⟩ := flush acc h
        exact ⟨k1, by simpa using k2⟩
      | cons d s =>
        simp only [List.length_cons] at hn
        obtain ⟨k1, k2⟩ := ih (d :: acc) s (by omega) h
        refine ⟨k1, ?_⟩
        simp only [List.cons_append, List.mem_cons, List.mem_append] at k2 ⊢
        rcases k2 with k | k | k
        · exact .inr (.inl k)
        · exact .inl k
        · exact .inr (.inr k)

/-- Texts that a query shows as they are meant. -/
def Shown (s : Str) : Prop := '%' ∉ s ∧ '+' ∉ s

theorem formValue_queryText (tilde : Bool) (s : Str) (h : Shown s) : formValue (queryText tilde s) = some s := by
  have := means_quoteRefsN (querySafe tilde) (s.length + 1) [] s (by omega) (by simpa using h.1) (by simpa using h.2) []
  have e : formValue (queryText tilde s) = (percentDecode (unplus (queryText tilde s))).toByteArray.utf8Decode?.map (·.toList) := rfl
  rw [e]
  have e2 : percentDecode (unplus (queryText tilde s)) = s.flatMap String.utf8EncodeChar := by
    simpa [queryText, quoteRefs, percentDecode] using this
  rw [e2]
  have := @List.utf8Decode?_utf8Encode s
  rw [List.utf8Encode] at this
  rw [this]
  rfl

theorem takeDrop (a b : Str) (ha : '=' ∉ a) : (a ++ '=' :: b).takeWhile (· != '=') = a ∧ (a ++ '=' :: b).dropWhile (· != '=') = '=' :: b := by
  induction a with
  | nil => simp
  | cons c a ih =>
    have hc : c ≠ '=' := fun k => ha (by simp [k])
    obtain ⟨i1, i2⟩ := ih (fun k => ha (by simp [k]))
    simp only [List.cons_append, List.takeWhile, List.dropWhile, bne_iff_ne, ne_eq, hc, not_false_eq_true, i1, i2, show (c != '=') = true by simpa using hc,
      and_self]

/-- **C92** The query of a URL, read by the rules for forms, gives all its parameters in the order of the names, if no name and no value contains
`+` or `%` and no name contains `=`. -/
theorem query_partial (tilde : Bool) (d : Params) (h : Reachable d) (hd : d ≠ []) (hs : ∀ p ∈ d, Shown p.1 ∧ Shown p.2 ∧ '=' ∉ p.1) :
    ∃ q ps, search tilde d = '?' :: q ∧ formDecode q = some ps ∧ ps.Perm d ∧ ps.Pairwise (fun a b => Before a.1 b.1) := by
  have hn := reachable_nodup h
  have h0 : d.length ≠ 0 := fun k => hd (List.length_eq_zero_iff.1 k)
  have own : ∀ k ∈ sorted (Dict.keys d), (k, (get d k).getD []) ∈ d := by
    intro k hk
    have hk := (sorted_perm _).mem_iff.1 hk
    obtain ⟨p, hp, rfl⟩ := List.mem_map.1 hk
    have := (Dict.mem_iff_get? d hn p.1 p.2).1 hp
    rw [get, this]
    exact hp
  refine ⟨_, (sorted (Dict.keys d)).map fun k => (k, (get d k).getD []), by rw [search, if_neg h0], ?_, ?_, ?_⟩
  · have hne : sorted (Dict.keys d) ≠ [] := by
      intro e
      have := (sorted_perm (Dict.keys d)).length_eq
      rw [e] at this
      simp only [Dict.keys, List.length_nil, List.length_map] at this
      exact h0 this.symm
    have amp : ∀ s, '&' ∉ queryText tilde s := by
      intro s hm
      have := (quoteRefsN_mem _ _ _ _ (by omega) _ (.inr rfl) hm).1
      revert this
      cases tilde <;> decide
    rw [formDecode, splitOn_join]
    · revert own
      generalize sorted (Dict.keys d) = l
      intro own
      clear hne
      induction l with
      | nil => rfl
      | cons k l ih =>
        obtain ⟨s1, s2, s3⟩ := hs _ (own k (by simp))
        simp only at s1 s2 s3
        have he : '=' ∉ queryText tilde k := by
          intro hm
          have := (quoteRefsN_mem _ _ _ _ (by omega) _ (.inl rfl) hm).2
          exact s3 (by simpa using this)
        obtain ⟨t1, t2⟩ := takeDrop (queryText tilde k) (queryText tilde ((get d k).getD [])) he
        rw [List.map_cons, formPairs, if_neg (by simp), formPair, t1, t2, List.drop_one, List.tail_cons, formValue_queryText tilde _ s1,
          formValue_queryText tilde _ s2, ih (fun k hk => own k (by simp [hk]))]
        rfl
    · simpa using hne
    · intro p hp
      obtain ⟨k, -, rfl⟩ := List.mem_map.1 hp
      simp only [List.mem_append, List.mem_cons, not_or]
      exact ⟨amp _, by decide, amp _⟩
  · have : d = (Dict.keys d).map fun k => (k, (get d k).getD []) := by
      conv => lhs; rw [← List.map_id d]
      rw [Dict.keys, List.map_map]
      apply List.map_congr_left
      intro p hp
      have := (Dict.mem_iff_get? d hn p.1 p.2).1 hp
      simp only [id_eq, Function.comp, get, this, Option.getD_some]
    conv => rhs; rw [this]
    exact (sorted_perm _).map _
  · rw [List.pairwise_map]
    have h1 := sorted_pairwise (Dict.keys d)
    have h2 : (sorted (Dict.keys d)).Pairwise (· ≠ ·) := (sorted_perm _).nodup_iff.2 hn
    exact (h1.and h2).imp (fun h => le_before _ _ h.1 h.2)

/-- **C92** A parameter `1+1` becomes `1 1` in the query. -/
theorem plus_violated : search true (set [] "a".toList "1+1".toList) = "?a=1+1".toList ∧
    formValue "1+1".toList = some "1 1".toList :=
  ⟨by decide, by rw [show "1+1".toList = queryText true "1 1".toList by decide]; exact formValue_queryText true _ ⟨by decide, by decide⟩⟩

/-- **C92** A parameter `%41` becomes `A` in the query. -/
theorem percent_violated : search true (set [] "a".toList "%41".toList) = "?a=%41".toList ∧
    formValue "%41".toList = some "A".toList := by
  refine ⟨by decide, ?_⟩
  have e : percentDecode (unplus "%41".toList) = percentDecode (unplus (queryText true "A".toList)) := by decide
  have := formValue_queryText true "A".toList ⟨by decide, by decide⟩
  rw [← this]
  show (percentDecode (unplus "%41".toList)).toByteArray.utf8Decode?.map (·.toList) = _
  rw [e]
  rfl

/-- **C92** A parameter with the name `a=b` becomes one with the name `a`. -/
theorem name_violated : search true (set [] "a=b".toList "c".toList) = "?a=b=c".toList ∧
    formPair "a=b=c".toList = some ("a".toList, "b=c".toList) := by
  refine ⟨by decide, ?_⟩
  have h1 := formValue_queryText true "a".toList ⟨by decide, by decide⟩
  have h2 := formValue_queryText true "b=c".toList ⟨by decide, by decide⟩
  rw [formPair, show "a=b=c".toList.takeWhile (· != '=') = queryText true "a".toList by decide,
    show ("a=b=c".toList.dropWhile (· != '=')).drop 1 = queryText true "b=c".toList by decide, h1, h2]

/-- **C92** The query `?a=%41` gives the parameter `%41`, not `A`. -/
theorem setter_violated : Url.parseQuery "?a=%41".toList = [("a".toList, "%41".toList)] := by decide

/-- The hypotheses of `query_partial` are met by a parameter with a reference, `&`, `=` and a space. -/
example : search true (set [] "q".toList "&#1234; & a=b".toList) = "?q=%26%231234%3B+%26+a=b".toList ∧
    ∀ p ∈ (set [] "q".toList "&#1234; & a=b".toList : Params), Shown p.1 ∧ Shown p.2 ∧ '=' ∉ p.1 := by
  refine ⟨by decide, ?_⟩
  intro p hp
  rw [show (set [] "q".toList "&#1234; & a=b".toList : Params) = [("q".toList, "&#1234; & a=b".toList)] from rfl, List.mem_singleton] at hp
  subst hp
  exact ⟨⟨by decide, by decide⟩, ⟨by decide, by decide⟩, by decide⟩

/-- Two names with reserved characters. -/
example : tostring true (init [("b".toList, "x y".toList), ("a&=".toList, "+é".toList)]) = "a%26%3D=%2B%C3%A9&b=x+y".toList := by decide

example : Reachable (set (init [("b".toList, "x y".toList)]) "a&=".toList "+é".toList) := .set _ _ (.init _)

end SvgPy.SearchParams
