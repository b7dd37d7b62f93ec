import Verif.Props.UrlHref

/-! Property C71: the text of a URL. -/

set_option linter.unusedSimpArgs false

namespace SvgPy.Url

open SvgPy.UrlSplit

/-! ### Specification -/

/-- A URL with a host all of whose parts are written as the setters write them. -/
structure Normal (lib : Lib) (u : URL) : Prop where
  /-- The protocol is a scheme in lower case and a colon. -/
  scheme : ∃ c cs, u.protocol = c :: cs ++ ":".toList ∧ c.isAlpha = true ∧ (∀ x ∈ c :: cs, (x.isAlphanum = true ∨ x ∈ "+-.".toList) ∧ x.toLower = x) ∧
    lib.lower (c :: cs) = c :: cs
  hier : u.protocol ∉ ["file:".toList, "about:".toList, "blob:".toList, "data:".toList]
  /-- The user name has no delimiters and is percent encoded; without it there is no password. -/
  user : (∀ x ∈ u.username, x ∉ "@/?#[]:".toList) ∧ lib.quoteUser (lib.unquote u.username) = u.username ∧
    (∀ x ∈ u.password, x ∉ "@/?#[]".toList) ∧ lib.quoteUser (lib.unquote u.password) = u.password ∧ (u.username = [] → u.password = [])
  /-- The host name is a domain name or an IPv4 address in lower case. -/
  hostname : u.hostname ≠ [] ∧ (∀ x ∈ u.hostname, x ∉ "\t\n\r #%/?@\\:[]".toList ∧ x.toLower = x) ∧ lib.lower u.hostname = u.hostname ∧
    lib.idna u.hostname = .ok u.hostname
  /-- The port is a number without zeros in front, and not the one of the protocol. -/
  port : u.port = [] ∨ (wellKnownPort u.protocol ≠ some u.port ∧ ∃ n, n < 65536 ∧ u.port = Formatter.decimal n)
  host : u.host = hostSpec u.protocol u.hostname u.port
  /-- The path begins with a slash, has no delimiters, is percent encoded and without dot segments. -/
  path : (∃ t, u.pathname = '/' :: t) ∧ (∀ x ∈ u.pathname, x ∉ "?#\\".toList) ∧ cleanPath lib u.protocol u.pathname = u.pathname
  /-- The query parameters are sorted, percent encoded and without delimiters. -/
  query : (Dict.keys u.params).Nodup ∧ PyStr.sorted (Dict.keys u.params) = Dict.keys u.params ∧
    (∀ kv ∈ u.params, (∀ x ∈ kv.1, x ∉ "&=#+?".toList) ∧ (∀ x ∈ kv.2, x ∉ "&=#+".toList) ∧ lib.quoteQuery kv.1 = kv.1 ∧ lib.quoteQuery kv.2 = kv.2)
  /-- The fragment is percent encoded. -/
  fragment : u.hash.head? ≠ some '#' ∧ lib.quoteHash (lib.unquote u.hash) = u.hash

/-! ### Lemmas -/

theorem span_stop (p : Char → Bool) (a b : Str) (ha : ∀ x ∈ a, p x = true) (hb : ∀ x, b.head? = some x → p x = false) :
    (a ++ b).span p = (a, b) := by
  rw [List.span_eq_takeWhile_dropWhile]
  induction a with
  | nil =>
    cases b with
    | nil => rfl
    | cons x b => simp [hb x rfl]
  | cons x a ih =>
    have h1 := ha x (by simp)
    have h2 := ih fun y hy => ha y (List.mem_cons_of_mem _ hy)
    simp only [List.cons_append, List.takeWhile_cons, List.dropWhile_cons, h1, if_true]
    simp only [Prod.mk.injEq] at h2 ⊢
    exact ⟨by rw [h2.1], h2.2⟩

theorem cutOr_none (c : Char) (s : Str) (h : c ∉ s) : cutOr c s = (s, []) := by
  unfold cutOr; rw [(PyStr.cut_none_iff c s).2 h]; rfl

theorem cutOr_some (c : Char) (a b : Str) (h : c ∉ a) : cutOr c (a ++ c :: b) = (a, b) := by
  unfold cutOr; rw [PyStr.cut_append c a b h]; rfl

theorem rcut_none (c : Char) (s : Str) (h : c ∉ s) : rcut c s = none := by
  unfold rcut; rw [(PyStr.cut_none_iff c s.reverse).2 (by simpa using h)]

theorem rcut_some (c : Char) (a b : Str) (h : c ∉ b) : rcut c (a ++ c :: b) = some (a, b) := by
  unfold rcut
  have : (a ++ c :: b).reverse = b.reverse ++ c :: a.reverse := by simp
  rw [this, PyStr.cut_append c _ _ (by simpa using h)]
  simp

theorem set_new (d : Dict Str Str) (k v : Str) (h : k ∉ Dict.keys d) : Dict.set d k v = d ++ [(k, v)] := by
  induction d with
  | nil => rfl
  | cons a d ih =>
    obtain ⟨a, b⟩ := a
    simp only [Dict.keys, List.map_cons, List.mem_cons, not_or] at h
    rw [Dict.set, if_neg (Ne.symm h.1), ih h.2]
    rfl

theorem update_new (d ps : Dict Str Str) (h : (Dict.keys (d ++ ps)).Nodup) : Dict.update d ps = d ++ ps := by
  induction ps generalizing d with
  | nil => simp [Dict.update]
  | cons p ps ih =>
    obtain ⟨k, v⟩ := p
    have hk : k ∉ Dict.keys d := by
      simp only [Dict.keys, List.map_append, List.map_cons] at h
      rw [List.nodup_append] at h
      intro hm
      exact h.2.2 k hm k (by simp) rfl
    show Dict.update (Dict.set d k v) ps = _
    rw [set_new d k v hk, ih]
    · simp
    · simpa using h

theorem get?_own (d : Dict Str Str) (h : (Dict.keys d).Nodup) (kv : Str × Str) (hm : kv ∈ d) : (Dict.get? d kv.1).getD [] = kv.2 := by
  have := (Dict.mem_iff_get? d h kv.1 kv.2).1 hm
  rw [this]; rfl

/-- The pairs of a query as they are written. -/
def written (kv : Str × Str) : Str := kv.1 ++ '=' :: kv.2

theorem map_plus (s : Str) (h : '+' ∉ s) : s.map (fun c => if c = '+' then ' ' else c) = s := by
  induction s with
  | nil => rfl
  | cons c s ih =>
    simp only [List.mem_cons, not_or] at h
    rw [List.map_cons, ih h.2, if_neg (Ne.symm h.1)]

theorem queryPair_written (kv : Str × Str) (h1 : '=' ∉ kv.1 ∧ '+' ∉ kv.1) (h2 : '=' ∉ kv.2 ∧ '+' ∉ kv.2) : queryPair (written kv) = kv := by
  unfold queryPair written
  rw [PyStr.splitOn_append '=' kv.1 kv.2 h1.1, PyStr.splitOn_notMem '=' kv.2 h2.1]
  simp only
  rw [map_plus _ h1.2, map_plus _ h2.2]

theorem getSearch_written (lib : Lib) (u : URL) (h : Normal lib u) (hne : u.params ≠ []) :
    getSearch lib u = '?' :: PyStr.join ['&'] (u.params.map written) := by
  obtain ⟨hn, hs, hq⟩ := h.query
  unfold getSearch
  have : u.params.length ≠ 0 := by simpa using hne
  rw [if_neg this, hs]
  congr 2
  unfold Dict.keys
  rw [List.map_map]
  apply List.map_congr_left
  intro kv hkv
  obtain ⟨_, _, e1, e2⟩ := hq kv hkv
  simp only [Function.comp]
  rw [get?_own u.params hn kv hkv, e1, e2]
  rfl

theorem join_sep_mem (sep : Char) (xs : List Str) (c : Char) (h : c ∈ PyStr.join [sep] xs) : c = sep ∨ ∃ x ∈ xs, c ∈ x := by
  induction xs with
  | nil => simp [PyStr.join] at h
  | cons x xs ih =>
    cases xs with
    | nil => exact .inr ⟨x, by simp, by simpa [PyStr.join] using h⟩
    | cons z zs =>
      rw [PyStr.join] at h
      · simp only [List.append_assoc, List.mem_append, List.mem_singleton] at h
        rcases h with h | h | h
        · exact .inr ⟨x, by simp, h⟩
        · exact .inl h
        · rcases ih h with h | ⟨y, hy, h⟩
          · exact .inl h
          · exact .inr ⟨y, List.mem_cons_of_mem _ hy, h⟩
      · simp

theorem parseQuery_written (lib : Lib) (u : URL) (h : Normal lib u) (hne : u.params ≠ []) :
    parseQuery (PyStr.join ['&'] (u.params.map written)) = u.params := by
  obtain ⟨hn, hs, hq⟩ := h.query
  have key : ∀ kv ∈ u.params, ('=' ∉ kv.1 ∧ '+' ∉ kv.1 ∧ '&' ∉ kv.1 ∧ '?' ∉ kv.1) ∧ ('=' ∉ kv.2 ∧ '+' ∉ kv.2 ∧ '&' ∉ kv.2) := by
    intro kv hkv
    obtain ⟨h1, h2, _⟩ := hq kv hkv
    refine ⟨⟨fun m => h1 _ m (by decide), fun m => h1 _ m (by decide), fun m => h1 _ m (by decide), fun m => h1 _ m (by decide)⟩,
      fun m => h2 _ m (by decide), fun m => h2 _ m (by decide), fun m => h2 _ m (by decide)⟩
  have hdrop : (PyStr.join ['&'] (u.params.map written)).dropWhile (· == '?') = PyStr.join ['&'] (u.params.map written) ∧
      PyStr.join ['&'] (u.params.map written) ≠ [] := by
    cases hp : u.params with
    | nil => exact absurd hp hne
    | cons kv l =>
      have hk := (key kv (by rw [hp]; simp)).1.2.2.2
      have : ∃ t, PyStr.join ['&'] ((kv :: l).map written) = written kv ++ t := by
        cases l with
        | nil => exact ⟨[], by simp [PyStr.join]⟩
        | cons z zs => exact ⟨['&'] ++ PyStr.join ['&'] ((z :: zs).map written), by simp [PyStr.join]⟩
      obtain ⟨t, ht⟩ := this
      rw [ht]
      unfold written
      cases hkv : kv.1 with
      | nil => simp
      | cons c cs =>
        rw [hkv] at hk
        simp only [List.mem_cons, not_or] at hk
        have : (c == '?') = false := beq_eq_false_iff_ne.2 (Ne.symm hk.1)
        simp [this]
  unfold parseQuery
  simp only
  rw [hdrop.1, if_neg hdrop.2, PyStr.splitOn_join '&' _ (by simpa using hne)]
  · rw [List.map_map]
    have : u.params.map (queryPair ∘ written) = u.params := by
      conv_rhs => rw [← List.map_id u.params]
      apply List.map_congr_left
      intro kv hkv
      obtain ⟨a, b⟩ := key kv hkv
      exact queryPair_written kv ⟨a.1, a.2.1⟩ ⟨b.1, b.2.1⟩
    rw [this]
    unfold Dict.ofPairs
    rw [update_new [] u.params (by simpa using hn)]
    rfl
  · intro p hp
    obtain ⟨kv, hkv, rfl⟩ := List.mem_map.1 hp
    obtain ⟨a, b⟩ := key kv hkv
    unfold written
    intro hm
    rcases List.mem_append.1 hm with hm | hm
    · exact a.2.2.1 hm
    · rcases List.mem_cons.1 hm with hm | hm
      · exact absurd hm (by decide)
      · exact b.2.2 hm

theorem query_hash (lib : Lib) (u : URL) (h : Normal lib u) : '#' ∉ getSearch lib u := by
  by_cases hne : u.params = []
  · unfold getSearch; rw [hne]; simp
  rw [getSearch_written lib u h hne]
  obtain ⟨hn, hs, hq⟩ := h.query
  intro hm
  rcases List.mem_cons.1 hm with hm | hm
  · exact absurd hm (by decide)
  rcases join_sep_mem '&' _ _ hm with hm | ⟨x, hx, hm⟩
  · exact absurd hm (by decide)
  obtain ⟨kv, hkv, rfl⟩ := List.mem_map.1 hx
  obtain ⟨h1, h2, _⟩ := hq kv hkv
  rcases List.mem_append.1 hm with hm | hm
  · exact h1 _ hm (by decide)
  · rcases List.mem_cons.1 hm with hm | hm
    · exact absurd hm (by decide)
    · exact h2 _ hm (by decide)

theorem decimal_digits (n : Nat) : ∀ c ∈ Formatter.decimal n, c.isDigit = true := by
  intro c hc
  have := Formatter.decimalN_digits (n + 1) n c hc
  rw [digitVal_isDigit] at this
  by_contra h
  rw [if_neg h] at this
  cases this

theorem port_digits (lib : Lib) (u : URL) (h : Normal lib u) : ∀ c ∈ u.port, c.isDigit = true := by
  intro c hc
  rcases h.port with e | ⟨_, n, _, e⟩
  · rw [e] at hc; simp at hc
  · rw [e] at hc; exact decimal_digits n c hc

theorem hostSpec_shape (lib : Lib) (u : URL) (h : Normal lib u) :
    hostSpec u.protocol u.hostname u.port = u.hostname ++ (if u.port = [] then [] else ':' :: u.port) := by
  unfold hostSpec
  rcases h.port with e | ⟨e, n, _, e'⟩
  · rw [if_pos (.inr (.inl e)), if_pos e]; simp
  · have hne : u.port ≠ [] := by rw [e']; exact Formatter.decimalN_ne (n + 1) n (by omega)
    rw [if_neg (by rintro (x | x | x); exact h.hostname.1 x; exact hne x; exact e x), if_neg hne]
    simp

/-- The network location of a normal URL has no characters that end it. -/
theorem netloc_chars (lib : Lib) (u : URL) (h : Normal lib u) :
    ∀ c ∈ userText u ++ hostSpec u.protocol u.hostname u.port, c ∉ "/?#[]".toList := by
  rw [hostSpec_shape lib u h]
  have hu := h.user
  have hh := h.hostname.2.1
  have hd := port_digits lib u h
  have sub : ∀ c : Char, c ∈ "/?#[]".toList → c ∈ "@/?#[]:".toList ∧ c ∈ "@/?#[]".toList ∧ c ∈ "\t\n\r #%/?@\\:[]".toList ∧ c ≠ ':' ∧ c ≠ '@' ∧ c.isDigit = false := by
    intro c hc
    have hc : c ∈ ['/', '?', '#', '[', ']'] := hc
    simp only [List.mem_cons, List.not_mem_nil, or_false] at hc
    rcases hc with rfl | rfl | rfl | rfl | rfl <;> decide
  intro c hc hbad
  obtain ⟨b1, b2, b3, b4, b5, b6⟩ := sub c hbad
  rcases List.mem_append.1 hc with hc | hc
  · unfold userText at hc
    split at hc
    · simp at hc
    · rcases List.mem_append.1 hc with hc | hc
      · rcases List.mem_append.1 hc with hc | hc
        · exact hu.1 c hc b1
        · split at hc
          · simp at hc
          · rcases List.mem_cons.1 hc with hc | hc
            · exact b4 hc
            · exact hu.2.2.1 c hc b2
      · exact b5 (List.mem_singleton.1 hc)
  · rcases List.mem_append.1 hc with hc | hc
    · exact (hh c hc).1 b3
    · split at hc
      · simp at hc
      · rcases List.mem_cons.1 hc with hc | hc
        · exact b4 hc
        · rw [hd c hc] at b6; cases b6

theorem splitScheme_normal (lib : Lib) (u : URL) (h : Normal lib u) (r : Str) :
    ∃ s, u.protocol = s ++ [':'] ∧ splitScheme (u.protocol ++ '/' :: r) = (s, '/' :: r) ∧ s ≠ [] ∧ opaqueScheme s = false ∧
      ∀ v, setProtocol lib v s = ({ v with protocol := u.protocol }, none) := by
  obtain ⟨c, cs, e, hc, hall, hlow⟩ := h.scheme
  have hcolon : ':' ∉ c :: cs := by
    intro hm
    rcases (hall _ hm).1 with x | x
    · exact absurd x (by decide)
    · exact absurd x (by decide)
  refine ⟨c :: cs, e, ?_, by simp, ?_, ?_⟩
  · unfold splitScheme
    rw [e]
    have e2 : c :: cs ++ ":".toList ++ '/' :: r = (c :: cs) ++ ':' :: ('/' :: r) := by simp
    rw [e2, PyStr.cut_append ':' _ _ hcolon]
    simp only
    rw [if_neg (by simp)]
    split
    · rfl
    · rw [if_pos]
      · congr 1
        conv_rhs => rw [← List.map_id (c :: cs)]
        exact List.map_congr_left fun x hx => (hall x hx).2
      · rw [Bool.and_eq_true]
        refine ⟨?_, by simp⟩
        rw [List.all_eq_true]
        intro x hx
        unfold schemeChar
        rcases (hall x hx).1 with a | a
        · simp [a]
        · have a : x ∈ ['+', '-', '.'] := a
          simp only [List.mem_cons, List.not_mem_nil, or_false] at a
          rcases a with rfl | rfl | rfl <;> decide
  · have hh := h.hier
    rw [e] at hh
    simp only [List.mem_cons, List.not_mem_nil, or_false, not_or] at hh
    unfold opaqueScheme
    have n1 : (c :: cs == "about".toList) = false := beq_eq_false_iff_ne.2 fun x => hh.2.1 (by rw [x]; decide)
    have n2 : (c :: cs == "blob".toList) = false := beq_eq_false_iff_ne.2 fun x => hh.2.2.1 (by rw [x]; decide)
    have n3 : (c :: cs == "data".toList) = false := beq_eq_false_iff_ne.2 fun x => hh.2.2.2 (by rw [x]; decide)
    rw [n1, n2, n3]
    rfl
  · intro v
    have hstrip : rstripColon (c :: cs) = c :: cs := by
      unfold rstripColon
      have : (c :: cs).reverse.dropWhile (· == ':') = (c :: cs).reverse := by
        cases hr : (c :: cs).reverse with
        | nil => rfl
        | cons x xs =>
          have : x ∈ c :: cs := List.mem_reverse.1 (by rw [hr]; simp)
          have : (x == ':') = false := beq_eq_false_iff_ne.2 fun ex => hcolon (ex ▸ this)
          simp [this]
      rw [this]; simp
    unfold setProtocol
    rw [if_neg (by simp), hstrip, hlow]
    simp only
    have hb : ¬ (!c.isAlpha || !cs.all (fun ch => ch.isAlphanum || ch == '+' || ch == '-' || ch == '.')) = true := by
      rw [hc]
      simp only [Bool.not_true, Bool.false_or, Bool.not_eq_true', Bool.not_eq_false]
      rw [List.all_eq_true]
      intro x hx
      rcases (hall x (List.mem_cons_of_mem _ hx)).1 with a | a
      · simp [a]
      · have a : x ∈ ['+', '-', '.'] := a
        simp only [List.mem_cons, List.not_mem_nil, or_false] at a
        rcases a with rfl | rfl | rfl <;> decide
    rw [if_neg hb, e]
    rfl

theorem userinfo_normal (lib : Lib) (u : URL) (h : Normal lib u) :
    hostinfo (userText u ++ hostSpec u.protocol u.hostname u.port) = hostSpec u.protocol u.hostname u.port ∧
      (userinfo (userText u ++ hostSpec u.protocol u.hostname u.port)).1.getD [] = u.username ∧
      (userinfo (userText u ++ hostSpec u.protocol u.hostname u.port)).2.getD [] = u.password := by
  have hat : '@' ∉ hostSpec u.protocol u.hostname u.port := by
    rw [hostSpec_shape lib u h]
    intro hm
    rcases List.mem_append.1 hm with hm | hm
    · exact (h.hostname.2.1 _ hm).1 (by decide)
    · split at hm
      · simp at hm
      · rcases List.mem_cons.1 hm with hm | hm
        · exact absurd hm (by decide)
        · exact absurd (port_digits lib u h _ hm) (by decide)
  unfold userText hostinfo userinfo
  by_cases hu : u.username = []
  · rw [if_pos hu, List.nil_append, rcut_none _ _ hat]
    exact ⟨rfl, by simp [hu], by simp [h.user.2.2.2.2 hu]⟩
  · rw [if_neg hu]
    generalize hx : u.username ++ (if u.password = [] then [] else ':' :: u.password) = x
    have e : x ++ ['@'] ++ hostSpec u.protocol u.hostname u.port = x ++ '@' :: hostSpec u.protocol u.hostname u.port := by simp
    rw [e, rcut_some _ _ _ hat]
    simp only
    refine ⟨trivial, ?_⟩
    have hc : ':' ∉ u.username := fun hm => h.user.1 _ hm (by decide)
    subst hx
    by_cases hp : u.password = []
    · rw [if_pos hp, List.append_nil, (PyStr.cut_none_iff ':' _).2 hc]
      exact ⟨rfl, by simp [hp]⟩
    · rw [if_neg hp, PyStr.cut_append ':' _ _ hc]
      exact ⟨rfl, rfl⟩

theorem hostPort_normal (lib : Lib) (u : URL) (h : Normal lib u) :
    hostPort (userText u ++ hostSpec u.protocol u.hostname u.port) = (u.hostname, u.port) := by
  unfold hostPort
  rw [(userinfo_normal lib u h).1]
  have hbr : '[' ∉ hostSpec u.protocol u.hostname u.port := fun hm => netloc_chars lib u h _ (List.mem_append_right _ hm) (by decide)
  rw [(PyStr.cut_none_iff '[' _).2 hbr]
  simp only
  rw [hostSpec_shape lib u h]
  have hc : ':' ∉ u.hostname := fun hm => (h.hostname.2.1 _ hm).1 (by decide)
  by_cases hp : u.port = []
  · rw [if_pos hp, List.append_nil, cutOr_none _ _ hc, hp]
  · rw [if_neg hp, cutOr_some _ _ _ hc]

theorem port_normal (lib : Lib) (u : URL) (h : Normal lib u) :
    ∃ p, UrlSplit.port (userText u ++ hostSpec u.protocol u.hostname u.port) = .ok p ∧ portText p = u.port := by
  unfold UrlSplit.port
  rw [hostPort_normal lib u h]
  simp only
  rcases h.port with e | ⟨_, n, hn, e⟩
  · exact ⟨none, by rw [if_pos e], e.symm⟩
  · have hne : u.port ≠ [] := by rw [e]; exact Formatter.decimalN_ne (n + 1) n (by omega)
    obtain ⟨a, b⟩ := (readDigits_iff u.port 0 n).1 (by rw [e]; exact Formatter.decimal_read n)
    have b : intVal u.port = n := b
    refine ⟨some n, ?_, e.symm⟩
    rw [if_neg hne, b, a, if_neg (by simp; omega)]

theorem setHostname_normal (lib : Lib) (u : URL) (h : Normal lib u) (v : URL) (hv : v.protocol = u.protocol) (hp : v.port = u.port) :
    setHostname lib v u.hostname = ({ v with hostname := u.hostname, host := u.host, port := u.port }, none) := by
  obtain ⟨h1, h2, h3, h4⟩ := h.hostname
  have hc : ':' ∉ u.hostname := fun hm => (h2 _ hm).1 (by decide)
  unfold setHostname parseHost
  have hbad : ¬ u.hostname.any badHostChar = true := by
    rw [List.any_eq_true]
    rintro ⟨x, hx, hb⟩
    unfold badHostChar at hb
    have hb : x ∈ ['\t', '\n', '\r', ' ', '#', '%', '/', '?', '@', '\\'] := by simpa using hb
    apply (h2 x hx).1
    show x ∈ ['\t', '\n', '\r', ' ', '#', '%', '/', '?', '@', '\\', ':', '[', ']']
    simp only [List.mem_cons, List.not_mem_nil, or_false] at hb ⊢
    tauto
  rw [if_neg h1, if_neg hbad, h3, h4]
  simp only
  have hs : splitHost u.hostname = .ok (u.hostname, none) := by
    unfold splitHost
    rw [if_neg (by rw [List.count_eq_zero_of_not_mem hc]; omega), (PyStr.cut_none_iff ':' _).2 hc]
  rw [hs]
  simp only [portState]
  rw [hp]
  have hvalid : ValidPort u.port := by
    rcases h.port with e | ⟨_, n, hn, e⟩
    · exact .inl e
    · exact .inr ⟨n, by rw [e]; exact Formatter.decimal_read n, hn⟩
  rcases setPort_cases { v with host := u.hostname, hostname := u.hostname, port := u.port } u.port with ⟨_, e⟩ | ⟨x, _⟩
  · rw [e, hv, h.host]
  · exact absurd hvalid x

/-- **C71** The text of a URL is read back as the same URL.  Missing: URLs that are not normal, see
`text_port_violated` and `text_query_violated`, and protocols without a host. -/
theorem text_partial (lib : Lib) (u v : URL) (h : Normal lib u) : setHref lib v (href lib u) = (u, none) := by
  have hv := h.host
  have hvalid : ValidPort u.port := by
    rcases h.port with e | ⟨_, n, hn, e⟩
    · exact .inl e
    · exact .inr ⟨n, by rw [e]; exact Formatter.decimal_read n, hn⟩
  have hcons : Consistent u := ⟨h.host, hvalid⟩
  have hier := h.hier
  simp only [List.mem_cons, List.not_mem_nil, or_false, not_or] at hier
  have ho : opaqueProtocol u.protocol = false := by
    unfold opaqueProtocol
    rw [beq_eq_false_iff_ne.2 hier.2.1, beq_eq_false_iff_ne.2 hier.2.2.1, beq_eq_false_iff_ne.2 hier.2.2.2]
    rfl
  have hhost : u.host ≠ [] := by
    rw [h.host, hostSpec_shape lib u h]
    simp [h.hostname.1]
  obtain ⟨t, ht⟩ := h.path.1
  have hpath : getPathname u = u.pathname := by
    unfold getPathname
    rw [ho, ht]
    rfl
  obtain ⟨c, cs, hproto, _⟩ := h.scheme
  have hp0 : u.protocol ≠ [] := by rw [hproto]; simp
  have htext : href lib u = u.protocol ++ '/' :: ('/' :: (userText u ++ hostSpec u.protocol u.hostname u.port ++
      (u.pathname ++ (getSearch lib u ++ getHash u)))) := by
    unfold href hrefWith
    have c1 : u.host ≠ [] ∧ u.protocol ≠ "file:".toList := ⟨hhost, hier.1⟩
    have c2 : u.host ≠ [] ∨ u.pathname ≠ [] := .inl hhost
    rw [readHost_consistent u hcons, if_neg hp0, ho, hpath, if_pos c1, if_pos c2, h.host]
    simp
  obtain ⟨s, hs1, hs2, hs3, hs4, hs5⟩ := splitScheme_normal lib u h ('/' :: (userText u ++ hostSpec u.protocol u.hostname u.port ++
      (u.pathname ++ (getSearch lib u ++ getHash u))))
  have hnet := netloc_chars lib u h
  obtain ⟨net, hneteq⟩ : ∃ net, net = userText u ++ hostSpec u.protocol u.hostname u.port := ⟨_, rfl⟩
  rw [← hneteq] at hnet hs2 htext
  have hspan : splitNetloc ('/' :: '/' :: (net ++ (u.pathname ++ (getSearch lib u ++ getHash u)))) =
      (net, u.pathname ++ (getSearch lib u ++ getHash u)) := by
    show List.span _ _ = _
    apply span_stop
    · intro x hx
      have := hnet x hx
      have e : ∀ y ∈ "/?#[]".toList, x ≠ y := fun y hy e => this (e ▸ hy)
      have e1 := e '/' (by decide); have e2 := e '?' (by decide); have e3 := e '#' (by decide)
      simp [e1, e2, e3]
    · intro x hx
      rw [ht] at hx
      simp at hx
      subst hx
      rfl
  have hbr : ((net.contains '[') != (net.contains ']')) = false := by
    have h1 : net.contains '[' = false := by
      rw [Bool.eq_false_iff]; intro hh; exact hnet '[' (by simpa using hh) (by decide)
    have h2 : net.contains ']' = false := by
      rw [Bool.eq_false_iff]; intro hh; exact hnet ']' (by simpa using hh) (by decide)
    rw [h1, h2]; rfl
  have hph : '#' ∉ u.pathname := fun hm => h.path.2.1 _ hm (by decide)
  have hpq : '?' ∉ u.pathname := fun hm => h.path.2.1 _ hm (by decide)
  have hsh := query_hash lib u h
  have hfrag : cutOr '#' (u.pathname ++ (getSearch lib u ++ getHash u)) = (u.pathname ++ getSearch lib u, u.hash) := by
    unfold getHash
    have hn : '#' ∉ u.pathname ++ getSearch lib u := by
      intro hm
      rcases List.mem_append.1 hm with hm | hm
      · exact hph hm
      · exact hsh hm
    by_cases e : u.hash = []
    · rw [e]
      simp only [List.length_nil, gt_iff_lt, Nat.lt_irrefl, if_false, List.append_nil]
      exact cutOr_none _ _ hn
    · rw [if_pos (List.length_pos_of_ne_nil e), ← List.append_assoc]
      exact cutOr_some _ _ _ hn
  have hquery : ∃ q, cutOr '?' (u.pathname ++ getSearch lib u) = (u.pathname, q) ∧ parseQuery q = u.params := by
    by_cases e : u.params = []
    · have : getSearch lib u = [] := by unfold getSearch; rw [e]; rfl
      rw [this, List.append_nil]
      exact ⟨[], cutOr_none _ _ hpq, by rw [e]; rfl⟩
    · rw [getSearch_written lib u h e]
      exact ⟨_, cutOr_some _ _ _ hpq, parseQuery_written lib u h e⟩
  obtain ⟨q, hq1, hq2⟩ := hquery
  have hsplit : urlsplit (href lib u) = .ok ⟨s, net, u.pathname, q, u.hash⟩ := by
    unfold urlsplit
    rw [htext, hs2]
    simp only
    rw [hspan]
    simp only
    rw [hbr, hfrag]
    simp only [Bool.false_eq_true, if_false]
    rw [hq1]
  have hnet0 : net ≠ [] := by
    rw [hneteq, hostSpec_shape lib u h]
    simp [h.hostname.1]
  obtain ⟨p, hp1, hp2⟩ := port_normal lib u h
  rw [← hneteq] at hp1
  have hhn : hostname net = some u.hostname := by
    unfold hostname
    rw [hneteq, hostPort_normal lib u h]
    simp only
    rw [if_neg h.hostname.1]
    congr 1
    conv_rhs => rw [← List.map_id u.hostname]
    exact List.map_congr_left fun x hx => (h.hostname.2.1 x hx).2
  have hui := userinfo_normal lib u h
  rw [← hneteq] at hui
  unfold setHref parseUrl
  rw [hsplit]
  simp only
  rw [if_neg (by rintro (⟨x, _⟩ | ⟨x, _⟩); exact hs3 x; rw [hs4] at x; cases x), hs5]
  simp only [andThen]
  have hpn : ∀ w : URL, w.protocol = u.protocol → parseNetloc lib w net = ({ w with hostname := u.hostname, host := u.host, port := u.port }, none) := by
    intro w hw
    unfold parseNetloc
    rw [if_neg hnet0, hp1]
    simp only
    rw [hhn]
    simp only
    rw [setHostname_normal lib u h { w with port := portText p } hw hp2]
  rw [hpn { v with protocol := u.protocol } rfl]
  simp only [setUsername, setPassword]
  rw [hui.2.1, hui.2.2, h.user.2.1, h.user.2.2.2.1]
  unfold setPathname
  simp only
  have hp1 : u.pathname ≠ [] := by rw [ht]; simp
  rw [if_neg hp1, if_neg (fun x => h.path.2.1 _ x.2.2 (by decide)), h.path.2.2]
  simp only [setSearch, setHash]
  rw [hq2]
  have hd : u.hash.dropWhile (· == '#') = u.hash := by
    cases hh : u.hash with
    | nil => rfl
    | cons x xs =>
      have := h.fragment.1
      rw [hh] at this
      have : (x == '#') = false := beq_eq_false_iff_ne.2 fun e => this (by rw [e]; rfl)
      simp [this]
  rw [hd, h.fragment.2]

/-- `http://me:pw@example.org:8080/a/b?k=v#f` as an object. -/
def full : URL :=
  { protocol := "http:".toList, username := "me".toList, password := "pw".toList, hostname := "example.org".toList,
    host := "example.org:8080".toList, port := "8080".toList, pathname := "/a/b".toList, params := [("k".toList, "v".toList)], hash := "f".toList }

/-- A non-trivial instance of the hypotheses. -/
example : Normal plain full where
  scheme := ⟨'h', "ttp".toList, by decide, by decide, by decide, by decide⟩
  hier := by decide
  user := ⟨by decide, by decide, by decide, by decide, by decide⟩
  hostname := ⟨by decide, by decide, by decide, by decide⟩
  port := .inr ⟨by decide, 8080, by decide, by decide⟩
  host := by decide
  path := ⟨⟨_, rfl⟩, by decide, by decide⟩
  query := ⟨by decide, by decide, by decide⟩
  fragment := ⟨by decide, by decide⟩

/-- **C71** is violated: `http://h:80/` has the port 80, but its text does not, and is read back as
a URL without port. -/
theorem text_port_violated : ∃ u u', setHref plain blank "http://h:80/".toList = (u, none) ∧ u.port = "80".toList ∧ href plain u = "http://h/".toList ∧
    setHref plain blank (href plain u) = (u', none) ∧ u'.port = [] :=
  ⟨_, _, rfl, by decide +kernel, by decide +kernel, rfl, by decide +kernel⟩

/-- **C71** is violated: of `?a=b=c&a=d` only the last value up to the equals sign is kept, and a
password without a user name is lost. -/
theorem text_query_violated : (∃ u, setHref plain blank "http://h/?a=b=c".toList = (u, none) ∧ href plain u = "http://h/?a=b".toList) ∧
    (∃ u, setHref plain blank "http://h/?a=b&a=d".toList = (u, none) ∧ href plain u = "http://h/?a=d".toList) ∧
    (∃ u, setHref plain blank "http://:pw@h/".toList = (u, none) ∧ u.password = "pw".toList ∧ href plain u = "http://h/".toList) :=
  ⟨⟨_, rfl, by decide +kernel⟩, ⟨_, rfl, by decide +kernel⟩, ⟨_, rfl, by decide +kernel, by decide +kernel⟩⟩

/-- **C71** What follows `//` up to the first slash, question mark or number sign is read as user, host
and port (RFC 3986, 3.2). -/
theorem authority_spec (net rest : Str) (hn : ∀ x ∈ net, x ∉ "/?#".toList) (hr : rest = [] ∨ ∃ x r, rest = x :: r ∧ x ∈ "/?#".toList) :
    splitNetloc ("//".toList ++ net ++ rest) = (net, rest) := by
  show List.span _ (net ++ rest) = _
  apply span_stop
  · intro x hx
    have e : ∀ y ∈ "/?#".toList, x ≠ y := fun y hy e => hn x hx (e ▸ hy)
    have e1 := e '/' (by decide); have e2 := e '?' (by decide); have e3 := e '#' (by decide)
    simp [e1, e2, e3]
  · intro x hx
    rcases hr with rfl | ⟨y, r, rfl, hy⟩
    · simp at hx
    · simp at hx
      subst hx
      simp at hy
      rcases hy with rfl | rfl | rfl <;> rfl

/-- Non-trivial instances: `//example.org?a=b` and `//h#f`. -/
example : splitNetloc "//example.org?a=b".toList = ("example.org".toList, "?a=b".toList) ∧ splitNetloc "//h#f".toList = ("h".toList, "#f".toList) :=
  ⟨authority_spec "example.org".toList "?a=b".toList (by decide) (.inr ⟨_, _, rfl, by decide⟩),
    authority_spec "h".toList "#f".toList (by decide) (.inr ⟨_, _, rfl, by decide⟩)⟩

/-- The text of a port after a host. -/
def portPart : Option Nat → Str
  | none => []
  | some n => ":".toList ++ Formatter.decimal n

/-- **C71** (IPv6) In an authority, what follows the last `@` is the host: an IPv6 address in brackets
keeps its brackets as the host name, and the number after it is the port. -/
theorem ipv6_spec (lib : Lib) (u : URL) (user a : Str) (p : Option Nat)
    (hu : user = [] ∨ ∃ w, user = w ++ "@".toList) (hc : 2 ≤ a.count ':')
    (ha : ∀ x ∈ a, x ∉ "\t\n\r #%/?@\\[]".toList ∧ x.toLower = x) (hl : lib.lower a = a) (hi : lib.idna a = .ok a)
    (hp : ∀ n, p = some n → n < 65536) :
    parseNetloc lib u (user ++ ("[".toList ++ a ++ "]".toList ++ portPart p)) =
      ({ u with hostname := "[".toList ++ a ++ "]".toList,
                port := (p.map Formatter.decimal).getD [],
                host := hostSpec u.protocol ("[".toList ++ a ++ "]".toList) ((p.map Formatter.decimal).getD []) }, none) := by
  have hane : a ≠ [] := by rintro rfl; simp at hc
  have hnot (c : Char) (h : c ∈ "\t\n\r #%/?@\\[]".toList) : c ∉ a := fun hm => (ha c hm).1 h
  have hdig : ∀ c ∈ portPart p, c = ':' ∨ c.isDigit = true := by
    intro c hc
    cases p with
    | none => simp [portPart] at hc
    | some n =>
      simp only [portPart, List.mem_append] at hc
      rcases hc with hc | hc
      · left; simpa using hc
      · right; exact decimal_digits n c hc
  have hat : '@' ∉ "[".toList ++ a ++ "]".toList ++ portPart p := by
    simp only [List.mem_append, not_or]
    refine ⟨⟨⟨by decide, hnot _ (by decide)⟩, by decide⟩, fun h => ?_⟩
    rcases hdig _ h with h | h <;> revert h <;> decide
  have hinfo : hostinfo (user ++ ("[".toList ++ a ++ "]".toList ++ portPart p)) =
      "[".toList ++ a ++ "]".toList ++ portPart p := by
    unfold hostinfo
    rcases hu with rfl | ⟨w, rfl⟩
    · rw [List.nil_append, rcut_none _ _ hat]
    · rw [show w ++ "@".toList ++ ("[".toList ++ a ++ "]".toList ++ portPart p) =
        w ++ '@' :: ("[".toList ++ a ++ "]".toList ++ portPart p) by simp, rcut_some _ _ _ hat]
  have hhp : hostPort (user ++ ("[".toList ++ a ++ "]".toList ++ portPart p)) = (a, (p.map Formatter.decimal).getD []) := by
    unfold hostPort
    rw [hinfo]
    have e1 : PyStr.cut '[' ("[".toList ++ a ++ "]".toList ++ portPart p) = some ([], a ++ ']' :: portPart p) := by
      rw [show "[".toList ++ a ++ "]".toList ++ portPart p = [] ++ '[' :: (a ++ ']' :: portPart p) by simp]
      exact PyStr.cut_append _ _ _ (by simp)
    rw [e1]
    simp only
    rw [cutOr_some ']' a _ (hnot _ (by decide))]
    cases p with
    | none => rfl
    | some n =>
      simp only [portPart]
      rw [show ":".toList ++ Formatter.decimal n = [] ++ ':' :: Formatter.decimal n by simp, cutOr_some _ _ _ (by simp)]
      rfl
  have hport : UrlSplit.port (user ++ ("[".toList ++ a ++ "]".toList ++ portPart p)) = .ok p := by
    unfold UrlSplit.port
    rw [hhp]
    cases p with
    | none => rfl
    | some n =>
      have hne : Formatter.decimal n ≠ [] := Formatter.decimalN_ne (n + 1) n (by omega)
      obtain ⟨x, y⟩ := (readDigits_iff (Formatter.decimal n) 0 n).1 (Formatter.decimal_read n)
      have y : intVal (Formatter.decimal n) = n := y
      have := hp n rfl
      simp only [Option.map_some, Option.getD_some]
      rw [if_neg hne]
      simp only [y, x]
      rw [if_neg (by simp; omega)]
  have hname : hostname (user ++ ("[".toList ++ a ++ "]".toList ++ portPart p)) = some a := by
    unfold hostname
    rw [hhp]
    simp only
    rw [if_neg hane]
    congr 1
    exact (List.map_congr_left (fun x hx => (ha x hx).2)).trans (List.map_id a)
  have hnl : user ++ ("[".toList ++ a ++ "]".toList ++ portPart p) ≠ [] := by simp
  have hpt : portText p = (p.map Formatter.decimal).getD [] := by cases p <;> rfl
  unfold parseNetloc
  rw [if_neg hnl, hport]
  simp only
  rw [hname]
  simp only
  unfold setHostname parseHost
  have hbad : ¬ a.any badHostChar = true := by
    rw [List.any_eq_true]
    rintro ⟨x, hx, hb⟩
    unfold badHostChar at hb
    have hb : x ∈ ['\t', '\n', '\r', ' ', '#', '%', '/', '?', '@', '\\'] := by simpa using hb
    apply (ha x hx).1
    show x ∈ ['\t', '\n', '\r', ' ', '#', '%', '/', '?', '@', '\\', '[', ']']
    simp only [List.mem_cons, List.not_mem_nil, or_false] at hb ⊢
    tauto
  rw [if_neg hane, if_neg hbad, hl, hi]
  simp only
  have hs : splitHost a = .ok ('[' :: a ++ [']'], none) := by
    unfold splitHost
    rw [if_pos (by omega), if_neg]
    intro h
    exact hnot '[' (by decide) (List.mem_of_mem_head? h)
  rw [hs]
  simp only [portState]
  have hvalid : ValidPort (portText p) := by
    rw [hpt]
    cases p with
    | none => exact .inl rfl
    | some n => exact .inr ⟨n, Formatter.decimal_read n, hp n rfl⟩
  rcases setPort_cases { u with host := '[' :: a ++ [']'], hostname := '[' :: a ++ [']'], port := portText p } (portText p) with ⟨_, e⟩ | ⟨x, _⟩
  · rw [e, hpt]
    simp
  · exact absurd hvalid x

/-- A non-trivial instance: `http://me@[::1]:8080/`. -/
example : 2 ≤ "::1".toList.count ':' ∧ (∀ x ∈ "::1".toList, x ∉ "\t\n\r #%/?@\\[]".toList ∧ x.toLower = x) ∧
    plain.lower "::1".toList = "::1".toList ∧ plain.idna "::1".toList = .ok "::1".toList ∧
    "me@[::1]:8080".toList = "me@".toList ++ ("[".toList ++ "::1".toList ++ "]".toList ++ portPart (some 8080)) := by
  refine ⟨by decide, by decide, by decide, rfl, by decide +kernel⟩

end SvgPy.Url
