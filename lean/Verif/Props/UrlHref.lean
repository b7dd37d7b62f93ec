import Verif.Props.Url

/-! Properties C23 (base URL) and C24 (failing assignment of href). -/

set_option linter.unusedSimpArgs false

namespace SvgPy.Url

open SvgPy.UrlSplit

/-! ### Assignment of href -/

/-- What `href` can be assigned without an error that comes too late: a path without backslash, and
no network location or one with a valid port and a host name without forbidden characters that
is a domain name, an IPv4 address or an IPv6 address. -/
def Acceptable (lib : Lib) (pr : Split) : Prop :=
  '\\' ∉ pr.path ∧
    (pr.netloc = [] ∨ ((∃ p, port pr.netloc = .ok p) ∧ ∃ h t, hostname pr.netloc = some h ∧ h.any badHostChar = false ∧
      lib.idna (lib.lower h) = .ok t ∧ (':' ∉ t ∨ (2 ≤ t.count ':' ∧ t.head? ≠ some '['))))

theorem valid_strNat (n : Nat) (h : n ≤ 65535) : ValidPort (strNat n) :=
  .inr ⟨n, Formatter.decimal_read n, by omega⟩

theorem port_valid (netloc : Str) (n : Nat) (h : port netloc = .ok (some n)) : n ≤ 65535 := by
  unfold port at h
  simp only at h
  split at h
  · cases h
  · split at h
    · cases h
    · rename_i hb
      cases h
      simp only [Bool.or_eq_true, Bool.not_eq_true', decide_eq_true_eq, not_or] at hb
      omega

theorem splitHost_plain (t : Str) (h : ':' ∉ t ∨ (2 ≤ t.count ':' ∧ t.head? ≠ some '[')) : ∃ n, splitHost t = .ok (n, none) := by
  unfold splitHost
  rcases h with h | ⟨h1, h2⟩
  · rw [if_neg (by rw [List.count_eq_zero_of_not_mem h]; omega), (PyStr.cut_none_iff ':' t).2 h]
    exact ⟨_, rfl⟩
  · rw [if_pos (by omega), if_neg h2]
    exact ⟨_, rfl⟩

theorem andThen_error (r : Res) (f : URL → Res) (e : PyErr) (h : (andThen r f).2 = some e) :
    (r.2 = some e ∧ (andThen r f).1 = r.1) ∨ (r.2 = none ∧ (f r.1).2 = some e ∧ (andThen r f).1 = (f r.1).1) := by
  unfold andThen at h ⊢
  cases hr : r.2 with
  | none => rw [hr] at h; exact .inr ⟨rfl, h, rfl⟩
  | some e' => rw [hr] at h; exact .inl ⟨by simpa using h, rfl⟩

theorem setProtocol_error (lib : Lib) (u : URL) (s : Str) (e : PyErr) (h : (setProtocol lib u s).2 = some e) : (setProtocol lib u s).1 = u := by
  unfold setProtocol at h ⊢
  by_cases h0 : s = []
  · rw [if_pos h0] at h; cases h
  rw [if_neg h0] at h ⊢
  cases hl : lib.lower (rstripColon s) with
  | nil => rfl
  | cons c cs =>
    rw [hl] at h
    simp only at h ⊢
    split at h
    · rename_i hb; rw [if_pos hb]
    · cases h

theorem parseNetloc_ok (lib : Lib) (u : URL) (pr : Split) (h : Acceptable lib pr) : (parseNetloc lib u pr.netloc).2 = none := by
  obtain ⟨_, h⟩ := h
  unfold parseNetloc
  rcases h with h | ⟨⟨p, hp⟩, hn, t, h1, h2, h3, h4⟩
  · rw [if_pos h]
  · by_cases h0 : pr.netloc = []
    · rw [if_pos h0]
    · rw [if_neg h0, hp]
      simp only
      rw [h1]
      simp only
      have hwp : ValidPort (portText p) := by
        cases p with
        | none => exact .inl rfl
        | some n => exact valid_strNat n (port_valid _ n hp)
      unfold setHostname parseHost
      by_cases e0 : hn = []
      · rw [if_pos e0]
      · rw [if_neg e0, if_neg (by rw [h2]; exact Bool.false_ne_true), h3]
        simp only
        obtain ⟨n, hs⟩ := splitHost_plain t h4
        rw [hs]
        simp only [portState]
        rcases setPort_cases { u with host := n, hostname := n, port := portText p } (portText p) with ⟨_, e⟩ | ⟨hv', _⟩
        · rw [e]
        · exact absurd hwp hv'

/-- **C24** If assigning to `href` raises an error, nothing is changed.  Missing: URLs with an
invalid port or host or a backslash in the path, see `href_violated`. -/
theorem href_partial (lib : Lib) (u : URL) (url : Str) (e : PyErr) (hg : ∀ pr, urlsplit url = .ok pr → Acceptable lib pr)
    (h : (setHref lib u url).2 = some e) : (setHref lib u url).1 = u := by
  unfold setHref parseUrl at h ⊢
  cases hs : urlsplit url with
  | error e' => rfl
  | ok pr =>
    have ha := hg pr hs
    rw [hs] at h
    simp only at h ⊢
    by_cases hc : (pr.scheme = [] ∧ pr.netloc = []) ∨ (opaqueScheme pr.scheme = true ∧ pr.path = [])
    · rw [if_pos hc]
    rw [if_neg hc] at h ⊢
    rcases andThen_error _ _ _ h with ⟨h1, h2⟩ | ⟨_, h1, h2⟩
    · rw [h2]; exact setProtocol_error lib u _ _ h1
    exfalso
    rcases andThen_error _ _ _ h1 with ⟨h3, _⟩ | ⟨_, h3, _⟩
    · rw [parseNetloc_ok lib _ pr ha] at h3; cases h3
    rcases andThen_error _ _ _ h3 with ⟨h4, _⟩ | ⟨_, h4, _⟩
    · cases h4
    rcases andThen_error _ _ _ h4 with ⟨h5, _⟩ | ⟨_, h5, _⟩
    · cases h5
    rcases andThen_error _ _ _ h5 with ⟨h6, _⟩ | ⟨_, h6, _⟩
    · unfold setPathname at h6
      split at h6
      · cases h6
      · split at h6
        · rename_i h7; exact ha.1 h7.2.2
        · cases h6
    rcases andThen_error _ _ _ h6 with ⟨h7, _⟩ | ⟨_, h7, _⟩
    · cases h7
    · cases h7

/-- Some URLs the theorem speaks about: one that is refused, and one that is accepted. -/
example : (∀ pr, urlsplit "a/b?c".toList = .ok pr → Acceptable plain pr) ∧ (setHref plain blank "a/b?c".toList).2 = some .valueError ∧
    (∀ pr, urlsplit "http://u@h:80/p".toList = .ok pr → Acceptable plain pr) ∧ (setHref plain blank "http://u@h:80/p".toList).2 = none := by
  refine ⟨?_, by decide +kernel, ?_, by decide +kernel⟩
  · intro pr h
    have e : urlsplit "a/b?c".toList = .ok ⟨[], [], "a/b".toList, "c".toList, []⟩ := by decide +kernel
    rw [e] at h
    cases h
    exact ⟨by decide, .inl rfl⟩
  · intro pr h
    have e : urlsplit "http://u@h:80/p".toList = .ok ⟨"http".toList, "u@h:80".toList, "/p".toList, [], []⟩ := by decide +kernel
    rw [e] at h
    cases h
    exact ⟨by decide, .inr ⟨⟨some 80, by decide⟩, "h".toList, "h".toList, by decide, by decide, by decide, .inl (by decide)⟩⟩

/-- **C24** is violated: an invalid port changes the protocol, a forbidden character in the host the
port as well, and a backslash in the path everything in front of it. -/
theorem href_violated :
    (∃ u, setHref plain (sample "http:" "h" "h:81" "81") "ftp://k:99999/".toList = (u, some .valueError) ∧ u.protocol = "ftp:".toList ∧ u.hostname = "h".toList) ∧
      (∃ u, setHref plain (sample "http:" "h" "h:81" "81") "ftp://a%b:82/".toList = (u, some .valueError) ∧ u.protocol = "ftp:".toList ∧
        u.port = "82".toList ∧ u.host = "h:81".toList) ∧
      (∃ u, setHref plain (sample "http:" "h" "h:81" "81") "ftp://k/a\\b".toList = (u, some .valueError) ∧ u.protocol = "ftp:".toList ∧ u.host = "k".toList) :=
  ⟨⟨_, rfl, by decide +kernel, by decide +kernel⟩, ⟨_, rfl, by decide +kernel, by decide +kernel, by decide +kernel⟩,
    ⟨_, rfl, by decide +kernel, by decide +kernel⟩⟩

/-! ### Nothing old remains -/

theorem setProtocol_ok (lib : Lib) (u : URL) (s : Str) (h : (setProtocol lib u s).2 = none) :
    ∃ q, ∀ v, setProtocol lib v s = ({ v with protocol := q }, none) := by
  unfold setProtocol at h ⊢
  by_cases h0 : s = []
  · exact ⟨[], fun v => by rw [if_pos h0]⟩
  rw [if_neg h0] at h
  cases hl : lib.lower (rstripColon s) with
  | nil => rw [hl] at h; cases h
  | cons c cs =>
    rw [hl] at h
    simp only at h
    split at h
    · cases h
    · rename_i hb
      refine ⟨c :: cs ++ [':'], fun v => ?_⟩
      rw [if_neg h0]
      simp only
      rw [if_neg hb]

theorem setPort_ok (u : URL) (p : Str) (h : (setPort u p).2 = none) :
    ∀ v, setPort v p = ({ v with port := p, host := hostSpec v.protocol v.hostname p }, none) := by
  intro v
  rcases setPort_cases v p with ⟨_, e⟩ | ⟨hv, _⟩
  · exact e
  · rcases setPort_cases u p with ⟨hv', _⟩ | ⟨_, e⟩
    · exact absurd hv' hv
    · rw [e] at h; cases h

theorem setHostname_ok (lib : Lib) (u : URL) (s : Str) (h : (setHostname lib u s).2 = none) :
    ∀ v, v.protocol = u.protocol → v.port = u.port →
      ∃ a b c, setHostname lib u s = ({ u with hostname := a, host := b, port := c }, none) ∧
        setHostname lib v s = ({ v with hostname := a, host := b, port := c }, none) := by
  intro v e1 e2
  unfold setHostname parseHost at h ⊢
  by_cases h0 : s = []
  · simp only [if_pos h0]
    exact ⟨[], [], u.port, rfl, by simp [e2]⟩
  simp only [if_neg h0] at h ⊢
  by_cases hb : s.any badHostChar = true
  · rw [if_pos hb] at h; cases h
  simp only [if_neg hb] at h ⊢
  cases hi : lib.idna (lib.lower s) with
  | error e => rw [hi] at h; cases h
  | ok t =>
    rw [hi] at h
    simp only at h ⊢
    cases hs : splitHost t with
    | error e => rw [hs] at h; cases h
    | ok np =>
      obtain ⟨n, p⟩ := np
      rw [hs] at h
      simp only at h ⊢
      cases p with
      | none =>
        simp only [portState] at h ⊢
        have := setPort_ok _ _ h
        rw [e2, this, this]
        exact ⟨_, _, _, rfl, by simp [e1]⟩
      | some p =>
        simp only [portState] at h ⊢
        by_cases hp : p.length > 0
        · simp only [if_pos hp] at h ⊢
          have := setPort_ok _ _ h
          rw [this, this]
          exact ⟨_, _, _, rfl, by simp [e1]⟩
        · simp only [if_neg hp] at h ⊢
          exact ⟨n, n, u.port, rfl, by simp [e2]⟩

theorem parseNetloc_fresh (lib : Lib) (u v : URL) (netloc : Str) (h : (parseNetloc lib u netloc).2 = none) (e1 : v.protocol = u.protocol) :
    ∃ a b c, parseNetloc lib u netloc = ({ u with hostname := a, host := b, port := c }, none) ∧
      parseNetloc lib v netloc = ({ v with hostname := a, host := b, port := c }, none) := by
  unfold parseNetloc at h ⊢
  by_cases h0 : netloc = []
  · simp only [if_pos h0]
    exact ⟨[], [], [], rfl, rfl⟩
  simp only [if_neg h0] at h ⊢
  cases hp : port netloc with
  | error e => rw [hp] at h; cases h
  | ok p =>
    rw [hp] at h
    simp only at h ⊢
    cases hh : hostname netloc with
    | none => rw [hh] at h; cases h
    | some hn =>
      rw [hh] at h
      simp only at h ⊢
      obtain ⟨a, b, c, x, y⟩ := setHostname_ok lib _ hn h { v with port := portText p } e1 rfl
      exact ⟨a, b, c, by rw [x], by rw [y]⟩

theorem andThen_none (r : Res) (f : URL → Res) (h : (andThen r f).2 = none) : r.2 = none ∧ (f r.1).2 = none ∧ andThen r f = f r.1 := by
  unfold andThen at h ⊢
  cases hr : r.2 with
  | none => rw [hr] at h; exact ⟨rfl, h, rfl⟩
  | some e' => rw [hr] at h; cases h

/-- **C24** If assigning to `href` raises no error, nothing of the old URL remains: the object is
the one that is constructed from the text. -/
theorem href_fresh (lib : Lib) (u : URL) (url : Str) (h : (setHref lib u url).2 = none) : setHref lib u url = setHref lib blank url := by
  unfold setHref parseUrl at h ⊢
  cases hs : urlsplit url with
  | error e' => rw [hs] at h; cases h
  | ok pr =>
    rw [hs] at h
    simp only at h ⊢
    by_cases hc : (pr.scheme = [] ∧ pr.netloc = []) ∨ (opaqueScheme pr.scheme = true ∧ pr.path = [])
    · rw [if_pos hc] at h; cases h
    rw [if_neg hc] at h
    rw [if_neg hc, if_neg hc]
    obtain ⟨h1, h2, _⟩ := andThen_none _ _ h
    obtain ⟨q, hq⟩ := setProtocol_ok lib u pr.scheme h1
    rw [hq] at h2 ⊢
    rw [hq]
    obtain ⟨h3, h4, _⟩ := andThen_none _ _ h2
    obtain ⟨a, b, c, x, y⟩ := parseNetloc_fresh lib { u with protocol := q } { blank with protocol := q } pr.netloc h3 rfl
    simp only [andThen]
    rw [x, y]
    simp only [setUsername, setPassword]
    unfold setPathname
    simp only
    by_cases p0 : pr.path = []
    · rw [if_pos p0, if_pos p0]
      rfl
    · rw [if_neg p0, if_neg p0]
      by_cases p1 : q.length > 0 ∧ Dict.contains specialPorts q = true ∧ '\\' ∈ pr.path
      · exfalso
        rw [x] at h4
        simp only [setUsername, setPassword, andThen] at h4
        unfold setPathname at h4
        simp only at h4
        rw [if_neg p0, if_pos p1] at h4
        cases h4
      · rw [if_neg p1, if_neg p1]
        rfl

/-! ### The base URL -/

theorem resolve_frame (lib : Lib) (b : URL) (url : Str) :
    ∃ p s h, (resolve lib b url).1 = { b with pathname := p, params := s, hash := h } := by
  have path : ∀ (b : URL) (t : Str), ∃ p, (setPathname lib b t).1 = { b with pathname := p } := by
    intro b t
    unfold setPathname
    split
    · exact ⟨_, rfl⟩
    · split
      · exact ⟨b.pathname, rfl⟩
      · exact ⟨_, rfl⟩
  have tail : ∀ (t q f : Str), ∃ p s h, (andThen (setPathname lib b t) fun b => andThen (setSearch b q) fun b => setHash lib b f).1 =
      { b with pathname := p, params := s, hash := h } := by
    intro t q f
    obtain ⟨p, hp⟩ := path b t
    unfold andThen
    cases (setPathname lib b t).2 with
    | some e => exact ⟨p, b.params, b.hash, hp⟩
    | none =>
      simp only
      rw [hp]
      exact ⟨_, _, _, rfl⟩
  unfold resolve
  split
  · exact tail _ _ _
  · split
    · exact ⟨b.pathname, b.params, b.hash, rfl⟩
    · exact tail _ _ _

/-- **C23** Constructing a URL leaves the base object as it was.  Missing: references that are not
complete URLs, see `base_violated`. -/
theorem base_partial (lib : Lib) (url : Str) (b : URL) (h : (parseUrl lib blank url).2 = none ∨ opaqueProtocol b.protocol = true) :
    (construct lib url (some b)).2 = some b := by
  unfold construct
  simp only
  rcases hr : parseUrl lib blank url with ⟨u, e⟩
  rw [hr] at h
  cases e with
  | none => rfl
  | some e =>
    have h : opaqueProtocol b.protocol = true := by
      rcases h with h | h
      · cases h
      · exact h
    rw [if_pos h]

example : (parseUrl plain blank "http://h/p".toList).2 = none := by decide +kernel

/-- **C23** Protocol, user, password, host name and port of the base object are left as they were in
any case. -/
theorem base_frame (lib : Lib) (url : Str) (b : URL) :
    ∃ b', (construct lib url (some b)).2 = some b' ∧ b'.protocol = b.protocol ∧ b'.username = b.username ∧ b'.password = b.password ∧
      b'.hostname = b.hostname ∧ b'.port = b.port := by
  unfold construct
  simp only
  rcases hr : parseUrl lib blank url with ⟨u, e⟩
  cases e with
  | none => exact ⟨b, rfl, rfl, rfl, rfl, rfl, rfl⟩
  | some e =>
    by_cases h : opaqueProtocol b.protocol = true
    · rw [if_pos h]; exact ⟨b, rfl, rfl, rfl, rfl, rfl, rfl⟩
    rw [if_neg h]
    simp only
    by_cases he : e = .valueError
    · rw [if_pos he]
      obtain ⟨p, s, hh, hf⟩ := resolve_frame lib b url
      rcases hres : resolve lib b url with ⟨b', e'⟩
      rw [hres] at hf
      simp only at hf
      cases e' with
      | some e' => exact ⟨b', rfl, by simp [hf], by simp [hf], by simp [hf], by simp [hf], by simp [hf]⟩
      | none =>
        simp only
        have hb : (readHost b').protocol = b.protocol ∧ (readHost b').username = b.username ∧ (readHost b').password = b.password ∧
            (readHost b').hostname = b.hostname ∧ (readHost b').port = b.port := by
          unfold readHost
          split <;> simp [hf]
        rcases parseUrl lib u (href lib b') with ⟨u', e''⟩
        cases e'' <;> exact ⟨readHost b', rfl, hb⟩
    · rw [if_neg he]; exact ⟨b, rfl, rfl, rfl, rfl, rfl, rfl⟩

/-- **C23** is violated: resolving `c` against `http://h/a/b?q=1#f` turns the base object into the
resolved URL. -/
theorem base_violated : ∃ b b' u, (construct plain "http://h/a/b?q=1#f".toList none).1 = .ok b ∧ href plain b = "http://h/a/b?q=1#f".toList ∧
    construct plain "c".toList (some b) = (.ok u, some b') ∧ href plain u = "http://h/a/c".toList ∧ href plain b' = "http://h/a/c".toList := by
  refine ⟨_, _, _, rfl, by decide +kernel, rfl, by decide +kernel, by decide +kernel⟩

end SvgPy.Url
