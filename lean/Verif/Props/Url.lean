import Verif.Model.Url
import Verif.Props.Formatter
import Verif.Lemmas.PyStr
import Verif.Lemmas.PyDict
import Mathlib.Tactic.Tauto

/-! Properties C23 (base URL), C24 (failing assignment of href) and C25 (host and port). -/

set_option linter.unusedSimpArgs false

namespace SvgPy.Url

open SvgPy.UrlSplit

/-! ### Specification -/

/-- Ports that are left out after a host. -/
def wellKnownPort (protocol : Str) : Option Str :=
  if protocol = "http:".toList ∨ protocol = "ws:".toList then some "80".toList
  else if protocol = "https:".toList ∨ protocol = "wss:".toList then some "443".toList
  else if protocol = "ftp:".toList then some "21".toList
  else if protocol = "gopher:".toList then some "70".toList
  else none

/-- The host of a URL: the host name, followed by the port unless this is the one of the protocol. -/
def hostSpec (protocol hostname port : Str) : Str :=
  if hostname = [] ∨ port = [] ∨ wellKnownPort protocol = some port then hostname
  else hostname ++ ":".toList ++ port

/-- Empty, or digits standing for a number below 65536. -/
def ValidPort (p : Str) : Prop := p = [] ∨ ∃ n, Formatter.readDigits 0 p = some n ∧ n < 65536

/-- The stored host agrees with host name, port and protocol. -/
def Consistent (u : URL) : Prop := u.host = hostSpec u.protocol u.hostname u.port ∧ ValidPort u.port

/-! ### Lemmas -/

theorem default_of (q p d : Str) (h1 : defaultPort q = d) (h2 : wellKnownPort q = some d) : defaultPort q = p ↔ wellKnownPort q = some p := by
  rw [h1, h2, Option.some.injEq]

theorem defaultPort_spec (q p : Str) (hp : p ≠ []) : defaultPort q = p ↔ wellKnownPort q = some p := by
  by_cases h1 : q = "ftp:".toList
  · subst h1; exact default_of _ _ "21".toList (by decide) (by decide)
  by_cases h2 : q = "file:".toList
  · subst h2
    have e1 : defaultPort "file:".toList = [] := by decide
    have e2 : wellKnownPort "file:".toList = none := by decide
    rw [e1, e2]
    exact ⟨fun h => absurd h.symm hp, fun h => by cases h⟩
  by_cases h3 : q = "gopher:".toList
  · subst h3; exact default_of _ _ "70".toList (by decide) (by decide)
  by_cases h4 : q = "http:".toList
  · subst h4; exact default_of _ _ "80".toList (by decide) (by decide)
  by_cases h5 : q = "https:".toList
  · subst h5; exact default_of _ _ "443".toList (by decide) (by decide)
  by_cases h6 : q = "ws:".toList
  · subst h6; exact default_of _ _ "80".toList (by decide) (by decide)
  by_cases h7 : q = "wss:".toList
  · subst h7; exact default_of _ _ "443".toList (by decide) (by decide)
  have g : Dict.get? specialPorts q = none := by
    rw [Dict.get?_eq_none_iff]
    intro hm
    have hm : q ∈ ["ftp:".toList, "file:".toList, "gopher:".toList, "http:".toList, "https:".toList, "ws:".toList, "wss:".toList] := hm
    simp only [List.mem_cons, List.not_mem_nil, or_false] at hm
    rcases hm with hm | hm | hm | hm | hm | hm | hm
    · exact h1 hm
    · exact h2 hm
    · exact h3 hm
    · exact h4 hm
    · exact h5 hm
    · exact h6 hm
    · exact h7 hm
  have w : wellKnownPort q = none := by
    unfold wellKnownPort
    rw [if_neg (fun h => h.elim h4 h6), if_neg (fun h => h.elim h5 h7), if_neg h1, if_neg h3]
  unfold defaultPort
  rw [g, w]
  exact ⟨fun h => absurd h.symm hp, fun h => by cases h⟩

theorem digitVal_isDigit (c : Char) : Formatter.digitVal c = if c.isDigit then some (c.toNat - 48) else none := by
  unfold Formatter.digitVal
  have : (48 ≤ c.toNat ∧ c.toNat ≤ 57) ↔ c.isDigit = true := by
    unfold Char.isDigit
    simp only [Bool.and_eq_true, decide_eq_true_eq, ge_iff_le, UInt32.le_iff_toNat_le]
    rfl
  by_cases h : c.isDigit = true
  · rw [if_pos (this.2 h), if_pos h]
  · rw [if_neg (fun hh => h (this.1 hh)), if_neg h]

theorem readDigits_iff (p : Str) (acc n : Nat) :
    Formatter.readDigits acc p = some n ↔ p.all Char.isDigit = true ∧ p.foldl (fun n c => 10 * n + (c.toNat - 48)) acc = n := by
  induction p generalizing acc with
  | nil => simp [Formatter.readDigits]
  | cons c p ih =>
    rw [Formatter.readDigits, digitVal_isDigit]
    by_cases h : c.isDigit = true
    · rw [if_pos h]; simp only; rw [ih]; simp [h]
    · rw [if_neg h]; simp [h]

theorem setPort_cases (u : URL) (p : Str) :
    (ValidPort p ∧ setPort u p = ({ u with port := p, host := hostSpec u.protocol u.hostname p }, none)) ∨
      (¬ ValidPort p ∧ setPort u p = (u, some .valueError)) := by
  unfold setPort
  by_cases h0 : p = []
  · left
    rw [if_pos h0]
    subst h0
    exact ⟨.inl rfl, by simp [hostSpec]⟩
  rw [if_neg h0]
  by_cases hb : (!p.all Char.isDigit || decide (intVal p > 65535)) = true
  · right
    rw [if_pos hb]
    refine ⟨?_, rfl⟩
    rintro (h | ⟨n, h1, h2⟩)
    · exact h0 h
    · obtain ⟨a, b⟩ := (readDigits_iff p 0 n).1 h1
      have : intVal p = n := b
      simp only [Bool.or_eq_true, Bool.not_eq_true', decide_eq_true_eq] at hb
      rcases hb with hb | hb
      · rw [a] at hb; cases hb
      · omega
  · left
    rw [if_neg hb]
    simp only [Bool.or_eq_true, Bool.not_eq_true', decide_eq_true_eq, not_or, Bool.not_eq_false] at hb
    refine ⟨.inr ⟨intVal p, (readDigits_iff p 0 _).2 ⟨hb.1, rfl⟩, by omega⟩, ?_⟩
    congr 2
    unfold hostSpec
    by_cases h1 : u.hostname = []
    · simp [h1]
    · by_cases h2 : wellKnownPort u.protocol = some p
      · rw [if_neg (by rintro ⟨_, h⟩; exact h ((defaultPort_spec _ _ h0).2 h2)), if_pos (by tauto)]
      · rw [if_pos ⟨h1, fun h => h2 ((defaultPort_spec _ _ h0).1 h)⟩, if_neg (by tauto)]
        simp

/-- Reading a consistent URL gives the host. -/
theorem readHost_consistent (u : URL) (h : Consistent u) : readHost u = u := by
  unfold readHost
  split
  · rename_i hc
    have h0 : u.port ≠ [] := by intro e; rw [e] at hc; simp at hc
    have := (defaultPort_spec _ _ h0).1 hc.2
    have e : u.host = u.hostname := by
      rw [h.1]; unfold hostSpec; rw [if_pos (.inr (.inr this))]
    obtain ⟨a1, a2, a3, a4, a5, a6, a7, a8, a9⟩ := u
    simp only at e
    simp only [e]
  · rfl

/-! ### Host, host name, port and protocol -/

/-- **C25** Assigning the port: the port is what was assigned and the host follows; an invalid
port is refused and nothing is changed. -/
theorem port_spec (u : URL) (p : Str) :
    (ValidPort p ∧ ∃ u', setPort u p = (u', none) ∧ Consistent u' ∧ u'.port = p ∧ u'.hostname = u.hostname ∧ u'.protocol = u.protocol) ∨
      (¬ ValidPort p ∧ setPort u p = (u, some .valueError)) := by
  rcases setPort_cases u p with ⟨h, e⟩ | h
  · exact .inl ⟨h, _, e, ⟨rfl, h⟩, rfl, rfl, rfl⟩
  · exact .inr h

/-- **C25** Assigning the host: if no error is raised, host name, port and host agree. -/
theorem host_spec (lib : Lib) (u : URL) (s : Str) (h : (setHost lib u s).2 = none) :
    Consistent (setHost lib u s).1 ∧ (setHost lib u s).1.protocol = u.protocol := by
  unfold setHost parseHost at h ⊢
  by_cases h0 : s = []
  · rw [if_pos h0]
    exact ⟨⟨by simp [hostSpec], .inl rfl⟩, rfl⟩
  rw [if_neg h0] at h ⊢
  by_cases hb : s.any badHostChar = true
  · rw [if_pos hb] at h; cases h
  rw [if_neg hb] at h ⊢
  cases hi : lib.idna (lib.lower s) with
  | error e => rw [hi] at h; cases h
  | ok t =>
    rw [hi] at h
    simp only at h ⊢
    cases hs : splitHost t with
    | error e => rw [hs] at h; cases h
    | ok np =>
      obtain ⟨n, p⟩ := np
      rw [hs] at h
      simp only at h ⊢
      cases p with
      | none => exact ⟨⟨by simp [portState, hostSpec], .inl rfl⟩, rfl⟩
      | some p =>
        simp only [portState] at h ⊢
        rcases setPort_cases { u with host := n, hostname := n } p with ⟨hv, e⟩ | ⟨hv, e⟩
        · rw [e]; exact ⟨⟨rfl, hv⟩, rfl⟩
        · rw [e] at h; cases h

/-- **C25** Assigning the host name without a colon: the port is kept, and the host follows; if an
error is raised, nothing is changed.  With a colon see `hostname_violated`. -/
theorem hostname_spec (lib : Lib) (u : URL) (s : Str) (hu : ValidPort u.port) (hc : ∀ t, lib.idna (lib.lower s) = .ok t → ':' ∉ t) :
    ((setHostname lib u s).2 = none ∧ Consistent (setHostname lib u s).1 ∧ (setHostname lib u s).1.port = u.port ∧
      (setHostname lib u s).1.protocol = u.protocol) ∨
      (∃ e, setHostname lib u s = (u, some e)) := by
  unfold setHostname parseHost
  by_cases h0 : s = []
  · rw [if_pos h0]
    exact .inl ⟨rfl, ⟨by simp [hostSpec], hu⟩, rfl, rfl⟩
  rw [if_neg h0]
  by_cases hb : s.any badHostChar = true
  · rw [if_pos hb]; exact .inr ⟨_, rfl⟩
  rw [if_neg hb]
  cases hi : lib.idna (lib.lower s) with
  | error e => exact .inr ⟨e, rfl⟩
  | ok t =>
    have ht := hc t hi
    have hs : splitHost t = .ok (t, none) := by
      unfold splitHost
      rw [if_neg (by rw [List.count_eq_zero_of_not_mem ht]; omega), (PyStr.cut_none_iff ':' t).2 ht]
    simp only
    rw [hs]
    simp only [portState]
    rcases setPort_cases { u with host := t, hostname := t } u.port with ⟨hv, e⟩ | ⟨hv, e⟩
    · left; rw [e]; exact ⟨rfl, ⟨rfl, hv⟩, rfl, rfl⟩
    · exact absurd hu hv

/-- Assigning the protocol changes nothing else. -/
theorem protocol_frame (lib : Lib) (u : URL) (s : Str) :
    ∃ q, (setProtocol lib u s).1 = { u with protocol := q } := by
  unfold setProtocol
  split
  · exact ⟨_, rfl⟩
  · split
    · exact ⟨u.protocol, rfl⟩
    · split
      · exact ⟨u.protocol, rfl⟩
      · exact ⟨_, rfl⟩

/-- Assignments and reading of the host or of href. -/
inductive Op
  | protocol (s : Str)
  | host (s : Str)
  | hostname (s : Str)
  | port (s : Str)
  | read

/-- The object after an operation, whether it raised an error or not. -/
def step (lib : Lib) (u : URL) : Op → URL
  | .protocol s => (setProtocol lib u s).1
  | .host s => (setHost lib u s).1
  | .hostname s => (setHostname lib u s).1
  | .port s => (setPort u s).1
  | .read => readHost u

/-- The operations for which the claim holds: the protocol is not assigned if this makes the port
the default one, or makes it cease to be; the host is not assigned with an invalid port; the host
name has no colon. -/
def Fine (lib : Lib) (u : URL) : Op → Prop
  | .protocol s => u.port = [] ∨ (wellKnownPort u.protocol = some u.port ↔ wellKnownPort (setProtocol lib u s).1.protocol = some u.port)
  | .host s => (setHost lib u s).2 = none
  | .hostname s => ∀ t, lib.idna (lib.lower s) = .ok t → ':' ∉ t
  | .port _ => True
  | .read => True

def FineRun (lib : Lib) (u : URL) : List Op → Prop
  | [] => True
  | o :: os => Fine lib u o ∧ FineRun lib (step lib u o) os

theorem step_consistent (lib : Lib) (u : URL) (o : Op) (h : Consistent u) (hf : Fine lib u o) : Consistent (step lib u o) := by
  cases o with
  | protocol s =>
    obtain ⟨q, e⟩ := protocol_frame lib u s
    simp only [Fine, step] at hf ⊢
    rw [e] at hf ⊢
    refine ⟨?_, h.2⟩
    show u.host = _
    rw [h.1]
    unfold hostSpec
    simp only at hf ⊢
    rcases hf with hf | hf
    · rw [if_pos (.inr (.inl hf)), if_pos (.inr (.inl hf))]
    · by_cases hw : wellKnownPort u.protocol = some u.port
      · rw [if_pos (.inr (.inr hw)), if_pos (.inr (.inr (hf.1 hw)))]
      · have hw' : ¬ wellKnownPort q = some u.port := fun x => hw (hf.2 x)
        by_cases h' : u.hostname = [] ∨ u.port = []
        · rw [if_pos (by tauto), if_pos (by tauto)]
        · rw [if_neg (by tauto), if_neg (by tauto)]
  | host s => exact (host_spec lib u s hf).1
  | hostname s =>
    rcases hostname_spec lib u s h.2 hf with h1 | ⟨e, h1⟩
    · exact h1.2.1
    · simp only [step]; rw [h1]; exact h
  | port s =>
    rcases port_spec u s with ⟨_, u', e, h1, _⟩ | ⟨_, e⟩
    · simp only [step]; rw [e]; exact h1
    · simp only [step]; rw [e]; exact h
  | read => simp only [step]; rw [readHost_consistent u h]; exact h

/-- **C25** After any sequence of assignments and readings, the host is the host name followed by
the port unless this is the one of the protocol.  Missing: assignments that are not `Fine`, see
`protocol_violated`, `hostname_violated`, `host_error_violated` and `read_violated`. -/
theorem host_partial (lib : Lib) (u : URL) (os : List Op) (h : Consistent u) (hf : FineRun lib u os) :
    Consistent (os.foldl (step lib) u) ∧
      (readHost (os.foldl (step lib) u)).host =
        hostSpec (os.foldl (step lib) u).protocol (os.foldl (step lib) u).hostname (os.foldl (step lib) u).port := by
  have key : Consistent (os.foldl (step lib) u) := by
    induction os generalizing u with
    | nil => exact h
    | cons o os ih => exact ih _ (step_consistent lib u o h hf.1) hf.2
  exact ⟨key, by rw [readHost_consistent _ key]; exact key.1⟩

theorem getPathname_slash (u : URL) (h : opaqueProtocol u.protocol = false) : ∃ t, getPathname u = '/' :: t := by
  unfold getPathname
  rw [h]
  cases hq : u.pathname with
  | nil => exact ⟨[], rfl⟩
  | cons a l =>
    by_cases ha : a = '/'
    · subst ha; exact ⟨l, rfl⟩
    · have : isabs (a :: l) = false := by unfold isabs; simp [ha]
      rw [this]; exact ⟨_, rfl⟩

/-- **C25** The text of a URL shows protocol, user, host, and what follows begins with a slash.
Files, protocols without host and URLs without protocol do not show it. -/
theorem href_host (lib : Lib) (u : URL) (h : Consistent u) (hp : u.protocol ≠ [])
    (hn : u.protocol ∉ ["file:".toList, "about:".toList, "blob:".toList, "data:".toList]) (hh : u.hostname ≠ []) :
    ∃ user rest, href lib u = u.protocol ++ "//".toList ++ user ++ hostSpec u.protocol u.hostname u.port ++ rest ∧ rest.head? = some '/' ∧
      (user = [] ∨ ∃ t, user = t ++ "@".toList) := by
  simp only [List.mem_cons, List.not_mem_nil, or_false, not_or] at hn
  have ho : opaqueProtocol u.protocol = false := by
    unfold opaqueProtocol
    simp [hn.2.1, hn.2.2.1, hn.2.2.2]
    have := hn.2.1; have := hn.2.2.1; have := hn.2.2.2
    simp_all
  have hhost : (readHost u).host ≠ [] := by
    rw [readHost_consistent u h, h.1]
    unfold hostSpec
    split
    · exact hh
    · simp
  unfold href hrefWith
  rw [ho, if_neg hp]
  simp only [Bool.false_eq_true, if_false]
  rw [if_pos ⟨hhost, hn.1⟩]
  rw [readHost_consistent u h, h.1]
  refine ⟨userText u, getPathname u ++ (if hostSpec u.protocol u.hostname u.port ≠ [] ∨ getPathname u ≠ [] then
    getSearch lib u ++ getHash u else []), ?_, ?_, ?_⟩
  · simp
  · obtain ⟨t, ht⟩ := getPathname_slash u ho
    rw [ht]
    rfl
  · unfold userText
    split
    · exact .inl rfl
    · exact .inr ⟨_, rfl⟩

/-- A library for examples: ASCII lower case, nothing is quoted. -/
def plain : Lib where
  lower := fun s => s.map Char.toLower
  idna := fun s => .ok s
  unquote := id
  quoteUser := id
  quotePath := id
  quoteHash := id
  quoteQuery := id
  isdir := fun _ => false

/-- A URL with protocol, host name, host and port. -/
def sample (protocol hostname host port : String) : URL :=
  { blank with protocol := protocol.toList, hostname := hostname.toList, host := host.toList, port := port.toList }

/-- A non-trivial instance of the hypotheses of `host_partial`. -/
example : Consistent (sample "http:" "h" "h:8080" "8080") ∧
    FineRun plain (sample "http:" "h" "h:8080" "8080") [.protocol "https".toList, .hostname "example.org".toList, .port "443".toList, .read,
      .protocol "wss".toList, .host "[::1]:99".toList] := by
  refine ⟨⟨by decide, .inr ⟨8080, by decide, by decide⟩⟩, ?_⟩
  simp only [FineRun, Fine]
  refine ⟨.inr ?_, ?_, trivial, trivial, .inr ?_, ?_, trivial⟩
  · decide
  · intro t ht
    have : t = "example.org".toList := by
      have : (Except.ok "example.org".toList : Py Str) = .ok t := ht
      cases this; rfl
    rw [this]; decide
  · decide +kernel
  · decide +kernel

/-- **C25** is violated: with `http` and port 80, assigning `ftp` leaves the port out of the host. -/
theorem protocol_violated : Consistent (sample "http:" "h" "h" "80") ∧
    ∃ u, u = step plain (sample "http:" "h" "h" "80") (.protocol "ftp".toList) ∧ u.port = "80".toList ∧ (readHost u).host = "h".toList ∧
      hostSpec u.protocol u.hostname u.port = "h:80".toList :=
  ⟨⟨by decide, .inr ⟨80, by decide, by decide⟩⟩, _, rfl, by decide, by decide, by decide⟩

/-- **C25** is violated: assigning the host name `[::1]` leaves the port out of the host. -/
theorem hostname_violated : Consistent (sample "http:" "h" "h:8080" "8080") ∧
    ∃ u, u = step plain (sample "http:" "h" "h:8080" "8080") (.hostname "[::1]".toList) ∧ u.port = "8080".toList ∧
      (readHost u).host = "[::1]".toList ∧ hostSpec u.protocol u.hostname u.port = "[::1]:8080".toList :=
  ⟨⟨by decide, .inr ⟨8080, by decide, by decide⟩⟩, _, rfl, by decide, by decide, by decide⟩

/-- **C25** is violated: an assignment of the host that fails because of the port has replaced the
host name, and the host has lost its port. -/
theorem host_error_violated : Consistent (sample "http:" "h" "h:8080" "8080") ∧
    ∃ u, setHost plain (sample "http:" "h" "h:8080" "8080") "k:99999".toList = (u, some .valueError) ∧ u.hostname = "k".toList ∧
      u.port = "8080".toList ∧ (readHost u).host = "k".toList :=
  ⟨⟨by decide, .inr ⟨8080, by decide, by decide⟩⟩, _, rfl, by decide, by decide, by decide⟩

/-- **C25** is violated: reading the host in between changes the host afterwards. -/
theorem read_violated : Consistent (sample "http:" "h" "h:443" "443") ∧
    (readHost ([Op.protocol "https".toList, .protocol "http".toList].foldl (step plain) (sample "http:" "h" "h:443" "443"))).host = "h:443".toList ∧
      (readHost ([Op.protocol "https".toList, .read, .protocol "http".toList].foldl (step plain) (sample "http:" "h" "h:443" "443"))).host = "h".toList :=
  ⟨⟨by decide, .inr ⟨443, by decide, by decide⟩⟩, by decide, by decide⟩

end SvgPy.Url
