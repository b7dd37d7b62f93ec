import Verif.Model.UrlSplit
import Verif.Model.PyDict

/-! Model of the class `URL`, `/repo/svgpy/url.py` 210-584, on a POSIX system.

A setter that raises an error may have changed the object before: the result of a setter is the
object afterwards and the error, if any. -/

namespace SvgPy.Url

open SvgPy.UrlSplit

/-- Library functions that are left open: Unicode lower case, the IDNA codec, percent encoding and
decoding, and the file system. -/
structure Lib where
  lower : Str → Str
  /-- `s.encode('idna').decode()`, url.py 500. -/
  idna : Str → Py Str
  unquote : Str → Str
  /-- `quote(s, safe='')`, url.py 363, 489. -/
  quoteUser : Str → Str
  /-- `quote` in url.py 391. -/
  quotePath : Str → Str
  /-- `quote` in url.py 299-300. -/
  quoteHash : Str → Str
  /-- `quote_numeric_character_references(s, quote_plus, safe)`, url.py 37-55, 452-457. -/
  quoteQuery : Str → Str
  isdir : Str → Bool

/-- The attributes of a URL object, url.py 220-228. -/
structure URL where
  protocol : Str
  username : Str
  password : Str
  hostname : Str
  host : Str
  port : Str
  pathname : Str
  params : Dict Str Str
  hash : Str

/-- The initial attributes, url.py 220-228. -/
def blank : URL := ⟨[], [], [], [], [], [], [], [], []⟩

/-- The object after a call, and the error that was raised. -/
abbrev Res := URL × Option PyErr

/-- Continue unless an error was raised. -/
def andThen (r : Res) (f : URL → Res) : Res :=
  match r.2 with
  | none => f r.1
  | some e => (r.1, some e)

/-- `_SPECIAL_SCHEMES_PORT_NUMBERS`, url.py 22-30. -/
def specialPorts : Dict Str Str :=
  [("ftp:".toList, "21".toList), ("file:".toList, []), ("gopher:".toList, "70".toList), ("http:".toList, "80".toList),
    ("https:".toList, "443".toList), ("ws:".toList, "80".toList), ("wss:".toList, "443".toList)]

/-- `_SPECIAL_SCHEMES_PORT_NUMBERS.get(protocol, '')`. -/
def defaultPort (protocol : Str) : Str := (Dict.get? specialPorts protocol).getD []

/-- `protocol in ['about:', 'blob:', 'data:']`. -/
def opaqueProtocol (p : Str) : Bool := p == "about:".toList || p == "blob:".toList || p == "data:".toList

/-- `URL.host` (getter), url.py 302-311: reading may change the stored host.  The object after
reading; its `host` is the value. -/
def readHost (u : URL) : URL :=
  if u.port.length > 0 ∧ defaultPort u.protocol = u.port then { u with host := u.hostname } else u

/-- `URL.port` (setter), url.py 406-420; digits are ASCII digits. -/
def setPort (u : URL) (p : Str) : Res :=
  if p = [] then ({ u with port := [], host := u.hostname }, none)
  else if !p.all Char.isDigit || intVal p > 65535 then (u, some .valueError)
  else ({ u with port := p, host := if u.hostname ≠ [] ∧ defaultPort u.protocol ≠ p then u.hostname ++ ':' :: p else u.hostname }, none)

/-- `s.rstrip(':')`. -/
def rstripColon (s : Str) : Str := (s.reverse.dropWhile (· == ':')).reverse

/-- `URL.protocol` (setter), url.py 427-438; letters and digits are ASCII ones. -/
def setProtocol (lib : Lib) (u : URL) (p : Str) : Res :=
  if p = [] then ({ u with protocol := [] }, none)
  else match lib.lower (rstripColon p) with
    | [] => (u, some .indexError)
    | c :: cs =>
      if !c.isAlpha || !cs.all (fun ch => ch.isAlphanum || ch == '+' || ch == '-' || ch == '.') then (u, some .valueError)
      else ({ u with protocol := c :: cs ++ [':'] }, none)

/-- Characters refused in hosts, url.py 497. -/
def badHostChar (c : Char) : Bool := c ∈ "\t\n\r #%/?@\\".toList

/-- The host name and the text after the colon or bracket, url.py 501-521. -/
def splitHost (h : Str) : Py (Str × Option Str) :=
  if h.count ':' > 1 then
    if h.head? = some '[' then
      match rcut ']' h with
      | none => .error .valueError
      | some (a, b) => .ok (a ++ [']'], some (b.drop 1))
    else .ok ('[' :: h ++ [']'], none)
  else match PyStr.cut ':' h with
    | some (a, b) => .ok (a, some b)
    | none => .ok (h, none)

/-- The port after the host name, url.py 522-535. -/
def portState (u : URL) (p : Option Str) (hostnameState : Bool) : Res :=
  match hostnameState, p with
  | false, none => ({ u with port := [] }, none)
  | false, some p => setPort u p
  | true, none => setPort u u.port
  | true, some p => if p.length > 0 then setPort u p else (u, none)

/-- `URL._parse_host`, url.py 491-535. -/
def parseHost (lib : Lib) (u : URL) (host : Str) (hostnameState : Bool) : Res :=
  if host = [] then ({ u with host := [], hostname := [], port := if hostnameState then u.port else [] }, none)
  else if host.any badHostChar then (u, some .valueError)
  else match lib.idna (lib.lower host) with
    | .error e => (u, some e)
    | .ok h => match splitHost h with
      | .error e => (u, some e)
      | .ok (n, p) => portState { u with host := n, hostname := n } p hostnameState

/-- `URL.host` (setter), url.py 313-315. -/
def setHost (lib : Lib) (u : URL) (h : Str) : Res := parseHost lib u h false

/-- `URL.hostname` (setter), url.py 322-324. -/
def setHostname (lib : Lib) (u : URL) (h : Str) : Res := parseHost lib u h true

/-- `URL.pathname` (getter), url.py 365-375. -/
def getPathname (u : URL) : Str :=
  if !opaqueProtocol u.protocol && !isabs u.pathname then '/' :: u.pathname
  else if opaqueProtocol u.protocol && isabs u.pathname then u.pathname.drop 1
  else u.pathname

/-- The normalised path, url.py 386-398. -/
def cleanPath (lib : Lib) (protocol : Str) (p : Str) : Str :=
  let q :=
    if protocol = "blob:".toList ∨ protocol = "data:".toList then p
    else
      let q := lib.quotePath ((lib.unquote p).map fun c => if c = '\\' then '/' else c)
      let n := (normpath q).map fun c => if c = '\\' then '/' else c
      if q.length ≥ 2 ∧ q.getLast? = some '/' ∧ n.getLast? ≠ some '/' then n ++ ['/'] else n
  if !opaqueProtocol protocol && !isabs q then '/' :: q else q

/-- `URL.pathname` (setter), url.py 377-399. -/
def setPathname (lib : Lib) (u : URL) (p : Str) : Res :=
  if p = [] then ({ u with pathname := [] }, none)
  else if u.protocol.length > 0 ∧ Dict.contains specialPorts u.protocol = true ∧ '\\' ∈ p then (u, some .valueError)
  else ({ u with pathname := cleanPath lib u.protocol p }, none)

/-- One pair of a query, url.py 470-475. -/
def queryPair (pair : Str) : Str × Str :=
  let plus := fun s : Str => s.map fun c => if c = '+' then ' ' else c
  match PyStr.splitOn '=' pair with
  | [] => ([], [])
  | [k] => (plus k, [])
  | k :: v :: _ => (plus k, plus v)

/-- The parameters of a query, url.py 464-475. -/
def parseQuery (q : Str) : Dict Str Str :=
  let q := q.dropWhile (· == '?')
  if q = [] then [] else Dict.ofPairs ((PyStr.splitOn '&' q).map queryPair)

/-- `URL.search` (setter), url.py 462-475. -/
def setSearch (u : URL) (q : Str) : Res := ({ u with params := parseQuery q }, none)

/-- `URL.search` (getter), url.py 440-460. -/
def getSearch (lib : Lib) (u : URL) : Str :=
  if u.params.length = 0 then []
  else '?' :: PyStr.join ['&'] ((PyStr.sorted (Dict.keys u.params)).map fun k =>
    lib.quoteQuery k ++ '=' :: lib.quoteQuery ((Dict.get? u.params k).getD []))

/-- `URL.hash` (setter), url.py 294-300. -/
def setHash (lib : Lib) (u : URL) (h : Str) : Res :=
  ({ u with hash := lib.quoteHash (lib.unquote (h.dropWhile (· == '#'))) }, none)

/-- `URL.hash` (getter), url.py 289-292. -/
def getHash (u : URL) : Str := if u.hash.length > 0 then '#' :: u.hash else []

/-- `URL.username` (setter), url.py 487-489. -/
def setUsername (lib : Lib) (u : URL) (s : Str) : Res := ({ u with username := lib.quoteUser (lib.unquote s) }, none)

/-- `URL.password` (setter), url.py 361-363. -/
def setPassword (lib : Lib) (u : URL) (s : Str) : Res := ({ u with password := lib.quoteUser (lib.unquote s) }, none)

/-- `str(pr.port) if pr.port is not None else ''`, url.py 547. -/
def portText : Option Nat → Str
  | some n => strNat n
  | none => []

/-- Host name and port of `URL._parse_url`, url.py 544-548. -/
def parseNetloc (lib : Lib) (u : URL) (netloc : Str) : Res :=
  if netloc = [] then ({ u with host := [], hostname := [], port := [] }, none)
  else match port netloc with
    | .error e => (u, some e)
    | .ok p =>
      let u := { u with port := portText p }
      match hostname netloc with
      | none => (u, some .typeError)
      | some h => setHostname lib u h

/-- `pr.scheme in ['about', 'blob', 'data']`. -/
def opaqueScheme (s : Str) : Bool := s == "about".toList || s == "blob".toList || s == "data".toList

/-- `URL._parse_url`, url.py 537-553. -/
def parseUrl (lib : Lib) (u : URL) (url : Str) : Res :=
  match urlsplit url with
  | .error e => (u, some e)
  | .ok pr =>
    if (pr.scheme = [] ∧ pr.netloc = []) ∨ (opaqueScheme pr.scheme = true ∧ pr.path = []) then (u, some .valueError)
    else
      andThen (setProtocol lib u pr.scheme) fun u =>
      andThen (parseNetloc lib u pr.netloc) fun u =>
      andThen (setUsername lib u ((userinfo pr.netloc).1.getD [])) fun u =>
      andThen (setPassword lib u ((userinfo pr.netloc).2.getD [])) fun u =>
      andThen (setPathname lib u pr.path) fun u =>
      andThen (setSearch u pr.query) fun u =>
      setHash lib u pr.fragment

/-- User name and password in front of the host, url.py 573-577. -/
def userText (u : URL) : Str :=
  if u.username = [] then []
  else u.username ++ (if u.password = [] then [] else ':' :: u.password) ++ ['@']

/-- `URL.tostring`, url.py 555-584, with the value of `host` as an argument. -/
def hrefWith (lib : Lib) (u : URL) (host : Str) (excludeFragment : Bool) : Str :=
  (if u.protocol = [] then []
    else u.protocol ++ (if opaqueProtocol u.protocol then [] else ['/', '/']) ++
      (if host ≠ [] ∧ u.protocol ≠ "file:".toList then userText u ++ host else [])) ++
  getPathname u ++
  (if host ≠ [] ∨ getPathname u ≠ [] then getSearch lib u ++ (if excludeFragment then [] else getHash u) else [])

/-- `URL.href` (getter), url.py 326-329. -/
def href (lib : Lib) (u : URL) : Str := hrefWith lib u (readHost u).host false

/-- `URL.href` (setter), url.py 331-333. -/
def setHref (lib : Lib) (u : URL) (url : Str) : Res := parseUrl lib u url

/-- The path of a relative reference joined to the base, url.py 256-267. -/
def joined (lib : Lib) (base : URL) (url : Str) : Str :=
  (if base.protocol ≠ "file:".toList then joinPath (dirname (getPathname base)) url
    else
      let p := getPathname base
      joinPath (if lib.isdir p then p else dirname p) url).map fun c => if c = '\\' then '/' else c

/-- The base object is turned into the resolved URL, url.py 251-271. -/
def resolve (lib : Lib) (base : URL) (url : Str) : Res :=
  if isabs url then
    andThen (setPathname lib base url) fun b =>
    andThen (setSearch b []) fun b =>
    setHash lib b []
  else match urlsplit (joined lib base url) with
    | .error e => (base, some e)
    | .ok pr =>
      andThen (setPathname lib base pr.path) fun b =>
      andThen (setSearch b pr.query) fun b =>
      setHash lib b pr.fragment

/-- `URL(url, base)` with a URL object as the base, or none, url.py 213-273: the new object or the
error, and the base object afterwards. -/
def construct (lib : Lib) (url : Str) (base : Option URL) : Py URL × Option URL :=
  let usable := match base with
    | some b => if opaqueProtocol b.protocol then none else some b
    | none => none
  match parseUrl lib blank url, usable with
  | (u, none), _ => (.ok u, base)
  | (_, some e), none => (.error e, base)
  | (u, some e), some b =>
    if e = .valueError then
      match resolve lib b url with
      | (b', some e') => (.error e', some b')
      | (b', none) =>
        let b'' := readHost b'
        match parseUrl lib u (href lib b') with
        | (u', none) => (.ok u', some b'')
        | (_, some e') => (.error e', some b'')
    else (.error e, base)

/-- `URL(url, base)` with a text as the base, url.py 231-235. -/
def constructStr (lib : Lib) (url base : Str) : Py URL :=
  if base = [] then (construct lib url none).1
  else match (construct lib base none).1 with
    | .error e => .error e
    | .ok b => (construct lib url (some b)).1

end SvgPy.Url
