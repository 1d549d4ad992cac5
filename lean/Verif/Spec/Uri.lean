import Verif.Spec.Url
/-! # Addresses by RFC 3986 -/
namespace Am.Spec
open Am

/-- RFC 3986, 2.2 and 2.3: unreserved characters and sub-delimiters, and the `%` of an escape. -/
def regChar (c : Char) : Bool :=
  ('a' ≤ c && c ≤ 'z') || ('A' ≤ c && c ≤ 'Z') || ('0' ≤ c && c ≤ '9') || c ∈ c!"-._~!$&'()*+,;=%"

/-- RFC 3986, 3.2.1: characters of the user information. -/
def userChar (c : Char) : Bool := regChar c || c == ':'

/-- RFC 3986, 3.2.2: characters of an IPv6 address. -/
def ip6Char (c : Char) : Bool := ('a' ≤ c && c ≤ 'f') || ('A' ≤ c && c ≤ 'F') || ('0' ≤ c && c ≤ '9') || c == ':' || c == '.'

/-- RFC 3986, 3.3: characters of a path. -/
def pathChar (c : Char) : Bool := regChar c || c == ':' || c == '@' || c == '/'

/-- RFC 3986, 3.4 and 3.5: characters of a query or fragment. -/
def queryChar (c : Char) : Bool := pathChar c || c == '?'

/-- RFC 3986, 3.2.2: a name (or IPv4 address), or an IPv6 address, which is written in brackets. -/
inductive UriHost where
  | name (h : Str)
  | ip6 (h : Str)
  deriving DecidableEq, Repr

/-- RFC 3986, 3: the components of an http or https address. -/
structure Uri where
  scheme : Scheme
  user : Option Str
  host : UriHost
  port : Option Str
  path : Str
  query : Option Str
  fragment : Option Str
  deriving DecidableEq, Repr

namespace UriHost

/-- As written. -/
def text : UriHost → Str
  | name h => h
  | ip6 h => c!"[" ++ h ++ c!"]"

/-- What is looked up. -/
def address : UriHost → Str
  | name h => h
  | ip6 h => h

end UriHost

namespace Uri

/-- User information as written. -/
def userText (u : Uri) : Str :=
  match u.user with
  | some x => x ++ c!"@"
  | none => []

/-- A port as written. -/
def portText (u : Uri) : Str :=
  match u.port with
  | some ds => ':' :: ds
  | none => []

/-- RFC 3986, 3.2: user information, host and port. -/
def authority (u : Uri) : Str := u.userText ++ u.host.text ++ u.portText

/-- A query as written. -/
def queryText (u : Uri) : Str :=
  match u.query with
  | some q => '?' :: q
  | none => []

/-- A fragment as written. -/
def fragmentText (u : Uri) : Str :=
  match u.fragment with
  | some f => '#' :: f
  | none => []

/-- RFC 3986, 5.3: the text of an address. -/
def text (u : Uri) : Str := u.scheme.text ++ c!"://" ++ u.authority ++ u.path ++ u.queryText ++ u.fragmentText

/-- RFC 9110, 4.2.1 and 4.2.2: the port, by default the well-known one of the scheme. -/
def portNumber (u : Uri) : Nat :=
  match u.port with
  | some ds => decimal ds
  | none => wellKnown u.scheme

/-- RFC 9112, 3.2.1: the request target: path and query, an empty path is `/`. The fragment is not sent. -/
def target (u : Uri) : Str := (if u.path = [] then c!"/" else u.path) ++ u.queryText

/-- What the address denotes: where to connect and what to request. -/
def denotes (u : Uri) : Url := ⟨u.scheme, u.host.address, u.portNumber, u.target⟩

/-- The components are written with the characters allowed in them; a port is a number below 65536; a path begins with `/`. -/
structure Proper (u : Uri) : Prop where
  user : ∀ x, u.user = some x → ∀ c ∈ x, userChar c = true
  name : ∀ h, u.host = .name h → h ≠ [] ∧ ∀ c ∈ h, regChar c = true
  ip6 : ∀ h, u.host = .ip6 h → ':' ∈ h ∧ ∀ c ∈ h, ip6Char c = true
  port : ∀ ds, u.port = some ds → ds ≠ [] ∧ (∀ c ∈ ds, '0' ≤ c ∧ c ≤ '9') ∧ decimal ds ≤ 65535
  path : u.path = [] ∨ ∃ p, u.path = '/' :: p
  pathChars : ∀ c ∈ u.path, pathChar c = true
  query : ∀ q, u.query = some q → ∀ c ∈ q, queryChar c = true
  fragment : ∀ f, u.fragment = some f → ∀ c ∈ f, queryChar c = true

/-- No user information - or, by coincidence harmless, the name of the host as user name, and the well-known port. -/
def NoUser (u : Uri) : Prop := u.user = none ∨ ∃ pw, u.user = some (u.host.address ++ ':' :: pw) ∧ u.portNumber = wellKnown u.scheme

/-- The addresses without fragment that the program understands. -/
def Understood (u : Uri) : Prop :=
  (∃ h, u.host = .name h) ∧ u.NoUser ∧ (u.path ≠ [] ∨ u.query = none) ∧ ¬HasSep u.target

end Uri
end Am.Spec
