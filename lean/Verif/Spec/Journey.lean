import Verif.Spec.Io
import Verif.Spec.Framing
import Verif.Spec.Response
import Verif.Spec.Url
import Verif.Spec.Http
/-!
# A request and its response, from the script to the server and back

What the author of a script and the author of a server write, and a network on which nothing goes wrong.
-/
namespace Am.Spec
open Am

/-- Lines with a line feed between them. -/
def joined : List Str → Str
  | [] => []
  | [l] => l
  | l :: ls => l ++ '\n' :: joined ls

/-- A request as its author means it. -/
structure Ask where
  method : Method
  scheme : Scheme
  host : Str
  /-- the port as written, with its colon -/
  portText : Str
  port : Nat
  path : Str
  version : Version
  headers : List Header
  body : Str

/-- The request line as written in a template. -/
def Ask.line (a : Ask) : Str :=
  a.method.text ++ ' ' :: ((a.scheme.text ++ c!"://" ++ a.host ++ a.portText ++ a.path) ++ ' ' :: a.version.text)

/-- The request as written in a template: request line, headers, and after an empty line the body, if there is one. -/
def Ask.text (a : Ask) : Str :=
  joined (a.line :: (a.headers.map (fun h => h.name ++ c!": " ++ h.value) ++ if a.body = [] then [] else [[], a.body]))

/-- The same as a value of the program. -/
def Ask.request (a : Ask) : Request := ⟨a.method, ⟨a.scheme, a.host, a.port, a.path⟩, a.version, a.headers, a.body⟩

/-- The header fields as names and values. -/
def Ask.fields (a : Ask) : List (Str × Str) := a.headers.map fun h => (h.name, h.value)

/-- A request without oddities: no `://` in the path, header names and values and the body on one line each, without white space around them,
and no form. -/
structure Ask.Plain (a : Ask) : Prop where
  host : PlainHost a.host ∧ ∀ c ∈ a.host, isWs c = false
  port : PortText (wellKnown a.scheme) a.portText a.port
  path : (∃ p, a.path = '/' :: p) ∧ (∀ c ∈ a.path, isWs c = false) ∧ ¬ HasSep a.path
  headers : ∀ h ∈ a.headers, ':' ∉ h.name ∧ '\n' ∉ h.name ∧ '\n' ∉ h.value ∧ Tight h.name ∧ Tight h.value ∧ h.value ≠ []
  body : '\n' ∉ a.body ∧ Tight a.body
  form : ∀ v, Declares a.headers v → v ≠ c!"application/x-www-form-urlencoded" ∧ v ≠ c!"multipart/form-data"

/-- A response as a server means it. -/
structure Answer where
  version : Str
  /-- the status code as written -/
  code : Str
  status : Nat
  reason : Str
  headers : List Header
  body : Str
  deriving DecidableEq

/-- The response as a server writes it. -/
def Answer.text (a : Answer) : Str :=
  a.version ++ ' ' :: (a.code ++ ' ' :: (a.reason ++ c!"\r\n")) ++ a.headers.flatMap (fun h => h.name ++ c!": " ++ h.value ++ c!"\r\n") ++ c!"\r\n" ++ a.body

/-- A well-formed response. -/
structure Answer.Plain (a : Answer) : Prop where
  version : a.version ≠ [] ∧ ∀ c ∈ a.version, isWs c = false
  code : (∀ c ∈ a.code, isWs c = false) ∧ Number16 (some a.code) a.status
  reason : '\n' ∉ a.reason
  headers : ∀ h ∈ a.headers, ':' ∉ h.name ∧ '\n' ∉ h.name ∧ '\n' ∉ h.value ∧ Tight h.name ∧ Tight h.value

/-- A server: what it answers to a method, a target, a version, header fields and the bytes after them. -/
abbrev Server := Str → Str → Str → List (Str × Str) → List UInt8 → Answer

/-- Nothing goes wrong: the connection is made to `peer`, the request is taken (in pieces of any size), what the server answers to the bytes
it gets arrives (in pieces of any size), the connection is closed and the clock does not run backwards. -/
structure Works (w : Wire) (mp : List Part → Option (List UInt8)) (m : Str) (url : Url) (serve : Server) (peer : Addr) : Prop where
  connects : w.connect url = some (.ok peer)
  takes : Accepts w.writes
  flushes : w.flushed = true
  answers : ∀ sent, w.send mp m = some sent → ∀ meth t v hs b, readWire sent.bytes = some (meth, t, v, hs, b) →
    Delivers w.reads (utf8 (serve meth t v hs b).text)
  starts : StartsAtOnce w.reads
  closes : ¬ EndsBadly (url.scheme == .Https) w.ending
  clock : Monotone w.clocks

/-- What a server answers to a request, if it gets it as it was meant. -/
def Server.answer (serve : Server) (a : Ask) : Answer := serve a.method.text a.path a.version.text a.fields (utf8 a.body)

/-- What the script gets for a response: a map with its parts. -/
structure ShowsAnswer {F : Type} (map : List (Str × Value F)) (a : Answer) : Prop where
  version : amGet c!"version" map = some (.str a.version)
  status : ∃ n, amGet c!"status" map = some (.int n) ∧ n.toInt = a.status
  headers : ∃ hm, amGet c!"headers" map = some (.map hm) ∧ ∀ name, (∃ h ∈ a.headers, h.name = name) →
    amGet name hm = some (.arr ((valuesOf name a.headers).map .str))
  missing : ∀ hm, amGet c!"headers" map = some (.map hm) → ∀ name, (∀ h ∈ a.headers, h.name ≠ name) → amGet name hm = none
  body : amGet c!"body" map = some (.str a.body)

end Am.Spec
