import Verif.Model.Io
/-! # What single calls on a connection amount to -/
namespace Am.Spec
open Am

/-- The calls deliver these bytes, one after the other. -/
inductive Delivers : List ReadCall → List UInt8 → Prop
  | done : Delivers [] []
  | data (b : UInt8) (bs : List UInt8) (cs : List ReadCall) (rest : List UInt8) : Delivers cs rest → Delivers (.data b bs :: cs) (b :: bs ++ rest)
  | again (t : Str) (cs : List ReadCall) (bytes : List UInt8) : Delivers cs bytes → Delivers (.interrupted t :: cs) bytes

/-- The connection ends with an error: any error on a plain connection; over TLS neither a missing close message nor an abort counts, unless
answering the abort fails. -/
inductive EndsBadly : Bool → ReadEnd → Prop
  | failed (cipher : Bool) (t : Str) : EndsBadly cipher (.failed t)
  | aborted (t : Str) (close : Option Str) : EndsBadly false (.aborted t close)
  | cut (t : Str) : EndsBadly false (.cut t)
  | close (t e : Str) : EndsBadly true (.aborted t (some e))

/-- The first call is not interrupted. -/
def StartsAtOnce (cs : List ReadCall) : Prop := ∀ t rest, cs ≠ .interrupted t :: rest

/-- No write call fails or takes nothing. -/
def Accepts (cs : List WriteCall) : Prop := ∀ c ∈ cs, c = .interrupted ∨ ∃ n, c = .accept (n + 1)

/-- `copy` hands over the bytes of a multipart body: all of them, or, if the reader breaks, some of them. -/
def CopyOf (content : Content) (copy : Copy) : Prop :=
  match content with
  | .multipart bytes => copy.copied.flatten <+: bytes ∧ (copy.broken = none → copy.copied.flatten = bytes)
  | _ => True

/-- The bytes of a request: request line, header lines, empty line, body. -/
def requestBytes (r : Request) (body : List UInt8) : List UInt8 :=
  utf8 r.method.text ++ 32 :: utf8 r.url.path ++ 32 :: utf8 r.version.text ++ [13, 10] ++
  (r.headers.flatMap fun h => utf8 h.name ++ [58, 32] ++ utf8 h.value ++ [13, 10]) ++ [13, 10] ++ body

/-- Why no connection was made; the text that says so. -/
inductive NoConnection (w : Wire) (url : Url) : Str → Prop
  | name : url.scheme = .Https → w.nameOk url.host = false → NoConnection w url c!"invalid url host"
  | tls : url.scheme = .Https → w.nameOk url.host = true → w.tlsOk url.host = false → NoConnection w url c!"tls handshake failed"
  | host : (url.scheme = .Https → w.nameOk url.host = true ∧ w.tlsOk url.host = true) → w.resolved url.host url.port = none → NoConnection w url c!"host not found"
  | nowhere : (url.scheme = .Https → w.nameOk url.host = true ∧ w.tlsOk url.host = true) → w.resolved url.host url.port = some [] → NoConnection w url c!"no connection available"
  | down (addrs : List Addr) : (url.scheme = .Https → w.nameOk url.host = true ∧ w.tlsOk url.host = true) → w.resolved url.host url.port = some addrs → addrs ≠ [] →
      (∀ a ∈ addrs, w.up a = false) → NoConnection w url c!"tcp connect failed"
  | timeout (addrs : List Addr) : (url.scheme = .Https → w.nameOk url.host = true ∧ w.tlsOk url.host = true) → w.resolved url.host url.port = some addrs →
      (∃ a ∈ addrs, w.up a = true) → w.timeoutOk = false → NoConnection w url c!"set read timeout failed"

/-- The errors of the environment have a text. -/
structure Loud (w : Wire) : Prop where
  writes : ∀ t, .failed t ∈ w.writes → t ≠ []
  copy : ∀ t, w.copy.broken = some t → t ≠ []
  reads : ∀ t, .interrupted t ∈ w.reads → t ≠ []
  ending : ∀ cipher t, streamEnd cipher w.ending = some t → t ≠ []

end Am.Spec
