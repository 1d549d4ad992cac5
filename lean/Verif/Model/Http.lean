import Verif.Model.Parser
/-!
# lib/src/http: mod.rs, url.rs, header.rs, content.rs, request.rs, response.rs, time.rs, error.rs, client.rs
-/
namespace Am

/-! ## mod.rs: `http_type!` -/

/-- mod.rs:78-85 `Version`; the first variant is `#[default]`. -/
inductive Version where
  | Http11 | Http09 | Http10 | Http20 | Http30
  deriving DecidableEq, Repr

/-- mod.rs:87-98 `Method`. -/
inductive Method where
  | Get | Post | Put | Patch | Delete | Options | Head | Trace | Connect
  deriving DecidableEq, Repr

/-- mod.rs:100-106 `Scheme`. -/
inductive Scheme where
  | Http | Https
  deriving DecidableEq, Repr

/-- mod.rs:54-62 `AsRef<str>` (also `Display`, 70-74) for `Version`. -/
def Version.text : Version → Str
  | .Http11 => c!"HTTP/1.1" | .Http09 => c!"HTTP/0.9" | .Http10 => c!"HTTP/1.0" | .Http20 => c!"HTTP/2.0"
  | .Http30 => c!"HTTP/3.0"

/-- mod.rs:34-43 `From<&str>` for `Version`: unknown text is the default. -/
def Version.ofStr (s : Str) : Version :=
  if s = c!"HTTP/1.1" then .Http11 else if s = c!"HTTP/0.9" then .Http09 else if s = c!"HTTP/1.0" then .Http10
  else if s = c!"HTTP/2.0" then .Http20 else if s = c!"HTTP/3.0" then .Http30 else .Http11

/-- mod.rs:45-52 `From<Option<&str>>` for `Version`. -/
def Version.ofOpt : Option Str → Version
  | some s => .ofStr s
  | none => .Http11

/-- mod.rs:54-62 `AsRef<str>` for `Method`. -/
def Method.text : Method → Str
  | .Get => c!"GET" | .Post => c!"POST" | .Put => c!"PUT" | .Patch => c!"PATCH" | .Delete => c!"DELETE"
  | .Options => c!"OPTIONS" | .Head => c!"HEAD" | .Trace => c!"TRACE" | .Connect => c!"CONNECT"

/-- mod.rs:34-43 `From<&str>` for `Method`. -/
def Method.ofStr (s : Str) : Method :=
  if s = c!"GET" then .Get else if s = c!"POST" then .Post else if s = c!"PUT" then .Put
  else if s = c!"PATCH" then .Patch else if s = c!"DELETE" then .Delete else if s = c!"OPTIONS" then .Options
  else if s = c!"HEAD" then .Head else if s = c!"TRACE" then .Trace else if s = c!"CONNECT" then .Connect else .Get

/-- mod.rs:45-52 `From<Option<&str>>` for `Method`. -/
def Method.ofOpt : Option Str → Method
  | some s => .ofStr s
  | none => .Get

/-- mod.rs:54-62 `AsRef<str>` for `Scheme`. -/
def Scheme.text : Scheme → Str
  | .Http => c!"http" | .Https => c!"https"

/-- mod.rs:34-43 `From<&str>` for `Scheme`. -/
def Scheme.ofStr (s : Str) : Scheme :=
  if s = c!"http" then .Http else if s = c!"https" then .Https else .Http

/-! ## url.rs -/

/-- url.rs:3-8 `struct Url`; `port : u16`. -/
structure Url where
  scheme : Scheme
  host : Str
  port : Nat
  path : Str
  deriving DecidableEq, Repr

/-- `str::split("://")`, first separator: the text before it and the text after it. -/
def cutSep : Str → Option (Str × Str)
  | ':' :: '/' :: '/' :: r => some ([], r)
  | c :: r => (cutSep r).map fun p => (c :: p.1, p.2)
  | [] => none

/-- The first piece of `str::split("://")`. -/
def sepFirst (s : Str) : Str :=
  match cutSep s with
  | some (a, _) => a
  | none => s

/-- url.rs:32-35: the default port of a scheme. -/
def Scheme.port : Scheme → Nat
  | .Http => 80
  | .Https => 443

/-- url.rs:50-59 `Default for Url`. -/
def Url.default : Url := ⟨.Http, c!"localhost", 80, c!"/"⟩

/-- url.rs:10-39 `From<&str> for Url`. -/
def Url.ofStr (s : Str) : Url :=
  let scheme := Scheme.ofStr (sepFirst s)
  match cutSep s with
  | none => ⟨scheme, c!"localhost", scheme.port, c!"/"⟩
  | some (_, r) =>
    let str := sepFirst r
    let host := str.takeWhile (· ≠ '/')
    let path := if str.contains '/' then str.dropWhile (· ≠ '/') else c!"/"
    if host.contains ':' then
      let port := parseUnsigned 65535 ((host.dropWhile (· ≠ ':')).drop 1)
      ⟨scheme, host.takeWhile (· ≠ ':'), port.getD scheme.port, path⟩
    else ⟨scheme, host, scheme.port, path⟩

/-- url.rs:41-48 `From<Option<&str>> for Url`. -/
def Url.ofOpt : Option Str → Url
  | some s => .ofStr s
  | none => .default

/-- url.rs:61-65 `Display for Url`: without the port. -/
def Url.text (u : Url) : Str := u.scheme.text ++ c!"://" ++ u.host ++ u.path

/-! ## header.rs, content.rs -/

/-- header.rs:9-12 `struct Header`; `Headers` (header.rs:4-7) is the vector `List Header`. -/
structure Header where
  name : Str
  value : Str
  deriving DecidableEq, Repr

/-- request.rs:68-72: one part of a multipart body. -/
inductive Part where
  | text (name value : Str)
  | file (name path : Str)
  deriving DecidableEq, Repr

/-- content.rs:4-8 `enum Content`. The prepared multipart body is represented by its bytes. -/
inductive Content where
  | empty
  | byte (bytes : List UInt8)
  | multipart (bytes : List UInt8)
  deriving DecidableEq, Repr

/-- content.rs:11-20 `Content::write`: the bytes written. -/
def Content.bytes : Content → List UInt8
  | .empty => []
  | .byte bs => bs
  | .multipart bs => bs

/-! ## form_urlencoded::Serializer (request.rs:54-61) -/

/-- Uppercase hexadecimal digit of `n < 16`. -/
def hexUp (n : Nat) : Char := if n < 10 then Char.ofNat (48 + n) else Char.ofNat (55 + n)

/-- `form_urlencoded::byte_serialize` on one byte: `*`, `-`, `.`, `_`, digits and letters unchanged, space to `+`,
everything else percent-encoded. -/
def formByte (b : UInt8) : Str :=
  let n := b.toNat
  if n = 32 then c!"+"
  else if n = 42 || n = 45 || n = 46 || n = 95 || (48 ≤ n && n ≤ 57) || (65 ≤ n && n ≤ 90) || (97 ≤ n && n ≤ 122) then
    [Char.ofNat n]
  else ['%', hexUp (n / 16), hexUp (n % 16)]

/-- `form_urlencoded` encoding of one name or value. -/
def formText (s : Str) : Str := (utf8 s).flatMap formByte

/-- `Serializer::append_pair` for each pair, then `finish`: `name=value` joined by `&`. -/
def formEncode (pairs : List (Str × Str)) : Str :=
  joinStr c!"&" (pairs.map fun p => formText p.1 ++ c!"=" ++ formText p.2)

/-! ## request.rs -/

/-- request.rs:13-24 `struct Request`. -/
structure Request where
  method : Method
  url : Url
  version : Version
  headers : List Header
  body : Str
  deriving DecidableEq, Repr

/-- request.rs:12 `#[derive(Default)]`. -/
def Request.default : Request := ⟨.Get, .default, .Http11, [], []⟩

/-- ASCII lower case of one character. `str::to_lowercase` maps no non-ASCII character into `content-type`'s
letters (only U+212A to `k` and U+0130 to `i` + dot land in ASCII), so ASCII suffices for request.rs:45. -/
def lowerChar (c : Char) : Char := if 'A' ≤ c && c ≤ 'Z' then Char.ofNat (c.toNat + 32) else c

/-- `to_lowercase` as used in request.rs:45. -/
def lower (s : Str) : Str := s.map lowerChar

/-- request.rs:40-44: the header of a trimmed line, if it contains a colon. -/
def headerOf (line : Str) : Option Header :=
  (splitOnce ':' (trim line)).map fun p => ⟨trim p.1, trim p.2⟩

/-- request.rs:37-49: the header loop. Stops after the first blank line; lines without a colon are skipped. Returns
the headers and the lines left. -/
def headerLines : List Str → List Header × List Str
  | [] => ([], [])
  | line :: rest =>
    if (trim line).isEmpty then ([], rest)
    else
      let (hs, left) := headerLines rest
      match headerOf line with
      | some h => (h :: hs, left)
      | none => (hs, left)

/-- request.rs:45-47: the value of the first header whose lower-cased name is `content-type`. -/
def contentType (hs : List Header) : Option Str :=
  (hs.find? fun h => lower h.name == c!"content-type").map (·.value)

/-- request.rs:55-60 and 65-75: the body lines that contain a colon, with the split of the trimmed line. -/
def pairLines (ls : List Str) : List (Str × (Str × Str)) :=
  ls.filterMap fun line => (splitOnce ':' (trim line)).map fun p => (line, p)

/-- request.rs:67-72: one multipart part. -/
def partOf (p : Str × Str) : Part :=
  match trim p.2 with
  | '@' :: path => .file (trim p.1) path
  | v => .text (trim p.1) v

/-- request.rs:50-89: body text and content. `mp` is `Multipart::prepare` (`none`: it failed). -/
def bodyOf (mp : List Part → Option (List UInt8)) (ct : Option Str) (ls : List Str) : Str × Content :=
  if ct = some c!"application/x-www-form-urlencoded" then
    let ps := pairLines ls
    ((ps.map (·.1)).flatten, .byte (utf8 (formEncode (ps.map (·.2)))))
  else if ct = some c!"multipart/form-data" then
    let ps := pairLines ls
    ((ps.map (·.1)).flatten,
      match mp (ps.map fun p => partOf p.2) with
      | some bs => .multipart bs
      | none => .empty)
  else
    let body := ls.flatten
    (body, if (trim body).isEmpty then .empty else .byte (utf8 body))

/-- request.rs:28-103 `Request::from`. -/
def Request.ofStr (mp : List Part → Option (List UInt8)) (message : Str) : Request × Content :=
  match lines (trim message) with
  | [] => (.default, .empty)
  | line :: rest =>
    let ws := splitWs line
    let (headers, left) := headerLines rest
    let (body, content) := bodyOf mp (contentType headers) left
    (⟨.ofOpt ws[0]?, .ofOpt ws[1]?, .ofOpt ws[2]?, headers, body⟩, content)

/-- request.rs:107: the request line. -/
def Request.line (r : Request) : Str :=
  r.method.text ++ c!" " ++ r.url.path ++ c!" " ++ r.version.text ++ c!"\r\n"

/-- request.rs:108-110: one header line. -/
def Header.line (h : Header) : Str := h.name ++ c!": " ++ h.value ++ c!"\r\n"

/-- request.rs:105-116 `Request::write`: the bytes written when no write fails. -/
def Request.wire (r : Request) (content : Content) : List UInt8 :=
  utf8 (r.line ++ r.headers.flatMap Header.line ++ c!"\r\n") ++ content.bytes

/-! ## response.rs -/

/-- response.rs:14-25 `struct Response`; `status : u16`. -/
structure Response where
  version : Str
  status : Nat
  reason : Str
  headers : List Header
  body : Str
  deriving DecidableEq, Repr

/-- response.rs:13 `#[derive(Default)]`. -/
def Response.default : Response := ⟨[], 0, [], [], []⟩

/-- What a reader still has to deliver: bytes, then end of file (`none`) or an I/O error with its text. -/
structure Incoming where
  bytes : List UInt8
  failure : Option Str
  deriving DecidableEq, Repr

/-- The text of std's "invalid UTF-8" I/O error. -/
def utf8Error : Str := c!"stream did not contain valid UTF-8"

/-- `BufRead::read_line` into an empty string: the bytes up to and including the next `\n`, or up to the end. -/
def readLine (r : Incoming) : Res (Str × Incoming) :=
  if r.bytes.contains 10 then
    let line := r.bytes.takeWhile (· ≠ 10) ++ [10]
    match fromUtf8 line with
    | some s => .ok (s, { r with bytes := (r.bytes.dropWhile (· ≠ 10)).drop 1 })
    | none => .err utf8Error
  else
    match r.failure with
    | some e => .err e
    | none =>
      match fromUtf8 r.bytes with
      | some s => .ok (s, { r with bytes := [] })
      | none => .err utf8Error

/-- `Read::read_to_string`. -/
def readRest (r : Incoming) : Res Str :=
  match r.failure with
  | some e => .err e
  | none =>
    match fromUtf8 r.bytes with
    | some s => .ok s
    | none => .err utf8Error

/-- response.rs:91-96 `parse::<String>`. -/
def parseText (s : Option Str) : Str := s.getD []

/-- response.rs:91-96 `parse::<u16>`. -/
def parseStatus (s : Option Str) : Nat := (s.bind (parseUnsigned 65535)).getD 0

/-- response.rs:48-53: the header of a line (not trimmed as a whole). -/
def respHeaderOf (line : Str) : Option Header :=
  (splitOnce ':' line).map fun p => ⟨trim p.1, trim p.2⟩

/-- response.rs:43-54: the header loop, with fuel (every line read before the last is non-empty). -/
def readHeaders : Nat → Incoming → Res (List Header × Incoming)
  | 0, _ => .hang
  | n + 1, r => do
    let (line, r) ← readLine r
    if (trim line).isEmpty then pure ([], r)
    else do
      let (hs, r) ← readHeaders n r
      match respHeaderOf line with
      | some h => pure (h :: hs, r)
      | none => pure (hs, r)

/-- response.rs:29-64 `Response::from`. The first `read` (line 31) has a zero-length buffer (`with_capacity` leaves
the length 0), so it delivers no byte; it fails only when the stream fails before the first byte. -/
def Response.read (r : Incoming) : Res Response := do
  let (line, r) ← readLine r
  let ws := splitWs line
  let (headers, r) ← readHeaders (r.bytes.length + 1) r
  let body ← readRest r
  pure ⟨parseText ws[0]?, parseStatus ws[1]?, parseText ws[2]?, headers, body⟩

variable {F : Type} [Rt F]

/-- response.rs:72-79: one header added to the map of header arrays. -/
def addHeader (m : List (Str × Value F)) (h : Header) : List (Str × Value F) :=
  match amGet h.name m with
  | some (.arr items) => amInsert h.name (.arr (items ++ [.str h.value])) m
  | _ => amInsert h.name (.arr [.str h.value]) m

/-- response.rs:71-79: the header map. -/
def headerMap (hs : List Header) : List (Str × Value F) := hs.foldl addHeader []

/-- response.rs:67-81: the entries that do not depend on parsing the body. -/
def Response.baseMap (r : Response) : List (Str × Value F) :=
  let m := amInsert c!"version" (.str r.version) []
  let m := amInsert c!"status" (.int (Int64.ofNat r.status)) m
  let m := amInsert c!"reason" (.str r.reason) m
  let m := amInsert c!"headers" (.map (headerMap r.headers)) m
  amInsert c!"body" (.str r.body) m

/-- response.rs:66-88 `Response::to_map`. It runs the source parser on the body, so it may not return. -/
def Response.toMap (r : Response) : Res (List (Str × Value F)) :=
  match (parse r.body : Res (Source F)) with
  | .ok src =>
    match src.exprs with
    | e :: _ => .ok (amInsert c!"json" e.eval r.baseMap)
    | [] => .ok r.baseMap
  | .err _ => .ok r.baseMap
  | .panic => .panic
  | .hang => .hang

/-! ## time.rs, client.rs -/

/-- time.rs:4-13 `struct Time`; durations in nanoseconds. -/
structure Time where
  start : Nat
  fin : Nat
  total : Nat
  resolve : Nat
  connect : Nat
  write : Nat
  delay : Nat
  read : Nat
  deriving DecidableEq, Repr

/-- time.rs:15-28 `Default for Time` when the system clock reads `now`. -/
def Time.default (now : Nat) : Time := ⟨now, now, 0, 0, 0, 0, 0, 0⟩

/-- The clock readings of one `Client::send`: system clock (`sys0` at time.rs:17, `sys1` at client.rs:39) and monotonic
clock (`start` client.rs:21, `res0`/`res1` stream.rs:50 and 55, `conn` client.rs:27, `rd` client.rs:31, `first` client.rs:32,
`last` client.rs:36, `fin` client.rs:37). -/
structure Clocks where
  sys0 : Nat
  start : Nat
  res0 : Nat
  res1 : Nat
  conn : Nat
  rd : Nat
  first : Nat
  last : Nat
  fin : Nat
  sys1 : Nat
  deriving DecidableEq, Repr

/-- error.rs:1-27 `enum Error` with the variants of lines 29-37; an I/O error is represented by its text. -/
inductive HttpError where
  | readFailed (io : Str)
  | writeFailed (io : Str)
  | invalidUrlHost
  | hostNotFound
  | tcpConnectFailed
  | noConnectionAvailable
  | tlsHandshakeFailed
  | writeFlushFailed
  | setReadTimeoutFailed
  deriving DecidableEq, Repr

/-- error.rs:15-25 `Display for Error`, texts of lines 30-36. -/
def HttpError.text : HttpError → Str
  | .readFailed io => io
  | .writeFailed io => io
  | .invalidUrlHost => c!"invalid url host"
  | .hostNotFound => c!"host not found"
  | .tcpConnectFailed => c!"tcp connect failed"
  | .noConnectionAvailable => c!"no connection available"
  | .tlsHandshakeFailed => c!"tls handshake failed"
  | .writeFlushFailed => c!"write flush failed"
  | .setReadTimeoutFailed => c!"set read timeout failed"

/-- The outcome of the network part of one `Client::send`. -/
inductive Exchange where
  /-- `Stream::connect` failed (client.rs:24). -/
  | refused (error : HttpError) (clocks : Clocks)
  /-- `Request::write` failed (client.rs:28-30). -/
  | broken (error : HttpError) (clocks : Clocks)
  /-- The request was written; these bytes came back. -/
  | answered (incoming : Incoming) (clocks : Clocks)
  deriving DecidableEq, Repr

/-- `Duration - Duration`: panics when the result would be negative. -/
def durSub (a b : Nat) : Res Nat := if b ≤ a then .ok (a - b) else .panic

/-- `Instant - Instant` and `Instant::elapsed`: saturating. -/
def since (later earlier : Nat) : Nat := later - earlier

/-- client.rs:26-27: the time after connecting. -/
def Time.connected (c : Clocks) : Res Time := do
  let resolve := since c.res1 c.res0
  let connect ← durSub (since c.conn c.start) resolve
  pure { Time.default c.sys0 with resolve, connect }

/-- client.rs:36-40: the time of a completed exchange. -/
def Time.completed (t : Time) (c : Clocks) : Res Time := do
  let delay := since c.first c.rd
  let read ← durSub (since c.last c.rd) delay
  let total := since c.fin c.start
  let w ← durSub total t.resolve
  let w ← durSub w t.connect
  let w ← durSub w read
  let write ← durSub w delay
  pure { t with delay, read, total, fin := c.sys1, write }

/-- client.rs:18-42 `Client::send` after `Request::from`. -/
def exchange (request : Request) : Exchange → Res (Request × Response × Time × Str)
  | .refused error c => .ok (request, .default, .default c.sys0, error.text)
  | .broken error c => do
    let t ← Time.connected c
    pure (request, .default, t, error.text)
  | .answered inc c => do
    let t ← Time.connected c
    match Response.read inc with
    | .ok response => do
      let t ← t.completed c
      pure (request, response, t, [])
    | .err error =>
      let t := if inc.bytes.isEmpty && inc.failure.isSome then t else { t with delay := since c.first c.rd }
      pure (request, .default, t, (HttpError.readFailed error).text)
    | .panic => .panic
    | .hang => .hang

/-- The environment of `Client::send`: the outcome of the exchange as a function of the messages sent before and of this
message, and the multipart encoder. -/
structure Net where
  exch : List Str → Str → Exchange
  multipart : List Part → Option (List UInt8)

/-- client.rs:18-42 `Client::send`. -/
def send (net : Net) (sent : List Str) (message : Str) : Res (Request × Response × Time × Str) :=
  exchange (Request.ofStr net.multipart message).1 (net.exch sent message)

end Am
