import Verif.Model.Stream
/-!
# lib/src/http at the level of single `read` and `write` calls

stream.rs `Read`/`Write for Stream`, the `BufReader` of client.rs:32 with response.rs, the `BufWriter` of request.rs:106, and
client.rs `send` with stream.rs `connect` spelled out. `Model/Http.lean` describes the same functions on whole byte sequences.
-/
namespace Am

/-! ## Reading -/

/-- The result of one `read` call on the socket (for TLS: on `rustls::Stream`) before the stream has ended: at least one byte, or
`ErrorKind::Interrupted` with its text. -/
inductive ReadCall where
  | data (first : UInt8) (more : List UInt8)
  | interrupted (text : Str)
  deriving DecidableEq, Repr

/-- How the stream ends; every later `read` call gives the same result. -/
inductive ReadEnd where
  /-- `Ok(0)` -/
  | eof
  /-- an error of another kind -/
  | failed (text : Str)
  /-- `ErrorKind::ConnectionAborted`; `close` is the error of `attach.complete_io` (stream.rs:156), if any -/
  | aborted (text : Str) (close : Option Str)
  /-- `ErrorKind::UnexpectedEof` -/
  | cut (text : Str)
  deriving DecidableEq, Repr

/-- stream.rs:146-171 `Read for Stream` at the end of the stream: `none` is `Ok(0)`. -/
def streamEnd (cipher : Bool) : ReadEnd → Option Str
  | .eof => none
  | .failed t => some t
  | .aborted t close => if cipher then close else some t
  | .cut t => if cipher then none else some t

/-- What the `read` calls on a `Stream` deliver one after the other, and then for ever (`none`: `Ok(0)`). -/
structure Reads where
  calls : List ReadCall
  ending : Option Str
  deriving DecidableEq, Repr

/-- `BufReader<Stream>`: the unread part of its buffer and the stream. -/
structure BufRead where
  buf : List UInt8
  inner : Reads
  deriving DecidableEq, Repr

/-- The result of `BufRead::fill_buf`. -/
inductive Filled where
  | ok (r : BufRead)
  | interrupted (text : Str) (r : BufRead)
  | failed (text : Str)
  deriving DecidableEq, Repr

/-- std `BufReader::fill_buf`: one `read` call when the buffer is empty. Its length is bounded by the capacity of the buffer; here
any length is allowed. -/
def BufRead.fill (r : BufRead) : Filled :=
  if r.buf.isEmpty then
    match r.inner.calls with
    | .data b bs :: cs => .ok ⟨b :: bs, { r.inner with calls := cs }⟩
    | .interrupted t :: cs => .interrupted t ⟨[], { r.inner with calls := cs }⟩
    | [] =>
      match r.inner.ending with
      | none => .ok r
      | some e => .failed e
  else .ok r

/-- std `read_until(b'\n', ..)`, the loop of `BufRead::read_line`, with fuel: every iteration but the last makes a `read` call. -/
def BufRead.untilLf : Nat → BufRead → List UInt8 → Res (List UInt8 × BufRead)
  | 0, _, _ => .hang
  | n + 1, r, acc =>
    match r.fill with
    | .interrupted _ r => r.untilLf n acc
    | .failed e => .err e
    | .ok r =>
      if r.buf.contains 10 then
        .ok (acc ++ (r.buf.takeWhile (· ≠ 10) ++ [10]), { r with buf := (r.buf.dropWhile (· ≠ 10)).drop 1 })
      else if r.buf.isEmpty then .ok (acc, r)
      else BufRead.untilLf n { r with buf := [] } (acc ++ r.buf)

/-- std `BufRead::read_line` into an empty string. -/
def BufRead.readLine (r : BufRead) : Res (Str × BufRead) :=
  match r.untilLf (r.inner.calls.length + 2) [] with
  | .ok (bytes, r) =>
    match fromUtf8 bytes with
    | some s => .ok (s, r)
    | none => .err utf8Error
  | .err e => .err e
  | .panic => .panic
  | .hang => .hang

/-- std `default_read_to_end` on the stream behind the buffer: `read` until `Ok(0)` or an error; interrupted calls are repeated. -/
def readToEnd (ending : Option Str) : List ReadCall → List UInt8 → Res (List UInt8)
  | [], acc =>
    match ending with
    | none => .ok acc
    | some e => .err e
  | .data b bs :: cs, acc => readToEnd ending cs (acc ++ b :: bs)
  | .interrupted _ :: cs, acc => readToEnd ending cs acc

/-- std `BufReader::read_to_string` into an empty string: the buffer, then the rest of the stream. -/
def BufRead.readRest (r : BufRead) : Res Str :=
  match readToEnd r.inner.ending r.inner.calls r.buf with
  | .ok bytes =>
    match fromUtf8 bytes with
    | some s => .ok s
    | none => .err utf8Error
  | .err e => .err e
  | .panic => .panic
  | .hang => .hang

/-- response.rs:43-54, with fuel. -/
def BufRead.readHeaders : Nat → BufRead → Res (List Header × BufRead)
  | 0, _ => .hang
  | n + 1, r => do
    let (line, r) ← r.readLine
    if (trim line).isEmpty then pure ([], r)
    else do
      let (hs, r) ← r.readHeaders n
      match respHeaderOf line with
      | some h => pure (h :: hs, r)
      | none => pure (hs, r)

/-- The number of bytes the reader still delivers. -/
def ReadCall.size : ReadCall → Nat
  | .data _ bs => bs.length + 1
  | .interrupted _ => 0

/-- The number of bytes a reader still delivers (used as fuel). -/
def BufRead.size (r : BufRead) : Nat := r.buf.length + (r.inner.calls.map ReadCall.size).sum

/-- response.rs:29-64 `Response::from(BufReader::new(stream), f)`. The `read` of line 31 has a buffer of length 0: it fills the
reader's buffer (which is when `f` is called, line 33) and takes nothing from it; an interrupted call is an error here. The second
component says whether `f` was called. -/
def Response.receive (inner : Reads) : Res Response × Bool :=
  match (BufRead.mk [] inner).fill with
  | .interrupted t _ => (.err t, false)
  | .failed e => (.err e, false)
  | .ok r => (do
      let (line, r) ← r.readLine
      let ws := splitWs line
      let (headers, r) ← r.readHeaders (r.size + 1)
      let body ← r.readRest
      pure ⟨parseText ws[0]?, parseStatus ws[1]?, parseText ws[2]?, headers, body⟩, true)

/-! ## Writing -/

/-- The result of one `write` call on the stream. -/
inductive WriteCall where
  /-- `Ok(n)`: at most `n` bytes are taken -/
  | accept (n : Nat)
  | interrupted
  | failed (text : Str)
  deriving DecidableEq, Repr

/-- The stream as seen by a writer: the results of its next `write` calls (after them every call takes the whole buffer) and the bytes
taken so far. -/
structure Sink where
  calls : List WriteCall
  got : List UInt8
  deriving DecidableEq, Repr

/-- std: the text of the error when `write` takes nothing, in `Write::write_all`. -/
def writeAllZero : Str := c!"failed to write whole buffer"

/-- std: the same in `BufWriter::flush_buf`. -/
def flushZero : Str := c!"failed to write the buffered data"

/-- The loop shared by std `Write::write_all` and `BufWriter::flush_buf`: write until nothing is left. Returns the error, if any, the
bytes not written and the stream. -/
def writeLoop (zero : Str) : List WriteCall → List UInt8 → List UInt8 → Option Str × List UInt8 × Sink
  | cs, got, [] => (none, [], ⟨cs, got⟩)
  | [], got, b :: bs => (none, [], ⟨[], got ++ b :: bs⟩)
  | .accept 0 :: cs, got, b :: bs => (some zero, b :: bs, ⟨cs, got⟩)
  | .accept (n + 1) :: cs, got, b :: bs => writeLoop zero cs (got ++ (b :: bs).take (n + 1)) ((b :: bs).drop (n + 1))
  | .interrupted :: cs, got, b :: bs => writeLoop zero cs got (b :: bs)
  | .failed e :: cs, got, b :: bs => (some e, b :: bs, ⟨cs, got⟩)

/-- `BufWriter<&mut Stream>`: capacity, buffered bytes, stream. -/
structure BufWrite where
  cap : Nat
  buf : List UInt8
  sink : Sink
  deriving DecidableEq, Repr

/-- std `BufWriter::flush_buf`: what could not be written stays in the buffer. -/
def BufWrite.flushBuf (w : BufWrite) : Option Str × BufWrite :=
  let (e, left, sink) := writeLoop flushZero w.sink.calls w.sink.got w.buf
  (e, { w with buf := left, sink })

/-- std `BufWriter::write_all`: small pieces go to the buffer, which is flushed when it would overflow; pieces as large as the buffer
go to the stream directly. -/
def BufWrite.writeAll (w : BufWrite) (piece : List UInt8) : Option Str × BufWrite :=
  if piece.length < w.cap - w.buf.length then (none, { w with buf := w.buf ++ piece })
  else
    match (if w.cap - w.buf.length < piece.length then w.flushBuf else (none, w)) with
    | (some e, w) => (some e, w)
    | (none, w) =>
      if w.cap ≤ piece.length then
        let (e, _, sink) := writeLoop writeAllZero w.sink.calls w.sink.got piece
        (e, { w with sink })
      else (none, { w with buf := w.buf ++ piece })

/-- Several `write_all` calls, up to the first that fails. -/
def BufWrite.writeMany (w : BufWrite) : List (List UInt8) → Option Str × BufWrite
  | [] => (none, w)
  | p :: ps =>
    match w.writeAll p with
    | (none, w) => w.writeMany ps
    | (some e, w) => (some e, w)

/-- request.rs:107-111: the pieces that `write!` hands to the writer one after the other. -/
def Request.pieces (r : Request) : List (List UInt8) :=
  [utf8 r.method.text, utf8 c!" ", utf8 r.url.path, utf8 c!" ", utf8 r.version.text, utf8 c!"\r\n"] ++
  r.headers.flatMap (fun h => [utf8 h.name, utf8 c!": ", utf8 h.value, utf8 c!"\r\n"]) ++ [utf8 c!"\r\n"]

/-- How a body is handed over (content.rs:11-20): `copied` are the pieces in which `std::io::copy` takes a multipart body from its
reader, and `broken` is the error of that reader after them, if any. -/
structure Copy where
  copied : List (List UInt8)
  broken : Option Str
  deriving DecidableEq, Repr

/-- content.rs:11-20 `Content::write`. -/
def Content.writeTo (c : Content) (copy : Copy) (w : BufWrite) : Option Str × BufWrite :=
  match c with
  | .empty => (none, w)
  | .byte bytes => w.writeAll bytes
  | .multipart _ =>
    match w.writeMany copy.copied with
    | (some e, w) => (some e, w)
    | (none, w) => (copy.broken, w)

/-- request.rs:105-116 `Request::write`, followed by the drop of the `BufWriter`, which flushes what is left and ignores errors.
`flushed` is the result of `Stream::flush`. -/
def Request.writeTo (r : Request) (content : Content) (copy : Copy) (flushed : Bool) (cap : Nat) (sink : Sink) : Option HttpError × Sink :=
  let drop (w : BufWrite) : Sink := w.flushBuf.2.sink
  match (BufWrite.mk cap [] sink).writeMany r.pieces with
  | (some e, w) => (some (.writeFailed e), drop w)
  | (none, w) =>
    match content.writeTo copy w with
    | (some e, w) => (some (.writeFailed e), drop w)
    | (none, w) =>
      match w.flushBuf with
      | (some _, w) => (some .writeFlushFailed, drop w)
      | (none, w) => (if flushed then none else some .writeFlushFailed, drop w)

/-! ## Connecting and sending -/

/-- Everything outside the program that one `Client::send` depends on. -/
structure Wire where
  /-- whether a host is a valid server name (stream.rs:130) -/
  nameOk : Str → Bool
  /-- whether `ClientConnection::new` succeeds for this server name (stream.rs:131) -/
  tlsOk : Str → Bool
  /-- `to_socket_addrs` on host and port (stream.rs:51) -/
  resolved : Str → Nat → Option (List Addr)
  /-- whether connecting to an address succeeds -/
  up : Addr → Bool
  /-- the schedule of the connection race -/
  race : List RaceStep
  /-- `set_read_timeout` succeeds (stream.rs:57) -/
  timeoutOk : Bool
  writes : List WriteCall
  copy : Copy
  flushed : Bool
  /-- the capacity of the `BufWriter` -/
  cap : Nat
  reads : List ReadCall
  ending : ReadEnd
  clocks : Clocks

/-- stream.rs:61-117 `connect_happy`; `none` when the schedule stops before the race is over. -/
def Wire.connectHappy (w : Wire) (addrs : List Addr) : Option (Except HttpError Addr) :=
  let result : RacePc → Option (Except HttpError Addr)
    | .connected a => some (.ok a)
    | .failed e => some (.error (raceError e))
    | _ => none
  match addrs with
  | [a] => result (connectDirect w.up a)
  | _ =>
    match (Race.init addrs).run w.up w.race with
    | some r => result r.pc
    | none => none

/-- stream.rs:44-59 `connect_tcp`. -/
def Wire.connectTcp (w : Wire) (host : Str) (port : Nat) : Option (Except HttpError Addr) :=
  match w.resolved host port with
  | none => some (.error .hostNotFound)
  | some addrs =>
    match w.connectHappy addrs with
    | some (.ok a) => some (if w.timeoutOk then .ok a else .error .setReadTimeoutFailed)
    | r => r

/-- stream.rs:31-42 `Stream::connect` with 127-134 `connect_tls`. -/
def Wire.connect (w : Wire) (url : Url) : Option (Except HttpError Addr) :=
  match url.scheme with
  | .Http => w.connectTcp url.host url.port
  | .Https =>
    if w.nameOk url.host = false then some (.error .invalidUrlHost)
    else if w.tlsOk url.host = false then some (.error .tlsHandshakeFailed)
    else w.connectTcp url.host url.port

/-- What one `Client::send` returns and does: its result, the address it is connected to and the bytes it put on the connection. -/
structure Sent where
  result : Res (Request × Response × Time × Str)
  peer : Option Addr
  bytes : List UInt8

/-- client.rs:18-42 `Client::send`; `none` when the schedule stops before the connection is decided. -/
def Wire.send (w : Wire) (mp : List Part → Option (List UInt8)) (message : Str) : Option Sent :=
  let (request, content) := Request.ofStr mp message
  let c := w.clocks
  match w.connect request.url with
  | none => none
  | some (.error e) => some ⟨.ok (request, .default, .default c.sys0, e.text), none, []⟩
  | some (.ok a) =>
    match Time.connected c with
    | .ok t =>
      let (e, sink) := request.writeTo content w.copy w.flushed w.cap ⟨w.writes, []⟩
      match e with
      | some e => some ⟨.ok (request, .default, t, e.text), some a, sink.got⟩
      | none =>
        let (r, first) := Response.receive ⟨w.reads, streamEnd (request.url.scheme == .Https) w.ending⟩
        let t := if first then { t with delay := since c.first c.rd } else t
        match r with
        | .ok response =>
          some ⟨(do let t ← t.completed c; pure (request, response, t, [])), some a, sink.got⟩
        | .err e => some ⟨.ok (request, .default, t, (HttpError.readFailed e).text), some a, sink.got⟩
        | .panic => some ⟨.panic, some a, sink.got⟩
        | .hang => some ⟨.hang, some a, sink.got⟩
    | .err e => some ⟨.err e, some a, []⟩
    | .panic => some ⟨.panic, some a, []⟩
    | .hang => some ⟨.hang, some a, []⟩

end Am
