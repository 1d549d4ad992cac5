import Verif.Model.Io
import Verif.Model.TestRun
/-!
# A connection on which nothing more arrives and which nobody closes

`Client::default()` (evaluator.rs:182, client.rs:10-14) has neither a connect nor a read timeout, so stream.rs:57 sets none: a `read` call returns
when something arrives or the connection ends, and otherwise never. `Model/Io.lean` and `Model/TestRun.lean` describe the same functions when every
connection ends. Here `Res.hang` is a call that waits for ever.
-/
namespace Am

/-! ## Reading (response.rs) -/

/-- `BufReader<Stream>`: the unread part of its buffer and what the `read` calls still to come deliver before they wait. -/
structure OpenRead where
  buf : List UInt8
  calls : List ReadCall
  deriving DecidableEq, Repr

/-- std `read_until(b'\n', ..)` with `BufReader::fill_buf`. -/
def openUntilLf (buf : List UInt8) : List ReadCall → List UInt8 → Res (List UInt8 × OpenRead)
  | calls, acc =>
    if buf.contains 10 then .ok (acc ++ (buf.takeWhile (· ≠ 10) ++ [10]), ⟨(buf.dropWhile (· ≠ 10)).drop 1, calls⟩)
    else
      match calls with
      | [] => .hang
      | .data b bs :: cs => openUntilLf (b :: bs) cs (acc ++ buf)
      | .interrupted _ :: cs => openUntilLf [] cs (acc ++ buf)

/-- std `BufRead::read_line` into an empty string. -/
def OpenRead.readLine (r : OpenRead) : Res (Str × OpenRead) :=
  match openUntilLf r.buf r.calls [] with
  | .ok (bytes, r) =>
    match fromUtf8 bytes with
    | some s => .ok (s, r)
    | none => .err utf8Error
  | .err e => .err e
  | .panic => .panic
  | .hang => .hang

/-- response.rs:43-54, with fuel. -/
def OpenRead.readHeaders : Nat → OpenRead → Res (List Header × OpenRead)
  | 0, _ => .hang
  | n + 1, r => do
    let (line, r) ← r.readLine
    if (trim line).isEmpty then pure ([], r)
    else do
      let (hs, r) ← r.readHeaders n
      match respHeaderOf line with
      | some h => pure (h :: hs, r)
      | none => pure (hs, r)

/-- std `BufReader::read_to_string`: it reads until a call says that the stream has ended, whatever has arrived. -/
def OpenRead.readRest (_ : OpenRead) : Res Str := .hang

/-- The number of bytes still to come (used as fuel). -/
def OpenRead.size (r : OpenRead) : Nat := r.buf.length + (r.calls.map ReadCall.size).sum

/-- response.rs:29-64 `Response::from(BufReader::new(stream), f)`. The second component says whether `f` was called. -/
def Response.await (calls : List ReadCall) : Res Response × Bool :=
  match calls with
  | [] => (.hang, false)
  | .interrupted t :: _ => (.err t, false)
  | .data b bs :: cs => (do
      let (line, r) ← OpenRead.readLine ⟨b :: bs, cs⟩
      let ws := splitWs line
      let (headers, r) ← r.readHeaders (r.size + 1)
      let body ← r.readRest
      pure ⟨parseText ws[0]?, parseStatus ws[1]?, parseText ws[2]?, headers, body⟩, true)

/-- client.rs:18-42 `Client::send` when the connection stays open after `w.reads`. -/
def Wire.sendOpen (w : Wire) (mp : List Part → Option (List UInt8)) (message : Str) : Option Sent :=
  let (request, content) := Request.ofStr mp message
  let c := w.clocks
  match w.connect request.url with
  | none => none
  | some (.error e) => some ⟨.ok (request, .default, .default c.sys0, e.text), none, []⟩
  | some (.ok a) =>
    match Time.connected c with
    | .ok t =>
      let (e, sink) := request.writeTo content w.copy w.flushed w.cap ⟨w.writes, []⟩
      match e with
      | some e => some ⟨.ok (request, .default, t, e.text), some a, sink.got⟩
      | none =>
        let (r, first) := Response.await w.reads
        let t := if first then { t with delay := since c.first c.rd } else t
        match r with
        | .ok response =>
          some ⟨(do let t ← t.completed c; pure (request, response, t, [])), some a, sink.got⟩
        | .err e => some ⟨.ok (request, .default, t, (HttpError.readFailed e).text), some a, sink.got⟩
        | .panic => some ⟨.panic, some a, sink.got⟩
        | .hang => some ⟨.hang, some a, sink.got⟩
    | .err e => some ⟨.err e, some a, []⟩
    | .panic => some ⟨.panic, some a, []⟩
    | .hang => some ⟨.hang, some a, []⟩

/-! ## Evaluation and runs

`quiet sent message` says that the exchange for `message` never ends: connecting, writing or reading waits for ever. -/
variable {F : Type} [Rt F]

/-- evaluator.rs:167-222, as `callRequest`; `Client::send` (line 182) may wait for ever. -/
def callRequestQuiet (quiet : List Str → Str → Bool) (net : Net) (call : Call F) (name : Str) (message : Str) (asserts : List (Expr F)) : M F (Value F) := do
  let s ← M.get
  let text := render s.ctx message
  M.modify fun s => { s with sent := s.sent ++ [text] }
  let (request, response, time, error) ← M.lift (if quiet s.sent text then .hang else send net s.sent text)
  let map ← M.lift (response.toMap (F := F))
  let (as, inner) ← inLocal map (evalAsserts call asserts)
  M.modify fun s => { s with ctx := s.ctx.push ⟨name, time, request, response, as, error⟩ }
  pure (.map inner)

/-- evaluator.rs:166-231, as `callAt`. -/
def callAtQuiet (quiet : List Str → Str → Bool) (net : Net) : Nat → Call F
  | 0, name, args => fun s =>
    match s.ctx.request name with
    | some _ => (.hang, s)
    | none => callNative name args s
  | n + 1, name, args => fun s =>
    match s.ctx.request name with
    | some (message, asserts) => callRequestQuiet quiet net (callAtQuiet quiet net n) name message asserts s
    | none => callNative name args s

/-- evaluator.rs:234 `eval_block`. -/
def runBlockQuiet (quiet : List Str → Str → Bool) (net : Net) (es : List (Expr F)) : M F (Value F) := evalBlock (callAtQuiet quiet net 1) .null es

/-- command.rs:95-109 and 131-141: one step of worker `i`. -/
def Worker.stepQuiet (quiet : List Str → Str → Bool) (cfg : Config) (cont : Bool) (i : Nat) (net : Net) (w : Worker F) : Option (Worker F × Effect) :=
  match w.pc with
  | .eval =>
    match runBlockQuiet quiet net w.test ⟨w.ctx, [], []⟩ with
    | (.ok _, s) =>
      let (rs, ctx) := s.ctx.takeRecords
      some ({ w with pc := .print rs rs, ctx }, ⟨[s.out], []⟩)
    | (.err e, s) =>
      if cfg.named then some ({ w with pc := .done, ctx := s.ctx }, ⟨[s.out, e ++ c!"\n"], []⟩)
      else
        let (rs, ctx) := s.ctx.takeRecords
        some ({ w with pc := .print rs rs, ctx }, ⟨[s.out, e ++ c!"\n"], []⟩)
    | (.panic, s) => some ({ w with pc := .done, ctx := s.ctx }, ⟨[s.out], []⟩)
    | (.hang, s) => some ({ w with pc := .stuck, ctx := s.ctx }, ⟨[s.out], []⟩)
  | _ => w.step cfg cont i net

/-- One step of the program. -/
def Run.stepQuiet (quiet : List Str → Str → Bool) (cfg : Config) (r : Run F) : RunStep → Option (Run F)
  | .work i net =>
    match r.workers[i]? with
    | none => none
    | some w =>
      match w.stepQuiet quiet cfg r.continuous i net with
      | none => none
      | some (w', e) =>
        some { r with
          workers := r.workers.set i w'
          channel := r.channel ++ e.sent
          out := r.out ++ e.out.map fun t => (some i, t) }
  | s => r.step cfg s

/-- A run: for every step, what the scheduler chooses and which exchanges never end. -/
def Run.runQuiet (cfg : Config) (r : Run F) : List (RunStep × (List Str → Str → Bool)) → Option (Run F)
  | [] => some r
  | (s, quiet) :: l => (r.stepQuiet quiet cfg s).bind fun r => r.runQuiet cfg l

end Am
