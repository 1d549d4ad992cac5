import Verif.Model.Command
/-!
# cmd/src/command.rs:49-161 `test`, after the sources are read and the top-level expressions are evaluated

A small-step machine. Every worker thread owns its context and its record file; threads share the stop flag, the channel
and the standard output. One evaluation of a test block is one step: it only touches the worker's own context, and what the
network answers during it is an arbitrary `Net` chosen by the scheduler, so interleavings of the requests of different threads
are covered. Text printed during one evaluation is one chunk of the output; records are printed one by one.
-/
namespace Am

/-- Where a worker thread is. -/
inductive WorkerPc where
  /-- at the loop condition (line 95); in all-tests mode, before the only evaluation (line 131) -/
  | head
  /-- about to call `eval_block` (line 96 or 131) -/
  | eval
  /-- records `rs` taken (line 103 or 137), `left` still to be printed (line 104 or 138) -/
  | print (rs left : List Record)
  /-- about to write them (line 105 or 139) -/
  | write (rs : List Record)
  /-- about to send them (line 108) -/
  | send (rs : List Record)
  /-- finished; its sender is dropped -/
  | done
  /-- inside an evaluation that never returns -/
  | stuck
  deriving DecidableEq, Repr

/-- A worker thread. -/
structure Worker (F : Type) where
  pc : WorkerPc
  /-- test name and block (lines 89-90 or 127) -/
  name : Str
  test : List (Expr F)
  /-- its own clone of the context (line 92 or 129) -/
  ctx : Context F
  /-- iterations completed (line 94) -/
  number : Nat
  /-- bytes in its record file; `none` without `--record` (line 91 or 128) -/
  file : Option (List UInt8)

/-- The statistics thread (lines 146-156). -/
inductive CollectorPc where
  | running
  | done
  deriving DecidableEq, Repr

/-- What does not change during a run. -/
structure Config where
  /-- a test name was given (line 79) -/
  named : Bool
  /-- iterations per thread, `number / threads` (line 85) -/
  maximum : Nat
  /-- `--stat` -/
  stat : Bool
  deriving DecidableEq, Repr

/-- The whole program state. -/
structure Run (F : Type) where
  workers : List (Worker F)
  /-- the stop flag is still `true` (line 84) -/
  continuous : Bool
  /-- batches in the channel, oldest first -/
  channel : List (List Record)
  /-- main still holds its sender (line 157) -/
  mainSender : Bool
  collector : CollectorPc
  stats : Stats
  /-- standard output, by chunks, newest last; the number is the thread (`none`: statistics) -/
  out : List (Option Nat × Str)

variable {F : Type} [Rt F]

/-- Lines 150-152: one batch added to the statistics; `as_millis` drops the fraction. -/
def addBatch (s : Stats) (rs : List Record) : Stats :=
  rs.foldl (fun s r => s.add r.name (r.time.total / 1000000)) s

/-- Scheduler choices. -/
inductive RunStep where
  /-- worker `i` takes its next step; `net` is what the network answers if this step is an evaluation -/
  | work (i : Nat) (net : Net)
  /-- the timer fires or the user interrupts (lines 114-119) -/
  | stop
  /-- main drops its sender (line 157) -/
  | drop
  /-- the statistics thread takes its next step -/
  | collect

/-- What one step of a worker changes outside the worker. -/
structure Effect where
  out : List Str
  sent : List (List Record)

/-- One step of worker `i`; `none` when it cannot move. -/
def Worker.step (cfg : Config) (cont : Bool) (i : Nat) (net : Net) (w : Worker F) : Option (Worker F × Effect) :=
  match w.pc with
  | .head =>
    if cfg.named then
      if cont && w.number < cfg.maximum then some ({ w with pc := .eval }, ⟨[], []⟩)
      else some ({ w with pc := .done }, ⟨[], []⟩)
    else some ({ w with pc := .eval }, ⟨[], []⟩)
  | .eval =>
    match runBlock net w.test ⟨w.ctx, [], []⟩ with
    | (.ok _, s) =>
      let (rs, ctx) := s.ctx.takeRecords
      some ({ w with pc := .print rs rs, ctx }, ⟨[s.out], []⟩)
    | (.err e, s) =>
      if cfg.named then some ({ w with pc := .done, ctx := s.ctx }, ⟨[s.out, e ++ c!"\n"], []⟩)
      else
        let (rs, ctx) := s.ctx.takeRecords
        some ({ w with pc := .print rs rs, ctx }, ⟨[s.out, e ++ c!"\n"], []⟩)
    | (.panic, s) => some ({ w with pc := .done, ctx := s.ctx }, ⟨[s.out], []⟩)
    | (.hang, s) => some ({ w with pc := .stuck, ctx := s.ctx }, ⟨[s.out], []⟩)
  | .print rs (r :: left) => some ({ w with pc := .print rs left }, ⟨[r.text ++ c!"\n"], []⟩)
  | .print rs [] => some ({ w with pc := .write rs }, ⟨[], []⟩)
  | .write rs =>
    let file := w.file.map fun f => f ++ encBlock rs w.name i w.number
    if cfg.named then some ({ w with pc := .send rs, file }, ⟨[], []⟩)
    else some ({ w with pc := .done, file }, ⟨[], []⟩)
  | .send rs =>
    some ({ w with pc := .head, number := w.number + 1 }, ⟨[], if cfg.stat then [rs] else []⟩)
  | .done => none
  | .stuck => none

/-- Every worker thread has ended. -/
def Run.workersDone (r : Run F) : Bool := r.workers.all fun w => w.pc == .done

/-- Every sender is dropped: main's and, when a test name was given, every worker's (line 87; in all-tests mode the workers have none). -/
def Run.disconnected (cfg : Config) (r : Run F) : Bool := !r.mainSender && (!cfg.named || r.workersDone)

/-- One step of the program; `none` when the choice is not enabled. -/
def Run.step (cfg : Config) (r : Run F) : RunStep → Option (Run F)
  | .work i net =>
    match r.workers[i]? with
    | none => none
    | some w =>
      match w.step cfg r.continuous i net with
      | none => none
      | some (w', e) =>
        some { r with
          workers := r.workers.set i w'
          channel := r.channel ++ e.sent
          out := r.out ++ e.out.map fun t => (some i, t) }
  | .stop => some { r with continuous := false }
  | .drop => if r.mainSender then some { r with mainSender := false } else none
  | .collect =>
    match r.collector with
    | .done => none
    | .running =>
      if cfg.stat then
        match r.channel with
        | b :: q => some { r with channel := q, stats := addBatch r.stats b }
        | [] =>
          if r.disconnected cfg then
            some { r with collector := .done, out := r.out ++ [(none, r.stats.text F)] }
          else none
      else some { r with collector := .done }

/-- A run: a list of scheduler choices, all enabled. -/
def Run.run (cfg : Config) (r : Run F) : List RunStep → Option (Run F)
  | [] => some r
  | s :: l => (r.step cfg s).bind fun r => r.run cfg l

/-- Every thread has finished and main can join them all (lines 158-160). -/
def Run.finished (r : Run F) : Bool := r.workersDone && !r.mainSender && r.collector == .done

/-- Lines 86-94 and 127-130: a worker before its first step. -/
def Worker.init (record : Bool) (base : Context F) (name : Str) (test : List (Expr F)) : Worker F :=
  ⟨.head, name, test, base.clone, 0, if record then some (encHeader avroMeta) else none⟩

/-- The state before any thread has moved. -/
def Run.init (ws : List (Worker F)) : Run F := ⟨ws, true, [], true, .running, [], []⟩

/-- Line 85: `number / threads`; panics when `threads` is zero. -/
def perThread (number threads : Nat) : Res Nat := if threads = 0 then .panic else .ok (number / threads)

/-- What `test` does before spawning threads (lines 58-75): `none` when it prints an error and returns. -/
def setup (net : Net) (text : Str) : M F (Option (List (Str × List (Expr F)))) :=
  match (parse text : Res (Source F)) with
  | .ok src => fun s =>
    match runBlock net src.exprs { s with ctx := s.ctx.extend src.requests } with
    | (.ok _, s) => (.ok (some src.tests), s)
    | (.err e, s) => (.ok none, (sayLine e s).2)
    | (.panic, s) => (.panic, s)
    | (.hang, s) => (.hang, s)
  | .err e => fun s => (.ok none, (sayLine (F := F) e s).2)
  | .panic => M.lift .panic
  | .hang => M.lift .hang

/-- What `test` starts (lines 76-145): the run configuration and the workers, or nothing when the named test does not exist.
`order` is the iteration order of the map of tests (line 127). -/
def startWorkers (order : List (Str × List (Expr F)) → List (Str × List (Expr F))) (record : Bool) (base : Context F)
    (tests : List (Str × List (Expr F))) (name : Option Str) (threads number : Nat) (stat : Bool) :
    Res (Option (Config × List (Worker F))) :=
  match name with
  | some name =>
    match amGet name tests with
    | some test => do
      let maximum ← perThread number threads
      pure (some (⟨true, maximum, stat⟩, List.replicate threads (Worker.init record base name test)))
    | none => pure none
  | none => pure (some (⟨false, 1, stat⟩, (order tests).map fun p => Worker.init record base p.1 p.2))

end Am
