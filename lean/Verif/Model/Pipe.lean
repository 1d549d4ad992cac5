import Verif.Model.TestRun
/-!
# Printing to a standard output that can fail

`println!` and `print!` panic when the standard output cannot be written (std `_print`), for example when it is a pipe and its reader is gone.
The places are native.rs:7 and 17 and cmd/src/command.rs:39, 41, 44, 66, 72, 99, 104, 122, 134, 138, 154. `Model/Evaluator.lean`, `Model/Command.lean`
and `Model/TestRun.lean` describe the same functions when every write works.

Whether a write fails is a parameter: `broken t` says whether printing fails when `t` is the text printed so far followed by the new piece.
What a failing call has still handed over is not counted as printed.
-/
namespace Am
variable {F : Type} [Rt F]

/-- `print!("{}", text)`. -/
def sayOn (broken : Str → Bool) (text : Str) : M F Unit := fun s =>
  if broken (s.out ++ text) then (.panic, s) else (.ok (), { s with out := s.out ++ text })

/-- native.rs:3-21 with evaluator.rs:223-230. -/
def callNativeOn (broken : Str → Bool) (name : Str) (args : List (Value F)) : M F (Value F) :=
  if name = c!"println" then do
    let v ← M.lift (nativeFormat args)
    sayOn broken (v.display ++ c!"\n")
    pure .null
  else if name = c!"print" then do
    let v ← M.lift (nativeFormat args)
    sayOn broken v.display
    pure .null
  else callNative name args

/-- evaluator.rs:166-231, as `callAt`. -/
def callAtOn (broken : Str → Bool) (net : Net) : Nat → Call F
  | 0, name, args => fun s =>
    match s.ctx.request name with
    | some _ => (.hang, s)
    | none => callNativeOn broken name args s
  | n + 1, name, args => fun s =>
    match s.ctx.request name with
    | some (message, asserts) => callRequest net (callAtOn broken net n) name message asserts s
    | none => callNativeOn broken name args s

/-- evaluator.rs:234 `eval_block`. -/
def runBlockOn (broken : Str → Bool) (net : Net) (es : List (Expr F)) : M F (Value F) := evalBlock (callAtOn broken net 1) .null es

/-- command.rs:32-47 `eval`. -/
def evalTextOn (broken : Str → Bool) (net : Net) (text : Str) : M F Unit :=
  match (parse text : Res (Source F)) with
  | .ok src => do
    M.modify fun s => { s with ctx := s.ctx.extend src.requests }
    fun s =>
      match runBlockOn broken net src.exprs s with
      | (.ok v, s) => sayOn broken (v.display ++ c!"\n") s
      | (.err e, s) => sayOn broken (e ++ c!"\n") s
      | (.panic, s) => (.panic, s)
      | (.hang, s) => (.hang, s)
  | .err e => sayOn broken (e ++ c!"\n")
  | .panic => M.lift .panic
  | .hang => M.lift .hang

/-- command.rs:16-30 `repl`'s loop. -/
def replLoopOn (broken : Str → Bool) (net : Net) : List Input → M F Unit
  | [] => M.lift .hang
  | .bad :: rest => replLoopOn broken net rest
  | .line text :: rest =>
    if text = c!"exit" then M.pure ()
    else if (trim text).isEmpty then replLoopOn broken net rest
    else do
      evalTextOn broken net text
      replLoopOn broken net rest

/-- command.rs:95-109 and 131-141: one step of worker `i`. In the step that evaluates, `broken` looks at the text printed in this evaluation;
in a step that prints a record, at the text of this record. A thread that panics has ended: the records it has taken are dropped. -/
def Worker.stepOn (broken : Str → Bool) (cfg : Config) (cont : Bool) (i : Nat) (net : Net) (w : Worker F) : Option (Worker F × Effect) :=
  match w.pc with
  | .eval =>
    match runBlockOn broken net w.test ⟨w.ctx, [], []⟩ with
    | (.ok _, s) =>
      let (rs, ctx) := s.ctx.takeRecords
      some ({ w with pc := .print rs rs, ctx }, ⟨[s.out], []⟩)
    | (.err e, s) =>
      if broken (s.out ++ (e ++ c!"\n")) then some ({ w with pc := .done, ctx := s.ctx }, ⟨[s.out], []⟩)
      else if cfg.named then some ({ w with pc := .done, ctx := s.ctx }, ⟨[s.out, e ++ c!"\n"], []⟩)
      else
        let (rs, ctx) := s.ctx.takeRecords
        some ({ w with pc := .print rs rs, ctx }, ⟨[s.out, e ++ c!"\n"], []⟩)
    | (.panic, s) => some ({ w with pc := .done, ctx := s.ctx }, ⟨[s.out], []⟩)
    | (.hang, s) => some ({ w with pc := .stuck, ctx := s.ctx }, ⟨[s.out], []⟩)
  | .print rs (r :: left) =>
    if broken (r.text ++ c!"\n") then some ({ w with pc := .done }, ⟨[], []⟩)
    else some ({ w with pc := .print rs left }, ⟨[r.text ++ c!"\n"], []⟩)
  | _ => w.step cfg cont i net

/-- One step of the program; the statistics thread panics when it cannot print (line 154). -/
def Run.stepOn (broken : Str → Bool) (cfg : Config) (r : Run F) : RunStep → Option (Run F)
  | .work i net =>
    match r.workers[i]? with
    | none => none
    | some w =>
      match w.stepOn broken cfg r.continuous i net with
      | none => none
      | some (w', e) =>
        some { r with
          workers := r.workers.set i w'
          channel := r.channel ++ e.sent
          out := r.out ++ e.out.map fun t => (some i, t) }
  | .collect =>
    match r.collector, cfg.stat, r.channel with
    | .running, true, [] =>
      if r.disconnected cfg && broken (r.stats.text F) then some { r with collector := .done } else r.step cfg .collect
    | _, _, _ => r.step cfg .collect
  | s => r.step cfg s

/-- A run: for every step, what the scheduler chooses and whether the output can be written. -/
def Run.runOn (cfg : Config) (r : Run F) : List (RunStep × (Str → Bool)) → Option (Run F)
  | [] => some r
  | (s, broken) :: l => (r.stepOn broken cfg s).bind fun r => r.runOn cfg l

end Am
