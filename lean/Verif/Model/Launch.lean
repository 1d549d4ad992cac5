import Verif.Model.TestRun
/-!
# cmd/src/command.rs:86-145 and 184-194: how `test` starts its threads one after the other

The main thread creates the record file of a thread and then starts the thread, before it goes on to the next one; threads already started
run meanwhile. When a file cannot be created the main thread panics, which ends the process with all its threads. The stop flag, the dropped
sender and the statistics thread (lines 114-119, 146-157) come after the last thread is started.

The directory holds the files by name. `File::create` makes an empty file or empties an existing one; `Writer::new` writes the header. Other
processes are assumed to leave the directory alone.
-/
namespace Am

/-- The program while it starts its threads. -/
structure Launch (F : Type) where
  /-- threads not yet started, in order -/
  waiting : List (Worker F)
  /-- the threads already started, with the rest of the program state -/
  run : Run F
  /-- the files in the directory given by `--record`, by name -/
  dir : List (Str × List UInt8)
  /-- the main thread has panicked (line 189) -/
  crashed : Bool

/-- Choices of the scheduler. -/
inductive LaunchStep where
  /-- the main thread starts the next thread -/
  | spawn
  /-- something else moves -/
  | step (s : RunStep)

variable {F : Type} [Rt F]

/-- Lines 86-111 and 127-144 for one thread: line 91 or 128 creates the file (`creatable` says whether that works), line 93 or 130 starts the
thread. -/
def Launch.spawn (pod : Str) (creatable : Str → Bool) (l : Launch F) : Option (Launch F) :=
  match l.waiting with
  | [] => none
  | w :: ws =>
    let run := { l.run with workers := l.run.workers ++ [w] }
    match w.file with
    | none => some { l with waiting := ws, run }
    | some header =>
      let name := recordFile pod l.run.workers.length
      if creatable name then some { l with waiting := ws, run, dir := amInsert name header l.dir }
      else some { l with crashed := true }

/-- A step of the running threads; a thread's own file changes with it (lines 105-107, 139-141). -/
def Launch.move (cfg : Config) (pod : Str) (l : Launch F) (s : RunStep) : Option (Launch F) :=
  match s with
  | .work i net =>
    match l.run.step cfg (.work i net) with
    | none => none
    | some run =>
      match run.workers[i]? with
      | some ⟨_, _, _, _, _, some bytes⟩ => some { l with run, dir := amInsert (recordFile pod i) bytes l.dir }
      | _ => some { l with run }
  | s => if l.waiting.isEmpty then (l.run.step cfg s).map fun run => { l with run } else none

/-- One step of the program; nothing moves after a crash. -/
def Launch.step (cfg : Config) (pod : Str) (creatable : Str → Bool) (l : Launch F) : LaunchStep → Option (Launch F)
  | .spawn => if l.crashed then none else l.spawn pod creatable
  | .step s => if l.crashed then none else l.move cfg pod s

/-- A list of scheduler choices, all enabled. -/
def Launch.steps (cfg : Config) (pod : Str) (creatable : Str → Bool) (l : Launch F) : List LaunchStep → Option (Launch F)
  | [] => some l
  | s :: rest => (l.step cfg pod creatable s).bind fun l => l.steps cfg pod creatable rest

/-- Before the first thread is started, with the files `dir` in the directory. -/
def Launch.init (ws : List (Worker F)) (dir : List (Str × List UInt8)) : Launch F := ⟨ws, Run.init [], dir, false⟩

end Am
