import Verif.Model.TestRun
/-! # cmd/src/main.rs:43-71 `main` for `am test`, with cmd/src/command.rs:49-161 up to the start of the threads -/
namespace Am

/-- main.rs:20-42: the arguments of `am test` that matter here; `duration` in seconds. Record files are assumed to be creatable
(command.rs:189 panics otherwise). -/
structure TestArgs where
  name : Option Str
  threads : Nat
  duration : Option Nat
  number : Nat
  record : Bool
  stat : Bool
  deriving DecidableEq, Repr

/-- What `am test` has come to when it has spawned its threads. -/
inductive Started (F : Type) where
  /-- `test` has returned (command.rs:67, 73) -/
  | ended
  | panicked
  | endless
  /-- the threads (and the statistics thread) are there -/
  | threads (cfg : Config) (workers : List (Worker F))

variable {F : Type} [Rt F]

/-- command.rs:58-145 `test` on the text of the sources. When the named test does not exist, the statistics thread is started all the
same (lines 122, 146). -/
def startTest (order : List (Str × List (Expr F)) → List (Str × List (Expr F))) (net : Net) (args : TestArgs) (text : Str) : Started F × St F :=
  match setup net text ⟨Context.new, [], []⟩ with
  | (.ok none, s) => (.ended, s)
  | (.ok (some tests), s) =>
    match startWorkers order args.record s.ctx tests args.name args.threads (limits args.duration args.number).2 args.stat with
    | .ok (some (cfg, ws)) => (.threads cfg ws, s)
    | .ok none => (.threads ⟨true, 0, args.stat⟩ [], (sayLine (F := F) (c!"Test not found: " ++ args.name.getD []) s).2)
    | .err _ => (.ended, s)
    | .panic => (.panicked, s)
    | .hang => (.endless, s)
  | (.err _, s) => (.ended, s)
  | (.panic, s) => (.panicked, s)
  | (.hang, s) => (.endless, s)

/-- main.rs:52-66 with command.rs:58: `am test` on the files at a path; reading them may panic (command.rs:165). -/
def amTest (order : List (Str × List (Expr F)) → List (Str × List (Expr F))) (net : Net) (args : TestArgs) (root : Str) (files : Node) : Started F × St F :=
  match readToString root files with
  | .ok text => startTest order net args text
  | _ => (.panicked, ⟨Context.new, [], []⟩)

end Am
