import Verif.Model.Main
import Verif.Model.Launch
/-!
# cmd/src/main.rs:43-71: how the process ends

`main` returns `()`, so the exit status is 0 whenever it returns. A panic of the main thread ends the process with status 101 (std); a panic
of another thread only ends that thread, and `let _ = handle.join()` (command.rs:159) ignores it.
-/
namespace Am
variable {F : Type} [Rt F]

/-- How the process ends. -/
inductive Ending where
  | status (code : Nat)
  /-- the main thread never gets to its end -/
  | never
  deriving DecidableEq, Repr

/-- main.rs:43-71: what becomes of a call made by `main`; an `Err` is a value like any other. -/
def Res.ending {α : Type} : Res α → Ending
  | .ok _ => .status 0
  | .err _ => .status 0
  | .panic => .status 101
  | .hang => .never

/-- main.rs:46-48: `am eval text`. -/
def evalEnding (F : Type) [Rt F] (net : Net) (text : Str) : Ending := (evalText (F := F) net text ⟨Context.new, [], []⟩).1.ending

/-- main.rs:67-69: `am` without a command. -/
def replEnding (F : Type) [Rt F] (net : Net) (input : List Input) : Ending := (repl (F := F) net input [] []).1.ending

/-- main.rs:49-66 with command.rs:49-161: `am test`, with the choices `sched` of the scheduler; `none` while the process still runs (and when
`sched` is no schedule). The main thread joins every thread and returns (lines 158-160). -/
def testEnding (order : List (Str × List (Expr F)) → List (Str × List (Expr F))) (net : Net) (args : TestArgs) (root : Str) (files : Node)
    (pod : Str) (creatable : Str → Bool) (dir : List (Str × List UInt8)) (sched : List LaunchStep) : Option Ending :=
  match (amTest order net args root files).1 with
  | .ended => if sched.isEmpty then some (.status 0) else none
  | .panicked => if sched.isEmpty then some (.status 101) else none
  | .endless => if sched.isEmpty then some .never else none
  | .threads cfg ws =>
    match (Launch.init ws dir).steps cfg pod creatable sched with
    | none => none
    | some l =>
      if l.crashed then some (.status 101)
      else if l.waiting.isEmpty && l.run.finished then some (.status 0)
      else none

end Am
