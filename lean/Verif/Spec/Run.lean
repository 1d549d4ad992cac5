import Verif.Model.TestRun
/-! # What a run of tests should do -/
namespace Am.Spec
open Am
variable {F : Type} [Rt F]

/-- What thread `i` sees of a schedule: for each of its steps, the stop flag and the network. -/
def inputs (i : Nat) : Bool → List RunStep → List (Bool × Net)
  | _, [] => []
  | cont, .work j net :: l => if j = i then (cont, net) :: inputs i cont l else inputs i cont l
  | _, .stop :: l => inputs i false l
  | cont, .drop :: l => inputs i cont l
  | cont, .collect :: l => inputs i cont l

/-- The text printed by thread `i` so far, in chunks. -/
def outOf (i : Option Nat) (out : List (Option Nat × Str)) : List Str := (out.filter fun p => p.1 == i).map Prod.snd

/-- A worker alone: its steps on the given inputs, with everything it prints and sends. -/
def workerRun (cfg : Config) (i : Nat) (w : Worker F) : List (Bool × Net) → Option (Worker F × List Str × List (List Record))
  | [] => some (w, [], [])
  | (cont, net) :: l =>
    match w.step cfg cont i net with
    | none => none
    | some (w1, e) => (workerRun cfg i w1 l).map fun p => (p.1, e.out ++ p.2.1, e.sent ++ p.2.2)

/-- The networks of the evaluations the worker starts. -/
def evalNets (cfg : Config) (i : Nat) (w : Worker F) : List (Bool × Net) → List Net
  | [] => []
  | (cont, net) :: l =>
    match w.step cfg cont i net with
    | none => []
    | some (w1, _) => (if w.pc = .eval then [net] else []) ++ evalNets cfg i w1 l

/-- `Iterations test base nets hist c`: running `test` once per network in `nets`, each time successfully, beginning in context `base` and each time
taking out the records, prints and records `hist` and ends in context `c`. -/
inductive Iterations (test : List (Expr F)) (base : Context F) : List Net → List (Str × List Record) → Context F → Prop where
  | nil : Iterations test base [] [] base
  | snoc {nets hist c net v s} : Iterations test base nets hist c → runBlock net test ⟨c, [], []⟩ = (.ok v, s) →
      Iterations test base (nets ++ [net]) (hist ++ [(s.out, s.ctx.records)]) { s.ctx with records := [] }

/-- What is printed for the iterations: the text printed by the test, then each record on its own line. -/
def chunks (hist : List (Str × List Record)) : List Str := hist.flatMap fun p => p.1 :: p.2.map fun r => r.text ++ c!"\n"

/-- The record file of the iterations: one batch each, numbered from 0. -/
def iterationFile (name : Str) (thread : Nat) (hist : List (Str × List Record)) : List UInt8 :=
  writerFile (hist.zipIdx.map fun p => ⟨p.1.2, name, thread, p.2⟩)

/-- The samples of the iterations. -/
def samples (hist : List (Str × List Record)) : List (Str × Nat) := hist.flatMap fun p => p.2.map fun r => (r.name, r.time.total / 1000000)

/-- A worker of `am test` before its first step. -/
abbrev fresh (record : Bool) (base : Context F) (name : Str) (test : List (Expr F)) : Worker F := Worker.init record base name test

/-- `r` is reached by the schedule `l` in a run of the test `name` with `t` threads and `--number n`. -/
def NamedRun (record stat : Bool) (base : Context F) (name : Str) (test : List (Expr F)) (t n : Nat) (l : List RunStep) (r : Run F) : Prop :=
  (Run.init (List.replicate t (fresh record base name test))).run ⟨true, n / t, stat⟩ l = some r

/-- `r` is reached by the schedule `l` in a run of all tests. -/
def AllRun (record stat : Bool) (base : Context F) (tests : List (Str × List (Expr F))) (l : List RunStep) (r : Run F) : Prop :=
  (Run.init (tests.map fun p => fresh record base p.1 p.2)).run ⟨false, 1, stat⟩ l = some r

/-- The networks of the executions of the test body by thread `i` in a run of a named test. -/
def executions (record stat : Bool) (base : Context F) (name : Str) (test : List (Expr F)) (t n : Nat) (l : List RunStep) (i : Nat) : List Net :=
  evalNets ⟨true, n / t, stat⟩ i (fresh record base name test) (inputs i true l)

/-- How often the test body is executed in total. -/
def total (record stat : Bool) (base : Context F) (name : Str) (test : List (Expr F)) (t n : Nat) (l : List RunStep) : Nat :=
  ((List.range t).map fun i => (executions record stat base name test t n l i).length).sum

end Am.Spec
