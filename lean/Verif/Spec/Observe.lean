import Verif.Model.Exit
/-! # Watching a run (C88) -/
namespace Am.Spec
open Am
variable {F : Type}

/-- The thread without its record file. -/
def unrecorded (w : Worker F) : Worker F := { w with file := none }

/-- What the threads have printed, in order; the statistics are left out. -/
def threadOutput (r : Run F) : List (Option Nat × Str) := r.out.filter fun c => c.1.isSome

/-- Two runs whose threads have done the same; record files and statistics aside. -/
structure SameWork (r r' : Run F) : Prop where
  threads : r.workers.map unrecorded = r'.workers.map unrecorded
  continuous : r.continuous = r'.continuous
  mainSender : r.mainSender = r'.mainSender
  output : threadOutput r = threadOutput r'

/-- The schedule without the steps of the statistics thread. -/
def withoutCollector : List RunStep → List RunStep
  | [] => []
  | .collect :: l => withoutCollector l
  | s :: l => s :: withoutCollector l

end Am.Spec
