import Verif.Model.Launch
/-! # What starting the threads of a run should do (C76) -/
namespace Am.Spec
open Am
variable {F : Type} [Rt F]

/-- The steps of the running threads in a schedule. -/
def moves : List LaunchStep → List RunStep
  | [] => []
  | .spawn :: l => moves l
  | .step s :: l => s :: moves l

/-- `l` is reached by the schedule `sched` when `am test` starts the threads `ws` with the files `dir` in the record directory. -/
def Launches (cfg : Config) (pod : Str) (creatable : Str → Bool) (ws : List (Worker F)) (dir : List (Str × List UInt8)) (sched : List LaunchStep)
    (l : Launch F) : Prop := (Launch.init ws dir).steps cfg pod creatable sched = some l

/-- `n` is the first thread whose record file cannot be created. -/
def FirstBad (pod : Str) (creatable : Str → Bool) (n : Nat) : Prop :=
  creatable (recordFile pod n) = false ∧ ∀ i, i < n → creatable (recordFile pod i) = true

end Am.Spec
