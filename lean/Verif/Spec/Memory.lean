import Verif.Spec.Growth
import Verif.Model.TestRun
/-! # What `am test` keeps in memory while it runs (C109) -/
namespace Am.Spec
open Am
variable {F : Type}

/-- The records a thread holds: those in its context and those it has taken out to print, write and send. -/
def heldRecords (w : Worker F) : List Record :=
  w.ctx.records ++ match w.pc with
    | .print rs _ | .write rs | .send rs => rs
    | _ => []

/-- What is in the channel: one for each batch and each record. -/
def waiting (r : Run F) : Nat := (r.channel.map fun b => 1 + b.length).sum

/-- What the program keeps: the variables and records of the threads, the batches that wait to be counted, the entries of the statistics. -/
def kept (r : Run F) : Nat :=
  (r.workers.map fun w => bulkPairs w.ctx.inner + (heldRecords w).length).sum + waiting r + r.stats.length

end Am.Spec
