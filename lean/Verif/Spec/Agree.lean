import Verif.Spec.Launch
import Verif.Spec.Report
import Verif.Spec.Run
import Verif.Spec.Record
/-! # When the reports of a run agree (C81) -/
namespace Am.Spec
open Am
variable {F : Type} [Rt F]

/-- What a thread prints after its last successful iteration: nothing, or what its last evaluation printed before it failed, with the error if it
did not crash. -/
inductive Farewell (test : List (Expr F)) (c : Context F) : List Str → Prop
  | complete : Farewell test c []
  | failed (net : Net) (e : Str) (s : St F) : runBlock net test ⟨c, [], []⟩ = (.err e, s) → Farewell test c [s.out, e ++ c!"\n"]
  | crashed (net : Net) (s : St F) : runBlock net test ⟨c, [], []⟩ = (.panic, s) → Farewell test c [s.out]

/-- The three reports of a run with `t` threads agree: for each thread there is a history of iterations of the test such that the record file of
the thread is that of the history, the thread has printed the history's reports, and the statistics are those of all histories together. -/
def ReportsAgree (pod name : Str) (test : List (Expr F)) (base : Context F) (t : Nat) (dir : List (Str × List UInt8)) (out : List (Option Nat × Str)) : Prop :=
  ∃ hists : Nat → List (Str × List Record),
    (∀ i, i < t → ∃ nets c tail, Iterations test base nets (hists i) c ∧ amGet (recordFile pod i) dir = some (iterationFile name i (hists i)) ∧
      outOf (some i) out = chunks (hists i) ++ tail ∧ Farewell test c tail) ∧
    ∃ lines : List (Str × Str), outOf none out = [lines.flatMap fun p => p.2 ++ c!"\n"] ∧ (lines.map Prod.fst).Nodup ∧
      (∀ k, k ∈ lines.map Prod.fst ↔ ∃ i, i < t ∧ ∃ p ∈ hists i, ∃ r ∈ p.2, r.name = k) ∧
      ∀ p ∈ lines, StatLine p.1 (timesOf p.1 ((List.range t).flatMap fun i => samples (hists i))) p.2

end Am.Spec
