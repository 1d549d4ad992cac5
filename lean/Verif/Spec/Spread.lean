import Verif.Spec.Run
import Verif.Spec.Timing
/-! # Iterations spread over threads (C123) -/
namespace Am.Spec
open Am
variable {F : Type} [Rt F]

/-- The messages sent by the executions of a test, execution by execution: each begins with the variables the one before has left and with no
records. -/
def sentIn (test : List (Expr F)) : Context F → List Net → List (List Str)
  | _, [] => []
  | c, net :: l => (runBlock net test ⟨c, [], []⟩).2.sent :: sentIn test { (runBlock net test ⟨c, [], []⟩).2.ctx with records := [] } l

/-- All messages of a run of a named test, thread by thread and execution by execution. -/
def allSent (record stat : Bool) (base : Context F) (name : Str) (test : List (Expr F)) (t n : Nat) (l : List RunStep) : List (List Str) :=
  (List.range t).flatMap fun i => sentIn test base.clone (executions record stat base name test t n l i)

/-- During the whole run the network answers like `net`, at whatever times. -/
def AnswersLike (net : Net) (l : List RunStep) : Prop := ∀ i m, RunStep.work i m ∈ l → SameAnswers m net

/-- The same text printed and the same exchanges recorded. -/
def SameTurn (p : Str × List Record) (s : St F) : Prop := p.1 = s.out ∧ Each SameRecord p.2 s.ctx.records

/-- How often a name occurs in the statistics. -/
def countOf (name : Str) (s : Stats) : Nat := match amGet name s with | some st => st.count | none => 0

end Am.Spec
