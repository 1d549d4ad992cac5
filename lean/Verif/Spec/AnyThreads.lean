import Verif.Model.AnyThreads
import Verif.Spec.Run
import Verif.Spec.Shown
/-! # C135: runs of tests whatever the order of hash maps -/
namespace Am.Spec
open Am
variable {F : Type} [Rt F]

/-- Successful evaluations of `test` one after the other, beginning in context `base` and each time taking out the records, can print and record `hist` and
end in context `c`. -/
inductive AnyIterations (test : List (Expr F)) (base : Context F) : List (Str × List Record) → Context F → Prop where
  | nil : AnyIterations test base [] base
  | snoc {hist c net v s} : AnyIterations test base hist c → anyRun net test ⟨c, [], []⟩ (.ok v, s) →
      AnyIterations test base (hist ++ [(s.out, s.ctx.records)]) { s.ctx with records := [] }

/-- How the thread of a named test can have ended: after the iterations `hist`, or with an error or a panic in the next one. -/
def AnyEnd (test : List (Expr F)) (c : Context F) (hist : List (Str × List Record)) (out : List Str) : Prop :=
  out = chunks hist ∨ ∃ net s, (∃ e, anyRun net test ⟨c, [], []⟩ (.err e, s) ∧ out = chunks hist ++ [s.out, e ++ c!"\n"]) ∨
    (anyRun net test ⟨c, [], []⟩ (.panic, s) ∧ out = chunks hist ++ [s.out])

/-- What the evaluation printed, with the error if it ended with one. -/
def Said (r : Res (Value F)) (s : St F) (said : List Str) : Prop := (∃ v, r = .ok v ∧ said = [s.out]) ∨ ∃ e, r = .err e ∧ said = [s.out, e ++ c!"\n"]

/-- How the thread of one of all tests can have ended: the text printed by the test, the error if there was one, and the records; the same records are in the
file. After a panic there is only the text printed before. -/
def OnceEnd (test : List (Expr F)) (base : Context F) (name : Str) (i : Nat) (record : Bool) (file : Option (List UInt8)) (out : List Str) : Prop :=
  ∃ net s, (∃ r said, anyRun net test ⟨base, [], []⟩ (r, s) ∧ Said r s said ∧ out = said ++ (s.ctx.records.map fun q => q.text ++ c!"\n") ∧
      file = if record then some (iterationFile name i [(s.out, s.ctx.records)]) else none) ∨
    (anyRun net test ⟨base, [], []⟩ (.panic, s) ∧ out = [s.out] ∧ file = if record then some (iterationFile name i []) else none)

/-- Whatever the answers and the variables, no evaluation of the test turns a value into text in which a map has two or more entries. -/
def ShowsOneWay (test : List (Expr F)) : Prop := ∀ net (c : Context F), ∀ v ∈ shownRun net test ⟨c, [], []⟩, OneWay v

end Am.Spec
