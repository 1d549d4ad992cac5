import Verif.Spec.Program
import Verif.Model.Main
/-! # What `am test` starts -/
namespace Am.Spec
open Am
variable {F : Type} [Rt F]

/-- The state in which the expressions of the sources begin: no variables, the requests of the sources. -/
def begins (items : List (Item F)) : St F := ⟨⟨[], addRequests items [], []⟩, [], []⟩

/-- `--number`, which does not count when a duration is given. -/
def runNumber (args : TestArgs) (n : Nat) : Prop := (args.duration = none ∧ n = args.number) ∨ (args.duration ≠ none ∧ n = 2 ^ 32 - 1)

/-- The tests of the sources with their names, each once. -/
structure TestsOf (items : List (Item F)) (tests : List (Str × List (Expr F))) : Prop where
  distinct : (tests.map Prod.fst).Nodup
  last : ∀ n b, (n, b) ∈ tests ↔ ∃ before after, items = before ++ .test n b :: after ∧ ∀ b', Item.test n b' ∉ after

/-- What `am test` does up to the start of its threads, given the items of the sources: the expressions run first; if they fail, their error is
printed and nothing else happens; otherwise the threads start from the state they leave. -/
inductive TestStarts (net : Net) (args : TestArgs) (items : List (Item F)) : Started F → St F → Prop
  | failed (e : Str) (s : St F) : RunsBlock net .null (exprsOf items) (begins items) (.err e) s →
      TestStarts net args items .ended { s with out := s.out ++ e ++ c!"\n" }
  | crash (s : St F) : RunsBlock net .null (exprsOf items) (begins items) .panic s → TestStarts net args items .panicked s
  | endless (s : St F) : RunsBlock net .null (exprsOf items) (begins items) .hang s → TestStarts net args items .endless s
  /-- the named test, declared last with this block, in `--threads` threads -/
  | named (v : Value F) (s : St F) (n : Nat) (name : Str) (test : List (Expr F)) (before after : List (Item F)) :
      RunsBlock net .null (exprsOf items) (begins items) (.ok v) s → args.name = some name → items = before ++ .test name test :: after →
      (∀ b, Item.test name b ∉ after) → args.threads ≠ 0 → runNumber args n →
      TestStarts net args items (.threads ⟨true, n / args.threads, args.stat⟩ (List.replicate args.threads (fresh args.record s.ctx name test))) s
  /-- no threads: division by zero -/
  | noThreads (v : Value F) (s : St F) (name : Str) (b : List (Expr F)) :
      RunsBlock net .null (exprsOf items) (begins items) (.ok v) s → args.name = some name → Item.test name b ∈ items → args.threads = 0 →
      TestStarts net args items .panicked s
  /-- a test that is not there -/
  | unknown (v : Value F) (s : St F) (name : Str) :
      RunsBlock net .null (exprsOf items) (begins items) (.ok v) s → args.name = some name → (∀ b, Item.test name b ∉ items) →
      TestStarts net args items (.threads ⟨true, 0, args.stat⟩ []) { s with out := s.out ++ c!"Test not found: " ++ name ++ c!"\n" }
  /-- all tests, a thread each -/
  | all (v : Value F) (s : St F) (tests : List (Str × List (Expr F))) :
      RunsBlock net .null (exprsOf items) (begins items) (.ok v) s → args.name = none → TestsOf items tests →
      TestStarts net args items (.threads ⟨false, 1, args.stat⟩ (tests.map fun p => fresh args.record s.ctx p.1 p.2)) s

end Am.Spec
