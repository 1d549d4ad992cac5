import Verif.Spec.Main
import Verif.Spec.Command
import Verif.Spec.Launch
import Verif.Model.Exit
/-! # When the process should report a failure (C80) -/
namespace Am.Spec
open Am
variable {F : Type} [Rt F]

/-- The text `am test` reads: the contents of the `fan` files at or below the root, one after the other in the order of their paths, all of them
readable. -/
def Sources (root : Str) (files : Node) (text : Str) : Prop :=
  (∀ path, ¬ Below root files path none) ∧
  ∃ fs : List (List Str × Str), (∀ path c, (path, c) ∈ fs ↔ Below root files path (some c)) ∧ (fs.Pairwise fun a b => PathLt a.1 b.1) ∧
    text = fs.flatMap Prod.snd

/-- The number of threads `am test` is to start for these items. -/
inductive ThreadCount (args : TestArgs) (items : List (Item F)) : Nat → Prop
  | named (name : Str) (b : List (Expr F)) : args.name = some name → Item.test name b ∈ items → ThreadCount args items args.threads
  | unknown (name : Str) : args.name = some name → (∀ b, Item.test name b ∉ items) → ThreadCount args items 0
  | all (names : List Str) : args.name = none → names.Nodup → (∀ n, n ∈ names ↔ ∃ b, Item.test n b ∈ items) → ThreadCount args items names.length

/-- The reasons for which `am test` ends with a status other than 0. -/
inductive MainFails (F : Type) [Rt F] (net : Net) (args : TestArgs) (root : Str) (files : Node) (pod : Str) (creatable : Str → Bool) : Prop
  /-- a source file cannot be read -/
  | unreadable (path : List Str) : Below root files path none → MainFails F net args root files pod creatable
  /-- an expression outside the tests crashes -/
  | crash (text : Str) (items : List (Item F)) (s : St F) : Sources root files text → Accepted text items →
      RunsBlock net .null (exprsOf items) (begins items) .panic s → MainFails F net args root files pod creatable
  /-- the test exists, but is to run in no thread -/
  | noThreads (text : Str) (items : List (Item F)) (v : Value F) (s : St F) (name : Str) (b : List (Expr F)) : Sources root files text →
      Accepted text items → RunsBlock net .null (exprsOf items) (begins items) (.ok v) s → args.name = some name → Item.test name b ∈ items →
      args.threads = 0 → MainFails F net args root files pod creatable
  /-- the record file of a thread cannot be created -/
  | record (text : Str) (items : List (Item F)) (v : Value F) (s : St F) (n i : Nat) : Sources root files text → Accepted text items →
      RunsBlock net .null (exprsOf items) (begins items) (.ok v) s → args.record = true → ThreadCount args items n → i < n →
      creatable (recordFile pod i) = false → MainFails F net args root files pod creatable

/-- The reasons for which `am test` never gets to starting its threads. -/
inductive MainLoops (F : Type) [Rt F] (net : Net) (root : Str) (files : Node) : Prop
  | parser (text : Str) : Sources root files text → Endless F (segment text) → MainLoops F net root files
  | expression (text : Str) (items : List (Item F)) (s : St F) : Sources root files text → Accepted text items →
      RunsBlock net .null (exprsOf items) (begins items) .hang s → MainLoops F net root files

end Am.Spec
