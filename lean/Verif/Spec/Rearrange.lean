import Verif.Spec.Program
import Verif.Spec.Timing
import Verif.Model.Main
/-! # Where definitions stand in a source text (C90) -/
namespace Am.Spec
open Am
variable {F : Type}

/-- The two items may change places: they are not both expressions, and they do not define the same request or the same test. -/
inductive Independent : Item F → Item F → Prop
  | requests (n n' m m' : Str) (as as' : List (Expr F)) : n ≠ n' → Independent (.request n m as) (.request n' m' as')
  | tests (n n' : Str) (b b' : List (Expr F)) : n ≠ n' → Independent (.test n b) (.test n' b')
  | requestTest (n n' m : Str) (as b : List (Expr F)) : Independent (.request n m as) (.test n' b)
  | testRequest (n n' m : Str) (as b : List (Expr F)) : Independent (.test n' b) (.request n m as)
  | requestExpr (n m : Str) (as : List (Expr F)) (e : Expr F) : Independent (.request n m as) (.expr e)
  | exprRequest (n m : Str) (as : List (Expr F)) (e : Expr F) : Independent (.expr e) (.request n m as)
  | testExpr (n : Str) (b : List (Expr F)) (e : Expr F) : Independent (.test n b) (.expr e)
  | exprTest (n : Str) (b : List (Expr F)) (e : Expr F) : Independent (.expr e) (.test n b)

/-- The same items in another order: expressions stay in order, and so do definitions of the same name. -/
inductive Rearranged : List (Item F) → List (Item F) → Prop
  | refl (is : List (Item F)) : Rearranged is is
  | swap (before after : List (Item F)) (i j : Item F) (is : List (Item F)) :
      Independent i j → Rearranged (before ++ j :: i :: after) is → Rearranged (before ++ i :: j :: after) is

/-- The same variables, the same records, and every name means the same request. -/
def SameMeaning (c c' : Context F) : Prop := c.inner = c'.inner ∧ c.records = c'.records ∧ ∀ n, c.request n = c'.request n

/-- The same context in this sense, the same messages sent, the same text printed. -/
def Indistinct (s s' : St F) : Prop := SameMeaning s.ctx s'.ctx ∧ s.sent = s'.sent ∧ s.out = s'.out

/-- Two threads at the same place with the same test, the same file and contexts of the same meaning. -/
structure IndistinctWorker (w w' : Worker F) : Prop where
  pc : w.pc = w'.pc
  name : w.name = w'.name
  test : w.test = w'.test
  ctx : SameMeaning w.ctx w'.ctx
  number : w.number = w'.number
  file : w.file = w'.file

/-- Two runs that have done the same, printed the same and recorded the same. -/
structure IndistinctRun (r r' : Run F) : Prop where
  workers : Each IndistinctWorker r.workers r'.workers
  continuous : r.continuous = r'.continuous
  channel : r.channel = r'.channel
  mainSender : r.mainSender = r'.mainSender
  collector : r.collector = r'.collector
  stats : r.stats = r'.stats
  out : r.out = r'.out

/-- `am test` has come to the same. -/
inductive IndistinctStarted : Started F → Started F → Prop
  | ended : IndistinctStarted .ended .ended
  | panicked : IndistinctStarted .panicked .panicked
  | endless : IndistinctStarted .endless .endless
  | threads (cfg : Config) (ws ws' : List (Worker F)) : Each IndistinctWorker ws ws' → IndistinctStarted (.threads cfg ws) (.threads cfg ws')

end Am.Spec
