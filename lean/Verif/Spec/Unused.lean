import Verif.Spec.Joining
import Verif.Spec.Rearrange
/-!
# Definitions that are not used (C108)

`N` are the names of requests that matter; two contexts may differ in what all other names mean.
-/
namespace Am.Spec
open Am
variable {F : Type}

/-- The same variables and records, and every name of `N` means the same request. -/
def SameFor (N : Str → Prop) (c c' : Context F) : Prop := c.inner = c'.inner ∧ c.records = c'.records ∧ ∀ n, N n → c.request n = c'.request n

/-- The same context in this sense, the same messages sent, the same text printed. -/
def SameForState (N : Str → Prop) (s s' : St F) : Prop := SameFor N s.ctx s'.ctx ∧ s.sent = s'.sent ∧ s.out = s'.out

/-- The expressions call only names of `N`. -/
def CallsOnly (N : Str → Prop) (es : List (Expr F)) : Prop := ∀ f ∈ calledList es, N f

/-- Two threads at the same place with the same test, the same file and contexts that agree on what the test calls. -/
structure WorkerFor (N : Str → Prop) (w w' : Worker F) : Prop where
  pc : w.pc = w'.pc
  name : w.name = w'.name
  test : w.test = w'.test
  calls : CallsOnly N w.test
  ctx : SameFor N w.ctx w'.ctx
  number : w.number = w'.number
  file : w.file = w'.file

/-- Two runs that have done the same, printed the same and recorded the same. -/
structure RunFor (N : Str → Prop) (r r' : Run F) : Prop where
  workers : Each (WorkerFor N) r.workers r'.workers
  continuous : r.continuous = r'.continuous
  channel : r.channel = r'.channel
  mainSender : r.mainSender = r'.mainSender
  collector : r.collector = r'.collector
  stats : r.stats = r'.stats
  out : r.out = r'.out

/-- `am test` has come to the same. -/
inductive StartedFor (N : Str → Prop) : Started F → Started F → Prop
  | ended : StartedFor N .ended .ended
  | panicked : StartedFor N .panicked .panicked
  | endless : StartedFor N .endless .endless
  | threads (cfg : Config) (ws ws' : List (Worker F)) : Each (WorkerFor N) ws ws' → StartedFor N (.threads cfg ws) (.threads cfg ws')

end Am.Spec
