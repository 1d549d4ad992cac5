import Verif.Spec.Template
import Verif.Model.Context
import Verif.Model.Command
import Verif.Spec.Unused
import Verif.Spec.Eval
/-! # C134: values written out in templates -/
namespace Am.Spec
open Am

/-- No placeholder stands at the beginning of the text. -/
def NoHole (s : Str) : Prop := ∀ h name tail, IsHole h name → s ≠ h ++ tail

/-- The second text is the first with some placeholders replaced by the texts that `text` gives for their variables. The texts that are put in, and the characters
around them, do not begin a placeholder that was not there. -/
inductive PutIn (text : Str → Option Str) : Str → Str → Prop
  | nil : PutIn text [] []
  | lit {c : Char} {a b : Str} : NoHole (c :: a) → NoHole (c :: b) → PutIn text a b → PutIn text (c :: a) (c :: b)
  | keep {h name a b : Str} : IsHole h name → PutIn text a b → PutIn text (h ++ a) (h ++ b)
  | put {h name t a b : Str} : IsHole h name → text name = some t → (∀ x y, t = x ++ y → y ≠ [] → NoHole (y ++ b)) → PutIn text a b →
      PutIn text (h ++ a) (t ++ b)

variable {F : Type}

/-- The tables have the same requests, with values written out in the messages. -/
def WroteTable (text : Str → Option Str) (table table' : List (Str × (Str × List (Expr F)))) : Prop :=
  ∀ n, (amGet n table = none ∧ amGet n table' = none) ∨
    ∃ m m' asserts, amGet n table = some (m, asserts) ∧ amGet n table' = some (m', asserts) ∧ PutIn text m m'

/-- The texts define the same requests, with values written out. -/
def WroteItems (text : Str → Option Str) (is is' : List (Item F)) : Prop :=
  ∀ n, (lastRequest n is = none ∧ lastRequest n is' = none) ∨
    ∃ m m' asserts, lastRequest n is = some (m, asserts) ∧ lastRequest n is' = some (m', asserts) ∧ PutIn text m m'

/-- The variables have the texts. -/
def HaveTexts [Rt F] (text : Str → Option Str) (c : Context F) : Prop := ∀ n t, text n = some t → ∃ v, c.get n = some v ∧ v.display = t

/-- The states differ only in values written out in the messages of the requests. -/
def DiffersIn (text : Str → Option Str) (s t : St F) : Prop :=
  s.ctx.inner = t.ctx.inner ∧ s.ctx.records = t.ctx.records ∧ s.sent = t.sent ∧ s.out = t.out ∧ WroteTable text s.ctx.requests t.ctx.requests

/-- Two threads at the same place with the same test, whose contexts differ only in values written out; the variables have these values, and the test does not set them. -/
structure WroteWorker [Rt F] (text : Str → Option Str) (w w' : Worker F) : Prop where
  pc : w.pc = w'.pc
  name : w.name = w'.name
  test : w.test = w'.test
  lets : ∀ n ∈ letsList w.test, text n = none
  inner : w.ctx.inner = w'.ctx.inner
  records : w.ctx.records = w'.ctx.records
  table : WroteTable text w.ctx.requests w'.ctx.requests
  texts : HaveTexts text w.ctx
  number : w.number = w'.number
  file : w.file = w'.file

/-- Two runs that have done the same, printed the same and recorded the same. -/
structure WroteRun [Rt F] (text : Str → Option Str) (r r' : Run F) : Prop where
  workers : Each (WroteWorker text) r.workers r'.workers
  continuous : r.continuous = r'.continuous
  channel : r.channel = r'.channel
  mainSender : r.mainSender = r'.mainSender
  collector : r.collector = r'.collector
  stats : r.stats = r'.stats
  out : r.out = r'.out

/-- `am test` has come to the same. -/
inductive WroteStarted [Rt F] (text : Str → Option Str) : Started F → Started F → Prop
  | ended : WroteStarted text .ended .ended
  | panicked : WroteStarted text .panicked .panicked
  | endless : WroteStarted text .endless .endless
  | threads (cfg : Config) (ws ws' : List (Worker F)) : Each (WroteWorker text) ws ws' → WroteStarted text (.threads cfg ws) (.threads cfg ws')

end Am.Spec
