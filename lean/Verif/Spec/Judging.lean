import Verif.Spec.Parens
import Verif.Spec.Joining
import Verif.Props.Evaluating
import Verif.Model.Main
/-! # Other asserts (C119, C120) -/
namespace Am.Spec
open Am
variable {F : Type} [Rt F]

/-- An assert that binds no name and does not print. -/
def Silent (a : Expr F) : Prop := lets a = [] ∧ ∀ f ∈ called a, f ≠ c!"print" ∧ f ≠ c!"println"

/-- An assert that can do nothing but judge: it also uses no operator that can crash. -/
def OnlyJudges (a : Expr F) : Prop := Silent a ∧ ∀ o ∈ ops a, SafeOp (Rt.checks F) o

/-- A definition of the same request with other asserts. -/
def OtherDefinition (A : List (Expr F) → List (Expr F) → Prop) (p p' : Str × (Str × List (Expr F))) : Prop :=
  p.1 = p'.1 ∧ p.2.1 = p'.2.1 ∧ A p.2.2 p'.2.2

/-- Items of a text that differ only in the asserts of the requests. -/
inductive OtherItem (A : List (Expr F) → List (Expr F) → Prop) : Item F → Item F → Prop
  | expr (e : Expr F) : OtherItem A (.expr e) (.expr e)
  | request (n m : Str) {as as' : List (Expr F)} : A as as' → OtherItem A (.request n m as) (.request n m as')
  | test (n : Str) (b : List (Expr F)) : OtherItem A (.test n b) (.test n b)

/-- Records of the same exchange, with the same times, judged otherwise. -/
def OtherVerdict (B : List Assert → List Assert → Prop) (r r' : Record) : Prop :=
  r.name = r'.name ∧ r.time = r'.time ∧ r.request = r'.request ∧ r.response = r'.response ∧ r.error = r'.error ∧ B r.asserts r'.asserts

/-- The same variables, the same messages sent and the same text printed; the same requests apart from their asserts, and the same records apart from the
results of the asserts. -/
structure SameButVerdicts (A : List (Expr F) → List (Expr F) → Prop) (B : List Assert → List Assert → Prop) (s s' : St F) : Prop where
  variables : s.ctx.inner = s'.ctx.inner
  requests : Each (OtherDefinition A) s.ctx.requests s'.ctx.requests
  records : Each (OtherVerdict B) s.ctx.records s'.ctx.records
  sent : s.sent = s'.sent
  out : s.out = s'.out

/-- The same for contexts. -/
structure ContextJudged (A : List (Expr F) → List (Expr F) → Prop) (B : List Assert → List Assert → Prop) (c c' : Context F) : Prop where
  variables : c.inner = c'.inner
  requests : Each (OtherDefinition A) c.requests c'.requests
  records : Each (OtherVerdict B) c.records c'.records

/-- The same place in the program of a test thread, with such records in hand. -/
inductive PlaceJudged (B : List Assert → List Assert → Prop) : WorkerPc → WorkerPc → Prop
  | head : PlaceJudged B .head .head
  | eval : PlaceJudged B .eval .eval
  | print {rs rs' left left' : List Record} : Each (OtherVerdict B) rs rs' → Each (OtherVerdict B) left left' → PlaceJudged B (.print rs left) (.print rs' left')
  | write {rs rs' : List Record} : Each (OtherVerdict B) rs rs' → PlaceJudged B (.write rs) (.write rs')
  | send {rs rs' : List Record} : Each (OtherVerdict B) rs rs' → PlaceJudged B (.send rs) (.send rs')
  | done : PlaceJudged B .done .done
  | stuck : PlaceJudged B .stuck .stuck

/-- Two test threads at the same place with the same test in the same iteration. -/
structure WorkerJudged (A : List (Expr F) → List (Expr F) → Prop) (B : List Assert → List Assert → Prop) (w w' : Worker F) : Prop where
  pc : PlaceJudged B w.pc w'.pc
  name : w.name = w'.name
  test : w.test = w'.test
  ctx : ContextJudged A B w.ctx w'.ctx
  number : w.number = w'.number
  file : w.file.isSome = w'.file.isSome

/-- Two pieces of output of the same thread: the same text, or the lines of two such records. -/
def ShownJudged (B : List Assert → List Assert → Prop) (p p' : Option Nat × Str) : Prop :=
  p.1 = p'.1 ∧ (p.2 = p'.2 ∨ ∃ r r', OtherVerdict B r r' ∧ p.2 = r.text ++ c!"\n" ∧ p'.2 = r'.text ++ c!"\n")

/-- Two runs that have done the same, with the same statistics; they have printed and recorded the same apart from the results of the asserts. -/
structure RunJudged (A : List (Expr F) → List (Expr F) → Prop) (B : List Assert → List Assert → Prop) (r r' : Run F) : Prop where
  workers : Each (WorkerJudged A B) r.workers r'.workers
  continuous : r.continuous = r'.continuous
  channel : Each (Each (OtherVerdict B)) r.channel r'.channel
  mainSender : r.mainSender = r'.mainSender
  collector : r.collector = r'.collector
  stats : r.stats = r'.stats
  out : Each (ShownJudged B) r.out r'.out

/-- `am test` has come to the same. -/
inductive StartedJudged (A : List (Expr F) → List (Expr F) → Prop) (B : List Assert → List Assert → Prop) : Started F → Started F → Prop
  | ended : StartedJudged A B .ended .ended
  | panicked : StartedJudged A B .panicked .panicked
  | endless : StartedJudged A B .endless .endless
  | threads (cfg : Config) (ws ws' : List (Worker F)) : Each (WorkerJudged A B) ws ws' → StartedJudged A B (.threads cfg ws) (.threads cfg ws')

/-- Any asserts that only judge. -/
def AnyJudges (as as' : List (Expr F)) : Prop := (∀ a ∈ as, OnlyJudges a) ∧ ∀ a ∈ as', OnlyJudges a

/-- The same asserts in another order, none of which prints or binds a name. -/
def AnyOrder (as as' : List (Expr F)) : Prop := as.Perm as' ∧ ∀ a ∈ as, Silent a

end Am.Spec
