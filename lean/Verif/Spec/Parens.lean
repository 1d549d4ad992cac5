import Verif.Spec.Program
import Verif.Spec.Timing
import Verif.Spec.Eval
import Verif.Model.Main
/-! # Parentheses (C93) -/
namespace Am.Spec
open Am
variable {F : Type}

mutual
/-- The expression without its parentheses (the tree keeps the grouping they gave). -/
def noParens : Expr F → Expr F
  | .int i => .int i
  | .float f => .float f
  | .bool b => .bool b
  | .str s => .str s
  | .ident n => .ident n
  | .arr items => .arr (noParensList items)
  | .map pairs => .map (noParensPairs pairs)
  | .index l i => .index (noParens l) (noParens i)
  | .field l n => .field (noParens l) n
  | .letE n v => .letE n (noParens v)
  | .unary t r => .unary t (noParens r)
  | .binary t l r => .binary t (noParens l) (noParens r)
  | .paren v => noParens v
  | .ifE c t e => .ifE (noParens c) (noParensList t) (noParensList e)
  | .call f args => .call f (noParensList args)
termination_by structural e => e
/-- Each expression without its parentheses. -/
def noParensList : List (Expr F) → List (Expr F)
  | [] => []
  | e :: l => noParens e :: noParensList l
termination_by structural l => l
/-- Each pair of a map literal without parentheses. -/
def noParensPairs : List (Expr F × Expr F) → List (Expr F × Expr F)
  | [] => []
  | (k, v) :: l => (noParens k, noParens v) :: noParensPairs l
termination_by structural l => l
end

/-- The assert itself stands in parentheses. -/
def Enclosed (e : Expr F) : Prop := ∃ v, e = .paren v

/-- Two asserts that differ only in parentheses inside. -/
def SameAssert (a a' : Expr F) : Prop := noParens a = noParens a' ∧ (Enclosed a ↔ Enclosed a')

/-- Two items that differ only in parentheses, but not in those around a whole assert. -/
inductive SameItem : Item F → Item F → Prop
  | expr (e e' : Expr F) : noParens e = noParens e' → SameItem (.expr e) (.expr e')
  | request (n m : Str) (as as' : List (Expr F)) : Each SameAssert as as' → SameItem (.request n m as) (.request n m as')
  | test (n : Str) (b b' : List (Expr F)) : noParensList b = noParensList b' → SameItem (.test n b) (.test n b')

/-- Two definitions of a request in this sense. -/
def SameDefinition (p p' : Str × (Str × List (Expr F))) : Prop := p.1 = p'.1 ∧ p.2.1 = p'.2.1 ∧ Each SameAssert p.2.2 p'.2.2

/-- The same assert with the same outcome; only the text that shows how it was written may differ. -/
def SameOutcome (a a' : Assert) : Prop := a.left = a'.left ∧ a.compare = a'.compare ∧ a.right = a'.right ∧ a.result = a'.result

/-- The same exchange with the same outcome of the asserts. -/
def SameResult (r r' : Record) : Prop :=
  r.name = r'.name ∧ r.time = r'.time ∧ r.request = r'.request ∧ r.response = r'.response ∧ r.error = r'.error ∧ Each SameOutcome r.asserts r'.asserts

/-- The same variables; requests and records that differ only in parentheses; the same messages sent and the same text printed. -/
structure SameButParens (s s' : St F) : Prop where
  variables : s.ctx.inner = s'.ctx.inner
  requests : Each SameDefinition s.ctx.requests s'.ctx.requests
  records : Each SameResult s.ctx.records s'.ctx.records
  sent : s.sent = s'.sent
  out : s.out = s'.out

/-- Only operators of the language are used as binary operators, as in everything the parser returns. -/
def KnownOps (e : Expr F) : Prop := ∀ k, (false, k) ∈ ops e → k.isBinary = true

/-- The same for the asserts of all requests. -/
def KnownTable (c : Context F) : Prop := ∀ p ∈ c.requests, ∀ a ∈ p.2.2, KnownOps a

/-- Two tests that differ only in parentheses. -/
def SameTest (p p' : Str × List (Expr F)) : Prop := p.1 = p'.1 ∧ noParensList p.2 = noParensList p'.2

/-- Two threads about to do the same, up to parentheses; only known operators on both sides. -/
structure WorkerButParens (w w' : Worker F) : Prop where
  pc : w.pc = w'.pc
  name : w.name = w'.name
  test : noParensList w.test = noParensList w'.test
  ctx : SameButParens ⟨w.ctx, [], []⟩ ⟨w'.ctx, [], []⟩
  number : w.number = w'.number
  file : w.file = w'.file
  known : (∀ e ∈ w.test, KnownOps e) ∧ KnownTable w.ctx
  known' : (∀ e ∈ w'.test, KnownOps e) ∧ KnownTable w'.ctx

/-- `am test` has come to the same, up to parentheses. -/
inductive StartedButParens : Started F → Started F → Prop
  | ended : StartedButParens .ended .ended
  | panicked : StartedButParens .panicked .panicked
  | endless : StartedButParens .endless .endless
  | threads (cfg : Config) (ws ws' : List (Worker F)) : Each WorkerButParens ws ws' → StartedButParens (.threads cfg ws) (.threads cfg ws')

end Am.Spec
