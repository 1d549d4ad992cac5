import Verif.Spec.Semantics
/-! # Where scripts crash -/
namespace Am.Spec
open Am
variable {F : Type} [Rt F]

/-- The operands for which a binary operator crashes: division by zero and the smallest integer by -1; in a build with overflow checks also
results that do not fit and shifts by an amount outside 0 to 63. -/
inductive CrashPair : Kind → Value F → Value F → Prop
  | zero {k : Kind} {a b : Int64} : (k = .Div ∨ k = .Rem) → b.toInt = 0 → CrashPair k (.int a) (.int b)
  | least {k : Kind} {a b : Int64} : (k = .Div ∨ k = .Rem) → a.toInt = -9223372036854775808 → b.toInt = -1 → CrashPair k (.int a) (.int b)
  | add {a b : Int64} : Rt.checks F = true → ¬Fits (a.toInt + b.toInt) → CrashPair .Add (.int a) (.int b)
  | sub {a b : Int64} : Rt.checks F = true → ¬Fits (a.toInt - b.toInt) → CrashPair .Sub (.int a) (.int b)
  | mul {a b : Int64} : Rt.checks F = true → ¬Fits (a.toInt * b.toInt) → CrashPair .Mul (.int a) (.int b)
  | shift {k : Kind} {a b : Int64} : Rt.checks F = true → (k = .Sl ∨ k = .Sr) → (b.toInt < 0 ∨ 64 ≤ b.toInt) → CrashPair k (.int a) (.int b)

/-- The operand for which a unary operator crashes: the smallest integer under minus, in a build with overflow checks. -/
inductive CrashSingle : Kind → Value F → Prop
  | neg {a : Int64} : Rt.checks F = true → a.toInt = -9223372036854775808 → CrashSingle .Sub (.int a)

/-- The expression, in this state, has operands that evaluate to values its operator crashes on. -/
inductive CrashSite (net : Net) : Expr F → St F → Prop
  | binary {t : Token} {l r : Expr F} {a b : Value F} {s s' : St F} : RunsAll net [l, r] s (.ok [a, b]) s' → CrashPair t.kind a b →
      CrashSite net (.binary t l r) s
  | unary {t : Token} {e : Expr F} {v : Value F} {s s' : St F} : Runs net e s (.ok v) s' → CrashSingle t.kind v → CrashSite net (.unary t e) s

/-- The parts of an expression. -/
def parts : Expr F → List (Expr F)
  | .int _ | .float _ | .bool _ | .str _ | .ident _ => []
  | .arr es => es
  | .map ps => flatten ps
  | .index l i => [l, i]
  | .field l _ => [l]
  | .letE _ e => [e]
  | .unary _ e => [e]
  | .binary _ l r => [l, r]
  | .paren e => [e]
  | .ifE c t e => c :: (t ++ e)
  | .call _ args => args

/-- The first expression is the second or lies within it. -/
inductive Within : Expr F → Expr F → Prop
  | self (e : Expr F) : Within e e
  | part {x p e : Expr F} : p ∈ parts e → Within x p → Within x e

/-- The expression lies within an assert of a known request. -/
def InAsserts (table : List (Str × (Str × List (Expr F)))) (x : Expr F) : Prop :=
  ∃ name message asserts e, amGet name table = some (message, asserts) ∧ e ∈ asserts ∧ Within x e

end Am.Spec
