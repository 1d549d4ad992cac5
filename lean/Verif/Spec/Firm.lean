import Verif.Spec.Crash
/-! # Operators that cannot crash because of how their operands are written -/
namespace Am.Spec
open Am
variable {F : Type} [Rt F]

/-- The values an expression may have, judged by the way it is written: a literal has its own value, operators are applied to what their operands
may be, and nothing is said of names, members, branches and calls. -/
def MayBe : Expr F → Value F → Prop
  | .int i, v => v = .int i
  | .float f, v => v = .float f
  | .bool b, v => v = .bool b
  | .str t, v => v = .str t
  | .arr _, v => ∃ vs, v = .arr vs
  | .map _, v => ∃ m, v = .map m
  | .paren e, v => MayBe e v
  | .letE _ e, v => MayBe e v
  | .unary t e, v => ∃ w, MayBe e w ∧ Negates t w (.ok v)
  | .binary t l r, v => (∃ a b, MayBe l a ∧ MayBe r b ∧ Operates t.kind a b (.ok v)) ∨ ((t.kind = .Lo ∨ t.kind = .La) ∧ (MayBe l v ∨ MayBe r v))
  | _, _ => True

/-- The operator of the expression, if it is one, does not crash on anything its operands may be. -/
def Firm : Expr F → Prop
  | .binary t l r => ∀ a b, MayBe l a → MayBe r b → ¬CrashPair t.kind a b
  | .unary t e => ∀ a, MayBe e a → ¬CrashSingle t.kind a
  | _ => True

end Am.Spec
