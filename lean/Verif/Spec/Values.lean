import Verif.Model.Evaluator
/-! # What the operators on values should mean -/
namespace Am.Spec
open Am

/-- An integer that fits in 64 bits. -/
def Fits (x : Int) : Prop := -9223372036854775808 ≤ x ∧ x ≤ 9223372036854775807

/-- `y` is the two's complement wrap-around of `x`. -/
def Wraps (y x : Int) : Prop := Fits y ∧ ∃ k : Int, y = x + k * 18446744073709551616

/-- `q` and `r` are quotient and remainder of `a` by `b` for division truncated toward zero. -/
def Truncated (a b q r : Int) : Prop :=
  q * b + r = a ∧ r.natAbs < b.natAbs ∧ (r = 0 ∨ (0 < r ∧ 0 < a) ∨ (r < 0 ∧ a < 0))

/-- Bit `n` of a 64-bit integer. -/
def bit (i : Int64) (n : Nat) : Bool := i.toBitVec.getLsbD n

/-- The outcome of an integer operation whose mathematical result is `x`: exact when it fits; otherwise a panic with overflow checks and
the wrap-around without. -/
def Arith {F : Type} (checks : Bool) (x : Int) (out : Res (Value F)) : Prop :=
  (Fits x ∧ ∃ c : Int64, out = .ok (.int c) ∧ c.toInt = x) ∨
  (¬Fits x ∧ checks = true ∧ out = .panic) ∨
  (¬Fits x ∧ checks = false ∧ ∃ c : Int64, out = .ok (.int c) ∧ Wraps c.toInt x)

end Am.Spec
