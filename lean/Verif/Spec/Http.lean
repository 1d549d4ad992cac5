import Verif.Model.Http
/-! # Specification vocabulary for exchanges -/
namespace Am.Spec
open Am

/-- The readings of the monotonic clock during one exchange, in the order in which they are taken, never decrease. -/
def Monotone (k : Clocks) : Prop :=
  k.start ≤ k.res0 ∧ k.res0 ≤ k.res1 ∧ k.res1 ≤ k.conn ∧ k.conn ≤ k.rd ∧ k.rd ≤ k.first ∧ k.first ≤ k.last ∧ k.last ≤ k.fin

/-- The clocks of an exchange. -/
def clocksOf : Exchange → Clocks
  | .refused _ c => c
  | .broken _ c => c
  | .answered _ c => c

end Am.Spec
