import Verif.Spec.Printing
import Verif.Spec.Parens
/-! # What the `Debug` text of an expression should show (C97) -/
namespace Am.Spec
open Am
variable {F : Type}

mutual
/-- The expression with parentheses around every operator and every index, down to the literals, the lists and the other nodes. -/
def enclosed : Expr F → Expr F
  | .index l i => .paren (.index (enclosed l) (enclosed i))
  | .unary t r => .paren (.unary t (enclosed r))
  | .binary t l r => .paren (.binary t (enclosed l) (enclosed r))
  | .call f args => .call f (enclosedList args)
  | e => e
termination_by structural e => e
/-- Each argument in this way. -/
def enclosedList : List (Expr F) → List (Expr F)
  | [] => []
  | e :: l => enclosed e :: enclosedList l
termination_by structural l => l
end

end Am.Spec
