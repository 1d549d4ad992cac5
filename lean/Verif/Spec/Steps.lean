import Verif.Model.Syntax
/-! # What reading an expression costs -/
namespace Am.Spec
variable {F : Type}

mutual
/-- The number of steps an expression is worth: one for itself and those of its parts, and one for every item of a list, map or block.
Parts to the left of an operator are not called for again: the operator adds one step and its right operand. -/
def worth : Expr F → Nat
  | .int _ | .float _ | .bool _ | .str _ | .ident _ => 1
  | .arr items => 1 + worthAll items
  | .map pairs => 1 + worthPairs pairs
  | .index l i => worth l + 1 + worth i
  | .field l _ => worth l + 1
  | .letE _ e => 1 + worth e
  | .unary _ r => 1 + worth r
  | .binary _ l r => worth l + 1 + worth r
  | .paren e => 1 + worth e
  | .ifE c t e => 1 + worth c + worthAll t + worthAll e
  | .call _ args => 2 + worthAll args
/-- A list of expressions: one step for each besides its own. -/
def worthAll : List (Expr F) → Nat
  | [] => 0
  | e :: l => 1 + worth e + worthAll l
/-- Entries of a map. -/
def worthPairs : List (Expr F × Expr F) → Nat
  | [] => 0
  | (k, v) :: l => 1 + worth k + worth v + worthPairs l
end

end Am.Spec
