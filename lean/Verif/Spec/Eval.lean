import Verif.Model.Evaluator
/-! # Syntactic facts about expressions used in statements about evaluation -/
namespace Am.Spec
open Am
variable {F : Type}

mutual
/-- The names bound by a `let` somewhere inside an expression. -/
def lets : Expr F → List Str
  | .int _ | .float _ | .bool _ | .str _ | .ident _ => []
  | .arr items => letsList items
  | .map pairs => letsPairs pairs
  | .index l i => lets l ++ lets i
  | .field l _ => lets l
  | .letE n v => n :: lets v
  | .unary _ r => lets r
  | .binary _ l r => lets l ++ lets r
  | .paren v => lets v
  | .ifE c t e => lets c ++ letsList t ++ letsList e
  | .call _ args => letsList args
termination_by structural e => e
/-- The names bound by a `let` somewhere inside a list of expressions. -/
def letsList : List (Expr F) → List Str
  | [] => []
  | e :: l => lets e ++ letsList l
termination_by structural l => l
/-- The names bound by a `let` somewhere inside the pairs of a map literal. -/
def letsPairs : List (Expr F × Expr F) → List Str
  | [] => []
  | (k, v) :: l => lets k ++ lets v ++ letsPairs l
termination_by structural l => l
end

mutual
/-- How many call expressions are written in an expression. -/
def calls : Expr F → Nat
  | .int _ | .float _ | .bool _ | .str _ | .ident _ => 0
  | .arr items => callsList items
  | .map pairs => callsPairs pairs
  | .index l i => calls l + calls i
  | .field l _ => calls l
  | .letE _ v => calls v
  | .unary _ r => calls r
  | .binary _ l r => calls l + calls r
  | .paren v => calls v
  | .ifE c t e => calls c + (callsList t + callsList e)
  | .call _ args => callsList args + 1
termination_by structural e => e
/-- How many call expressions are written in a list of expressions. -/
def callsList : List (Expr F) → Nat
  | [] => 0
  | e :: l => calls e + callsList l
termination_by structural l => l
/-- How many call expressions are written in the pairs of a map literal. -/
def callsPairs : List (Expr F × Expr F) → Nat
  | [] => 0
  | (k, v) :: l => calls k + (calls v + callsPairs l)
termination_by structural l => l
end

mutual
/-- The operators written in an expression: unary ones (with `true`) and binary ones (with `false`). -/
def ops : Expr F → List (Bool × Kind)
  | .int _ | .float _ | .bool _ | .str _ | .ident _ => []
  | .arr items => opsList items
  | .map pairs => opsPairs pairs
  | .index l i => ops l ++ ops i
  | .field l _ => ops l
  | .letE _ v => ops v
  | .unary t r => (true, t.kind) :: ops r
  | .binary t l r => (false, t.kind) :: (ops l ++ ops r)
  | .paren v => ops v
  | .ifE c t e => ops c ++ opsList t ++ opsList e
  | .call _ args => opsList args
termination_by structural e => e
/-- The operators written in a list of expressions. -/
def opsList : List (Expr F) → List (Bool × Kind)
  | [] => []
  | e :: l => ops e ++ opsList l
termination_by structural l => l
/-- The operators written in the pairs of a map literal. -/
def opsPairs : List (Expr F × Expr F) → List (Bool × Kind)
  | [] => []
  | (k, v) :: l => ops k ++ ops v ++ opsPairs l
termination_by structural l => l
end

end Am.Spec
