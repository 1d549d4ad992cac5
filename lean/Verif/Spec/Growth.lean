import Verif.Model.Evaluator
/-! # How much room values take -/
namespace Am.Spec
variable {F : Type}

mutual
/-- The room a value takes: one for itself and one for every character, item and entry in it. -/
def bulk : Value F → Nat
  | .null | .int _ | .float _ | .bool _ => 1
  | .str s => 1 + s.length
  | .arr items => 1 + bulkAll items
  | .map pairs => 1 + bulkPairs pairs
termination_by structural v => v
/-- Several values. -/
def bulkAll : List (Value F) → Nat
  | [] => 0
  | v :: l => bulk v + bulkAll l
termination_by structural l => l
/-- The entries of a map, or variables: names and values. -/
def bulkPairs : List (Str × Value F) → Nat
  | [] => 0
  | (k, v) :: l => 1 + k.length + bulk v + bulkPairs l
termination_by structural l => l
end

mutual
/-- The number of nodes of an expression, where a call counts `a` more. -/
def nodes (a : Nat) : Expr F → Nat
  | .int _ | .float _ | .bool _ | .str _ | .ident _ => 1
  | .arr items => 1 + nodesAll a items
  | .map pairs => 1 + nodesPairs a pairs
  | .index l i => 1 + nodes a l + nodes a i
  | .field l _ => 1 + nodes a l
  | .letE _ e => 1 + nodes a e
  | .unary _ r => 1 + nodes a r
  | .binary _ l r => 1 + nodes a l + nodes a r
  | .paren e => 1 + nodes a e
  | .ifE c t e => 1 + nodes a c + nodesAll a t + nodesAll a e
  | .call _ args => 1 + a + nodesAll a args
termination_by structural e => e
/-- Several expressions: one more for each. -/
def nodesAll (a : Nat) : List (Expr F) → Nat
  | [] => 0
  | e :: l => 1 + nodes a e + nodesAll a l
termination_by structural l => l
/-- Entries of a map: one more for each. -/
def nodesPairs (a : Nat) : List (Expr F × Expr F) → Nat
  | [] => 0
  | (k, v) :: l => 1 + nodes a k + nodes a v + nodesPairs a l
termination_by structural l => l
end

mutual
/-- The letters of the strings and of the names of variables set in an expression. -/
def letters : Expr F → Nat
  | .int _ | .float _ | .bool _ | .ident _ => 0
  | .str s => s.length
  | .arr items => lettersAll items
  | .map pairs => lettersPairs pairs
  | .index l i => letters l + letters i
  | .field l _ => letters l
  | .letE n e => n.length + letters e
  | .unary _ r => letters r
  | .binary _ l r => letters l + letters r
  | .paren e => letters e
  | .ifE c t e => letters c + lettersAll t + lettersAll e
  | .call _ args => lettersAll args
termination_by structural e => e
/-- Several expressions. -/
def lettersAll : List (Expr F) → Nat
  | [] => 0
  | e :: l => letters e + lettersAll l
termination_by structural l => l
/-- Entries of a map. -/
def lettersPairs : List (Expr F × Expr F) → Nat
  | [] => 0
  | (k, v) :: l => letters k + letters v + lettersPairs l
termination_by structural l => l
end

/-- Texts of floats and escapes of characters take at most `b` characters, and a map shows its entries in some order. -/
structure Tame (F : Type) [Rt F] (b : Nat) : Prop where
  disp : ∀ f : F, (Rt.fdisp f).length ≤ b
  debug : ∀ f : F, (Rt.fdebug f).length ≤ b
  escape : ∀ c, (Rt.escape F c).length ≤ b
  order : ∀ l, (Rt.order F l).Perm l

/-- What a result takes, if there is one. -/
def resRoom {α : Type} (m : α → Nat) : Res α → Nat
  | .ok a => m a
  | _ => 0

/-- Every response, as a map, takes at most `m`. -/
def Answers (F : Type) [Rt F] (net : Net) (m : Nat) : Prop :=
  ∀ sent text rq rs t e map, send net sent text = .ok (rq, rs, t, e) → rs.toMap (F := F) = .ok map → bulkPairs map ≤ m

end Am.Spec
