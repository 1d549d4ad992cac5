import Verif.Model.Syntax
/-! # How deep texts and expressions are nested -/
namespace Am.Spec
open Am
variable {F : Type}

mutual
/-- How deep an expression is nested as a text: what stands in brackets, after a prefix operator, after a binary operator or after the `=` of
a `let` is one deeper than the expression around it. Left operands are not. -/
def nesting : Expr F → Nat
  | .int _ | .float _ | .bool _ | .str _ | .ident _ => 1
  | .arr items => 1 + nestingAll items
  | .map pairs => 1 + nestingPairs pairs
  | .index l i => max (nesting l) (1 + nesting i)
  | .field l _ => nesting l
  | .letE _ v => 1 + nesting v
  | .unary _ r => 1 + nesting r
  | .binary _ l r => max (nesting l) (1 + nesting r)
  | .paren v => 1 + nesting v
  | .ifE c t e => 1 + max (nesting c) (max (nestingAll t) (nestingAll e))
  | .call _ args => 1 + nestingAll args
termination_by structural e => e
/-- The deepest of a list. -/
def nestingAll : List (Expr F) → Nat
  | [] => 0
  | e :: l => max (nesting e) (nestingAll l)
termination_by structural l => l
/-- The deepest of a list of pairs. -/
def nestingPairs : List (Expr F × Expr F) → Nat
  | [] => 0
  | (k, v) :: l => max (max (nesting k) (nesting v)) (nestingPairs l)
termination_by structural l => l
end

mutual
/-- The height of an expression as a tree: every part is one deeper than the whole. -/
def height : Expr F → Nat
  | .int _ | .float _ | .bool _ | .str _ | .ident _ => 1
  | .arr items => 1 + heightAll items
  | .map pairs => 1 + heightPairs pairs
  | .index l i => 1 + max (height l) (height i)
  | .field l _ => 1 + height l
  | .letE _ v => 1 + height v
  | .unary _ r => 1 + height r
  | .binary _ l r => 1 + max (height l) (height r)
  | .paren v => 1 + height v
  | .ifE c t e => 1 + max (height c) (max (heightAll t) (heightAll e))
  | .call _ args => 1 + heightAll args
termination_by structural e => e
/-- The highest of a list. -/
def heightAll : List (Expr F) → Nat
  | [] => 0
  | e :: l => max (height e) (heightAll l)
termination_by structural l => l
/-- The highest of a list of pairs. -/
def heightPairs : List (Expr F × Expr F) → Nat
  | [] => 0
  | (k, v) :: l => max (max (height k) (height v)) (heightPairs l)
termination_by structural l => l
end

/-- The tokens that can begin something nested: brackets, prefix operators and `let`. -/
def opens : Kind → Bool
  | .Lp | .Ls | .Lb | .Let | .Not | .Sub => true
  | _ => false

/-- How many of them there are. -/
def openings (ts : List Token) : Nat := (ts.filter fun t => opens t.kind).length

end Am.Spec
