import Verif.Spec.Grammar
import Verif.Spec.Lexer
/-! # What printing an expression should give, and which expressions can be printed faithfully -/
namespace Am.Spec
open Am
variable {F : Type} [Rt F]

/-- The printed float is a float literal that denotes the float again. -/
def FloatPrints (f : F) : Prop := TokenOk ⟨.Float, Rt.fdisp f⟩ ∧ Rt.fparse (Rt.fdisp f) = some f

/-- The expression is a number. -/
def isNumber : Expr F → Bool
  | .int _ | .float _ => true
  | _ => false

mutual
/-- The expression contains no float that prints as something else, no `let` as an operand, and no field access on a number
literal. -/
def Printable : Expr F → Prop
  | .int _ | .bool _ | .str _ | .ident _ => True
  | .float f => FloatPrints f
  | .arr es => PrintableAll es
  | .map ps => PrintablePairs ps
  | .index l i => isLet l = false ∧ Printable l ∧ Printable i
  | .field l _ => isLet l = false ∧ isNumber l = false ∧ Printable l
  | .letE _ v => Printable v
  | .unary _ r => isLet r = false ∧ Printable r
  | .binary _ l r => isLet l = false ∧ isLet r = false ∧ Printable l ∧ Printable r
  | .paren e => Printable e
  | .ifE c t e => Printable c ∧ PrintableAll t ∧ PrintableAll e
  | .call _ es => PrintableAll es
termination_by structural e => e
/-- All expressions of a list. -/
def PrintableAll : List (Expr F) → Prop
  | [] => True
  | e :: es => Printable e ∧ PrintableAll es
termination_by structural l => l
/-- All keys and values. -/
def PrintablePairs : List (Expr F × Expr F) → Prop
  | [] => True
  | (k, v) :: ps => Printable k ∧ Printable v ∧ PrintablePairs ps
termination_by structural l => l
end

/-! ## Exactly which expressions can be read back -/

/-- The last operand of an operator is a `let`, possibly as the value of further `let`s. -/
def LetTail : Expr F → Prop
  | .letE _ v => LetTail v
  | .unary _ r => EndsInLet r
  | .binary _ _ r => EndsInLet r
  | _ => False

/-- The printed expression begins with a bracket, a parenthesis or a unary operator, which would continue an expression before it. -/
def StartsTight : Expr F → Prop
  | .arr _ | .paren _ | .unary _ _ => True
  | .index l _ | .field l _ | .binary _ l _ => StartsTight l
  | _ => False

mutual
/-- Every float prints as a float literal that denotes it; there is no field access on a number literal; no left operand ends in a `let`; and in
a block, no statement ends in a `let` that is an operand while the next one begins with something that continues an expression. -/
def PrintsBack : Expr F → Prop
  | .int _ | .bool _ | .str _ | .ident _ => True
  | .float f => FloatPrints f
  | .arr es => PrintsBackAll es
  | .map ps => PrintsBackPairs ps
  | .index l i => ¬ EndsInLet l ∧ PrintsBack l ∧ PrintsBack i
  | .field l _ => ¬ EndsInLet l ∧ isNumber l = false ∧ PrintsBack l
  | .letE _ v => PrintsBack v
  | .unary _ r => PrintsBack r
  | .binary _ l r => ¬ EndsInLet l ∧ PrintsBack l ∧ PrintsBack r
  | .paren e => PrintsBack e
  | .ifE c t e => PrintsBack c ∧ PrintsBackSeq t ∧ PrintsBackSeq e
  | .call _ es => PrintsBackAll es
termination_by structural e => e
/-- All expressions of a list. -/
def PrintsBackAll : List (Expr F) → Prop
  | [] => True
  | e :: es => PrintsBack e ∧ PrintsBackAll es
termination_by structural l => l
/-- All statements of a block. -/
def PrintsBackSeq : List (Expr F) → Prop
  | [] => True
  | e :: es => PrintsBack e ∧ (∀ f fs, es = f :: fs → LetTail e → ¬ StartsTight f) ∧ PrintsBackSeq es
termination_by structural l => l
/-- All keys and values. -/
def PrintsBackPairs : List (Expr F × Expr F) → Prop
  | [] => True
  | (k, v) :: ps => PrintsBack k ∧ PrintsBack v ∧ PrintsBackPairs ps
termination_by structural l => l
end

/-- The printed float is a row of digits, or a float literal that denotes the float again, or `inf`. -/
def Legible (f : F) : Prop := TokenOk ⟨.Integer, Rt.fdisp f⟩ ∨ FloatPrints f ∨ Rt.fdisp f = c!"inf"

/-- What is assumed of floats: those that can be written as literals are printed legibly, as Rust prints them. -/
def LiteralsLegible (F : Type) [Rt F] : Prop := ∀ (s : Str) (f : F), TokenOk ⟨.Float, s⟩ → Rt.fparse s = some f → Legible f

end Am.Spec
