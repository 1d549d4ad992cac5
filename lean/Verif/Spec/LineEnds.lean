import Verif.Spec.Laid
import Verif.Spec.Lexer
import Verif.Spec.Program
/-!
# Line ends of source texts (C118)

The same text with the line ends of Windows, and what that changes in a program: the texts in quotes that run over several lines.
-/
namespace Am.Spec
open Am
variable {F : Type} [Rt F]

/-- The text with a carriage return before every line feed. -/
def windows (text : Str) : Str := text.flatMap fun c => if c = '\n' then ['\r', '\n'] else [c]

/-- No string literal of the text runs over several lines. -/
def OneLineStrings (text : Str) : Prop := ∀ closed tokens, Layout closed text tokens → ∀ t ∈ tokens, t.kind = .String → '\n' ∉ t.literal

mutual
/-- The expression with every string literal changed by `g`. -/
def withStrings (g : Str → Str) : Expr F → Expr F
  | .int i => .int i
  | .float x => .float x
  | .bool b => .bool b
  | .str s => .str (g s)
  | .ident n => .ident n
  | .arr items => .arr (withStringsList g items)
  | .map pairs => .map (withStringsPairs g pairs)
  | .index l i => .index (withStrings g l) (withStrings g i)
  | .field l n => .field (withStrings g l) n
  | .letE n e => .letE n (withStrings g e)
  | .unary t r => .unary t (withStrings g r)
  | .binary t l r => .binary t (withStrings g l) (withStrings g r)
  | .paren e => .paren (withStrings g e)
  | .ifE c t e => .ifE (withStrings g c) (withStringsList g t) (withStringsList g e)
  | .call n args => .call n (withStringsList g args)
termination_by structural e => e
/-- Each expression of a list changed. -/
def withStringsList (g : Str → Str) : List (Expr F) → List (Expr F)
  | [] => []
  | e :: l => withStrings g e :: withStringsList g l
termination_by structural l => l
/-- Each pair of a map literal changed. -/
def withStringsPairs (g : Str → Str) : List (Expr F × Expr F) → List (Expr F × Expr F)
  | [] => []
  | (k, e) :: l => (withStrings g k, withStrings g e) :: withStringsPairs g l
termination_by structural l => l
end

/-- The item with every string literal changed by `g` and every message by `h`. -/
def withTexts (g h : Str → Str) : Item F → Item F
  | .expr e => .expr (withStrings g e)
  | .request n m as => .request n (h m) (withStringsList g as)
  | .test n b => .test n (withStringsList g b)

/-- A message without carriage returns, and the same with the line ends of Windows. -/
def WindowsText (m m' : Str) : Prop := '\r' ∉ m ∧ m' = windows m

/-- No value for a placeholder of the message has a carriage return. -/
def NoReturns (vars : List (Str × Value F)) (message : Str) : Prop := ∀ ps n, Pieces message ps → .hole n ∈ ps → '\r' ∉ inserted vars n

end Am.Spec
