import Verif.Spec.Rewriting
import Verif.Spec.Joining
import Verif.Props.Evaluating
/-! # Exchanged and regrouped operands (C121) -/
namespace Am.Spec
open Am
variable {F : Type} [Rt F]

/-- An expression that can do nothing but have a value or fail: it calls nothing, binds no name and uses no operator that can crash. -/
def PlainExpr (e : Expr F) : Prop := called e = [] ∧ lets e = [] ∧ ∀ o ∈ ops e, SafeOp (Rt.checks F) o

/-- A written number, truth value or text. -/
def IsLiteral (e : Expr F) : Prop := ∃ v, WrittenValue e v

/-- A written number. -/
def IsNumber (e : Expr F) : Prop := (∃ i, e = .int i) ∨ ∃ f, e = .float f

/-- Operands whose order cannot matter: one of them is a literal, or both are plain. -/
def OrderFree (l r : Expr F) : Prop := IsLiteral l ∨ IsLiteral r ∨ PlainExpr l ∧ PlainExpr r

/-- The rules; `Q` says for which operands they are used. -/
inductive Turned (Q : Expr F → Expr F → Prop) : Expr F → Expr F → Prop
  /-- `a < b` and `b > a` -/
  | less (t u : Token) (l r : Expr F) : Q l r → t.kind = .Lt → u.kind = .Gt → Turned Q (.binary t l r) (.binary u r l)
  /-- `a <= b` and `b >= a` -/
  | atMost (t u : Token) (l r : Expr F) : Q l r → t.kind = .Le → u.kind = .Ge → Turned Q (.binary t l r) (.binary u r l)
  /-- `a * b` and `b * a`; the same for `&`, `|`, `^` -/
  | factors (t : Token) (l r : Expr F) : Q l r → t.kind = .Mul ∨ t.kind = .Ba ∨ t.kind = .Bo ∨ t.kind = .Bx → Turned Q (.binary t l r) (.binary t r l)
  /-- `a == 1` and `1 == a`; the same for `!=` -/
  | equal (t : Token) (l r : Expr F) : IsLiteral l → t.kind = .Eq ∨ t.kind = .Ne → Turned Q (.binary t l r) (.binary t r l)
  /-- `a + 1` and `1 + a` -/
  | sum (t : Token) (l r : Expr F) : IsNumber l → t.kind = .Add → Turned Q (.binary t l r) (.binary t r l)
  /-- `a & b & c` and `a & (b & c)`; the same for `|` and `^` -/
  | regroup (t u v w : Token) (l m r : Expr F) : PlainExpr m → PlainExpr r → t.kind = u.kind → u.kind = v.kind → v.kind = w.kind →
      t.kind = .Ba ∨ t.kind = .Bo ∨ t.kind = .Bx → Turned Q (.binary t (.binary u l m) r) (.binary v l (.paren (.binary w m r)))
  /-- `a + "text" + c` and `a + ("text" + c)` -/
  | joined (t u v w : Token) (l r : Expr F) (s : Str) : PlainExpr r → t.kind = .Add → u.kind = .Add → v.kind = .Add → w.kind = .Add →
      Turned Q (.binary t (.binary u l (.str s)) r) (.binary v l (.paren (.binary w (.str s) r)))

/-- Sums and products of floats do not depend on the order. -/
def FloatsCommute (F : Type) [Rt F] : Prop := (∀ a b : F, Rt.fadd a b = Rt.fadd b a) ∧ ∀ a b : F, Rt.fmul a b = Rt.fmul b a

end Am.Spec
