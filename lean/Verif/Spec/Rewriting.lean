import Verif.Spec.Parens
import Verif.Spec.Semantics
/-! # Usual rewritings of expressions (C116) -/
namespace Am.Spec
open Am
variable {F : Type} [Rt F]

/-- A literal and its value. -/
inductive WrittenValue : Expr F → Value F → Prop
  | int (i : Int64) : WrittenValue (.int i) (.int i)
  | float (f : F) : WrittenValue (.float f) (.float f)
  | bool (b : Bool) : WrittenValue (.bool b) (.bool b)
  | str (s : Str) : WrittenValue (.str s) (.str s)

/-- An expression that can only have the values true and false, by its form: a comparison, a literal, or such expressions with `!`, `&&`, `||` and
parentheses. -/
inductive Logical : Expr F → Prop
  | bool (b : Bool) : Logical (.bool b)
  | compares (t : Token) (l r : Expr F) : t.kind = .Lt ∨ t.kind = .Gt ∨ t.kind = .Le ∨ t.kind = .Ge ∨ t.kind = .Eq ∨ t.kind = .Ne → Logical (.binary t l r)
  | not (t : Token) (c : Expr F) : t.kind = .Not → Logical c → Logical (.unary t c)
  | and (t : Token) (c d : Expr F) : t.kind = .La → Logical c → Logical d → Logical (.binary t c d)
  | or (t : Token) (c d : Expr F) : t.kind = .Lo → Logical c → Logical d → Logical (.binary t c d)
  | paren (c : Expr F) : Logical c → Logical (.paren c)

/-- The rewritings; `P` says for which expressions the laws of logic are used. -/
inductive Rule (P : Expr F → Prop) : Expr F → Expr F → Prop
  /-- `m.x` and `m["x"]` -/
  | field (l : Expr F) (n : Str) : Rule P (.field l n) (.index l (.str n))
  /-- parentheses -/
  | paren (e : Expr F) : Rule P (.paren e) e
  /-- `!(a == b)` and `a != b` -/
  | notEqual (t u w : Token) (l r : Expr F) : t.kind = .Not → u.kind = .Eq → w.kind = .Ne → Rule P (.unary t (.paren (.binary u l r))) (.binary w l r)
  /-- `!(a != b)` and `a == b` -/
  | notDiffers (t u w : Token) (l r : Expr F) : t.kind = .Not → u.kind = .Ne → w.kind = .Eq → Rule P (.unary t (.paren (.binary u l r))) (.binary w l r)
  /-- an operator between literals and its result -/
  | constant (t : Token) (l r e : Expr F) (a b v : Value F) : WrittenValue l a → WrittenValue r b → WrittenValue e v → Operates t.kind a b (.ok v) → Rule P (.binary t l r) e
  /-- `if (true)` and `if (false)` -/
  | ifTrue (e : Expr F) (b : List (Expr F)) : Rule P (.ifE (.bool true) [e] b) e
  | ifFalse (e : Expr F) (b : List (Expr F)) : Rule P (.ifE (.bool false) b [e]) e
  /-- `true && e`, `false || e`, `false && e`, `true || e` -/
  | trueAnd (t : Token) (e : Expr F) : t.kind = .La → Rule P (.binary t (.bool true) e) e
  | falseOr (t : Token) (e : Expr F) : t.kind = .Lo → Rule P (.binary t (.bool false) e) e
  | falseAnd (t : Token) (e : Expr F) : t.kind = .La → Rule P (.binary t (.bool false) e) (.bool false)
  | trueOr (t : Token) (e : Expr F) : t.kind = .Lo → Rule P (.binary t (.bool true) e) (.bool true)
  /-- `if (!c) {a} else {b}` and `if (c) {b} else {a}` -/
  | exchange (t : Token) (c : Expr F) (a b : List (Expr F)) : P c → t.kind = .Not → Rule P (.ifE (.unary t c) a b) (.ifE c b a)
  /-- `!!c` and `c` -/
  | twice (t u : Token) (c : Expr F) : P c → t.kind = .Not → u.kind = .Not → Rule P (.unary t (.unary u c)) c
  /-- `!(c && d)` and `!c || !d` -/
  | notAnd (t u v w o : Token) (c d : Expr F) : P c → P d → t.kind = .Not → v.kind = .Not → w.kind = .Not → u.kind = .La → o.kind = .Lo →
      Rule P (.unary t (.paren (.binary u c d))) (.binary o (.unary v c) (.unary w d))
  /-- `!(c || d)` and `!c && !d` -/
  | notOr (t u v w o : Token) (c d : Expr F) : P c → P d → t.kind = .Not → v.kind = .Not → w.kind = .Not → u.kind = .Lo → o.kind = .La →
      Rule P (.unary t (.paren (.binary u c d))) (.binary o (.unary v c) (.unary w d))
  /-- `c && e` and `if (c) {e} else {false}` -/
  | andIf (t : Token) (c e : Expr F) : P c → t.kind = .La → Rule P (.binary t c e) (.ifE c [e] [.bool false])
  /-- `c || e` and `if (c) {true} else {e}` -/
  | orIf (t : Token) (c e : Expr F) : P c → t.kind = .Lo → Rule P (.binary t c e) (.ifE c [.bool true] [e])

mutual
/-- The second expression is the first one with rules of `R` used at any number of places, in either direction. -/
inductive Rewritten (R : Expr F → Expr F → Prop) : Expr F → Expr F → Prop
  | same (e : Expr F) : Rewritten R e e
  | rule {e e' : Expr F} : R e e' → Rewritten R e e'
  | back {e e' : Expr F} : R e e' → Rewritten R e' e
  | also {e e' e'' : Expr F} : Rewritten R e e' → Rewritten R e' e'' → Rewritten R e e''
  | arr {l l' : List (Expr F)} : RewrittenList R l l' → Rewritten R (.arr l) (.arr l')
  | map {l l' : List (Expr F × Expr F)} : RewrittenPairs R l l' → Rewritten R (.map l) (.map l')
  | index {l l' i i' : Expr F} : Rewritten R l l' → Rewritten R i i' → Rewritten R (.index l i) (.index l' i')
  | field {l l' : Expr F} (n : Str) : Rewritten R l l' → Rewritten R (.field l n) (.field l' n)
  | letE (n : Str) {e e' : Expr F} : Rewritten R e e' → Rewritten R (.letE n e) (.letE n e')
  | unary (t : Token) {e e' : Expr F} : Rewritten R e e' → Rewritten R (.unary t e) (.unary t e')
  | binary (t : Token) {l l' r r' : Expr F} : Rewritten R l l' → Rewritten R r r' → Rewritten R (.binary t l r) (.binary t l' r')
  | paren {e e' : Expr F} : Rewritten R e e' → Rewritten R (.paren e) (.paren e')
  | ifE {c c' : Expr F} {a a' b b' : List (Expr F)} : Rewritten R c c' → RewrittenList R a a' → RewrittenList R b b' → Rewritten R (.ifE c a b) (.ifE c' a' b')
  | call (f : Str) {l l' : List (Expr F)} : RewrittenList R l l' → Rewritten R (.call f l) (.call f l')
/-- The same for lists of expressions. -/
inductive RewrittenList (R : Expr F → Expr F → Prop) : List (Expr F) → List (Expr F) → Prop
  | nil : RewrittenList R [] []
  | cons {e e' : Expr F} {l l' : List (Expr F)} : Rewritten R e e' → RewrittenList R l l' → RewrittenList R (e :: l) (e' :: l')
/-- The same for the pairs of a map. -/
inductive RewrittenPairs (R : Expr F → Expr F → Prop) : List (Expr F × Expr F) → List (Expr F × Expr F) → Prop
  | nil : RewrittenPairs R [] []
  | cons {k k' v v' : Expr F} {l l' : List (Expr F × Expr F)} : Rewritten R k k' → Rewritten R v v' → RewrittenPairs R l l' →
      RewrittenPairs R ((k, v) :: l) ((k', v') :: l')
end

/-- Asserts: the sides of a comparison may be rewritten; an assert that is no comparison stays as it is. -/
inductive RewrittenAssert (R : Expr F → Expr F → Prop) : Expr F → Expr F → Prop
  | same (e : Expr F) : RewrittenAssert R e e
  | sides (t : Token) {l l' r r' : Expr F} : Rewritten R l l' → Rewritten R r r' → RewrittenAssert R (.binary t l r) (.binary t l' r')

/-- A definition of a request with rewritten asserts. -/
def RewrittenDefinition (R : Expr F → Expr F → Prop) (p p' : Str × (Str × List (Expr F))) : Prop := p.1 = p'.1 ∧ p.2.1 = p'.2.1 ∧ Each (RewrittenAssert R) p.2.2 p'.2.2

/-- Items of a text. -/
inductive RewrittenItem (R : Expr F → Expr F → Prop) : Item F → Item F → Prop
  | expr {e e' : Expr F} : Rewritten R e e' → RewrittenItem R (.expr e) (.expr e')
  | request (n m : Str) {as as' : List (Expr F)} : Each (RewrittenAssert R) as as' → RewrittenItem R (.request n m as) (.request n m as')
  | test (n : Str) {b b' : List (Expr F)} : RewrittenList R b b' → RewrittenItem R (.test n b) (.test n b')

/-- The same end, apart from the wording of an error. -/
def SameEnd {α : Type} : Res α → Res α → Prop
  | .ok a, .ok b => a = b
  | .err _, .err _ => True
  | .panic, .panic => True
  | .hang, .hang => True
  | _, _ => False

/-- The same variables, the same messages sent and the same text printed; the same requests up to rewritten asserts, and the same records apart from the
text that shows how an assert is written. -/
structure SameButRewritten (R : Expr F → Expr F → Prop) (s s' : St F) : Prop where
  variables : s.ctx.inner = s'.ctx.inner
  requests : Each (RewrittenDefinition R) s.ctx.requests s'.ctx.requests
  records : Each SameResult s.ctx.records s'.ctx.records
  sent : s.sent = s'.sent
  out : s.out = s'.out

end Am.Spec
