import Verif.Spec.Syntax
/-!
# The published grammar as a generator

`Writes e ts`: the tokens `ts` are a well-formed way of writing `e` under the precedence table, with every statement ended by a
semicolon or followed by a token that cannot continue it. `let` occurs as a whole expression only, never as an operand.
Compare `Reads` (Spec/Syntax.lean), which says nothing about precedence.
-/
namespace Am.Spec
open Am
variable {F : Type} [Rt F]

/-- The expression is a `let`. -/
def isLet : Expr F → Bool
  | .letE _ _ => true
  | _ => false

/-- A token that cannot continue the expression before it: not an operator, opening bracket or dot. -/
def freshKind (k : Kind) : Bool := !(k.isBinary || k == .Not || k == .Lp || k == .Ls || k == .Dot || k == .Semi || k == .Else)

mutual
/-- The tokens of an expression. -/
inductive Writes : Expr F → List Token → Prop
  | int (t : Token) (i : Int64) : t.kind = .Integer → IntText t.literal i.toInt → Writes (.int i) [t]
  | float (t : Token) (f : F) : t.kind = .Float → Rt.fparse t.literal = some f → Writes (.float f) [t]
  | bool (t : Token) (b : Bool) : t.kind = .True ∨ t.kind = .False → t.literal = boolStr b → Writes (.bool b) [t]
  | str (t : Token) : t.kind = .String → Writes (.str t.literal) [t]
  | ident (t : Token) : t.kind = .Ident → Writes (.ident t.literal) [t]
  | arr (l r : Token) (es : List (Expr F)) (ts : List Token) :
      l.kind = .Ls → r.kind = .Rs → WritesList es ts → Writes (.arr es) (l :: (ts ++ [r]))
  | map (l r : Token) (ps : List (Expr F × Expr F)) (ts : List Token) :
      l.kind = .Lb → r.kind = .Rb → WritesPairs ps ts → Writes (.map ps) (l :: (ts ++ [r]))
  | index (l r : Token) (e i : Expr F) (te ti : List Token) :
      l.kind = .Ls → r.kind = .Rs → Writes e te → Writes i ti → 14 ≤ strength e → isLet e = false →
      Writes (.index e i) (te ++ l :: (ti ++ [r]))
  | field (d n : Token) (e : Expr F) (te : List Token) :
      d.kind = .Dot → n.kind = .Ident → Writes e te → 14 ≤ strength e → isLet e = false →
      Writes (.field e n.literal) (te ++ [d, n])
  | letE (l n a : Token) (v : Expr F) (tv : List Token) :
      l.kind = .Let → n.kind = .Ident → a.kind = .Assign → Writes v tv → Writes (.letE n.literal v) (l :: n :: a :: tv)
  | unary (op : Token) (e : Expr F) (te : List Token) :
      op.kind = .Not ∨ op.kind = .Sub → Writes e te → 11 ≤ strength e → isLet e = false → Writes (.unary op e) (op :: te)
  | binary (op : Token) (l r : Expr F) (tl tr : List Token) :
      op.kind.isBinary = true → Writes l tl → Writes r tr → tableLevel op.kind < strength r → tableLevel op.kind ≤ strength l →
      isLet l = false → isLet r = false → Writes (.binary op l r) (tl ++ op :: tr)
  | paren (l r : Token) (e : Expr F) (te : List Token) :
      l.kind = .Lp → r.kind = .Rp → Writes e te → Writes (.paren e) (l :: (te ++ [r]))
  | ifThen (i l r : Token) (c : Expr F) (t : List (Expr F)) (tc tt : List Token) :
      i.kind = .If → l.kind = .Lp → r.kind = .Rp → Writes c tc → WritesBlock t tt →
      Writes (.ifE c t []) (i :: l :: (tc ++ r :: tt))
  | ifElse (i l r el : Token) (c : Expr F) (t e : List (Expr F)) (tc tt te : List Token) :
      i.kind = .If → l.kind = .Lp → r.kind = .Rp → el.kind = .Else → Writes c tc → WritesBlock t tt → WritesBlock e te →
      Writes (.ifE c t e) (i :: l :: (tc ++ r :: (tt ++ el :: te)))
  | call (f l r : Token) (es : List (Expr F)) (ts : List Token) :
      f.kind = .Ident → l.kind = .Lp → r.kind = .Rp → WritesList es ts → Writes (.call f.literal es) (f :: l :: (ts ++ [r]))
/-- Comma-separated expressions; a trailing comma is allowed. -/
inductive WritesList : List (Expr F) → List Token → Prop
  | nil : WritesList [] []
  | last (e : Expr F) (te : List Token) : Writes e te → WritesList [e] te
  | cons (e : Expr F) (es : List (Expr F)) (c : Token) (te ts : List Token) :
      c.kind = .Comma → Writes e te → WritesList es ts → WritesList (e :: es) (te ++ c :: ts)
/-- Comma-separated `key: value` pairs; a trailing comma is allowed. -/
inductive WritesPairs : List (Expr F × Expr F) → List Token → Prop
  | nil : WritesPairs [] []
  | last (k v : Expr F) (c : Token) (tk tv : List Token) :
      c.kind = .Colon → Writes k tk → Writes v tv → WritesPairs [(k, v)] (tk ++ c :: tv)
  | cons (k v : Expr F) (ps : List (Expr F × Expr F)) (c m : Token) (tk tv ts : List Token) :
      c.kind = .Colon → m.kind = .Comma → Writes k tk → Writes v tv → WritesPairs ps ts →
      WritesPairs ((k, v) :: ps) (tk ++ c :: (tv ++ m :: ts))
/-- A braced block. -/
inductive WritesBlock : List (Expr F) → List Token → Prop
  | mk (l r : Token) (es : List (Expr F)) (ts : List Token) :
      l.kind = .Lb → r.kind = .Rb → WritesSeq es ts → WritesBlock es (l :: (ts ++ [r]))
/-- Statements: each is ended by a semicolon, or is the last, or is followed by a statement whose first token is fresh. -/
inductive WritesSeq : List (Expr F) → List Token → Prop
  | nil : WritesSeq [] []
  | last (e : Expr F) (te : List Token) : Writes e te → WritesSeq [e] te
  | semi (e : Expr F) (es : List (Expr F)) (s : Token) (te ts : List Token) :
      s.kind = .Semi → Writes e te → WritesSeq es ts → WritesSeq (e :: es) (te ++ s :: ts)
  | next (e : Expr F) (es : List (Expr F)) (t : Token) (te ts : List Token) :
      freshKind t.kind = true → Writes e te → WritesSeq es (t :: ts) → WritesSeq (e :: es) (te ++ t :: ts)
end

/-- The tokens of a top-level item. -/
inductive WritesItem : Item F → List Token → Prop
  | expr (e : Expr F) (ts : List Token) : Writes e ts → WritesItem (.expr e) ts
  | request (r n m : Token) : r.kind = .Request → n.kind = .Ident → m.kind = .Template →
      WritesItem (.request n.literal m.literal []) [r, n, m]
  | requestAsserts (r n m lb rb : Token) (es : List (Expr F)) (ts : List Token) :
      r.kind = .Request → n.kind = .Ident → m.kind = .Template → lb.kind = .Ls → rb.kind = .Rs → WritesList es ts →
      WritesItem (.request n.literal m.literal es) (r :: n :: m :: lb :: (ts ++ [rb]))
  | test (t n : Token) (es : List (Expr F)) (ts : List Token) :
      t.kind = .Test → n.kind = .Ident → WritesBlock es ts → WritesItem (.test n.literal es) (t :: n :: ts)

/-- A whole source: each item is ended by a semicolon or followed by a fresh token (of the next item, or the end marker). -/
inductive WritesSource : List (Item F) → List Token → Prop
  | nil (t : Token) : t.kind = .Eof → WritesSource [] [t]
  | semi (i : Item F) (is : List (Item F)) (s : Token) (ti ts : List Token) :
      s.kind = .Semi → WritesItem i ti → WritesSource is ts → WritesSource (i :: is) (ti ++ s :: ts)
  | next (i : Item F) (is : List (Item F)) (t : Token) (ti ts : List Token) :
      freshKind t.kind = true → WritesItem i ti → WritesSource is (t :: ts) → WritesSource (i :: is) (ti ++ t :: ts)

end Am.Spec
