import Verif.Model.Parser
import Verif.Spec.Basic
/-!
# Specification of the concrete syntax

`Reads e ts`: the token list `ts` is a way of writing the expression `e`. No parser here: the rules are the grammar.
-/
namespace Am.Spec
open Am
variable {F : Type} [Rt F]

/-- An optional semicolon. -/
inductive OptSemi : List Token → Prop
  | none : OptSemi []
  | some (t : Token) : t.kind = .Semi → OptSemi [t]

mutual
/-- The tokens of an expression. Punctuation tokens are given by kind (their text is fixed, see `TokenOk`). -/
inductive Reads : Expr F → List Token → Prop
  | int (t : Token) (i : Int64) : t.kind = .Integer → IntText t.literal i.toInt → Reads (.int i) [t]
  | float (t : Token) (f : F) : t.kind = .Float → Rt.fparse t.literal = some f → Reads (.float f) [t]
  | bool (t : Token) (b : Bool) : t.kind = .True ∨ t.kind = .False → t.literal = boolStr b → Reads (.bool b) [t]
  | str (t : Token) : t.kind = .String → Reads (.str t.literal) [t]
  | ident (t : Token) : t.kind = .Ident → Reads (.ident t.literal) [t]
  | arr (l r : Token) (es : List (Expr F)) (ts : List Token) :
      l.kind = .Ls → r.kind = .Rs → ReadsList es ts → Reads (.arr es) (l :: (ts ++ [r]))
  | map (l r : Token) (ps : List (Expr F × Expr F)) (ts : List Token) :
      l.kind = .Lb → r.kind = .Rb → ReadsPairs ps ts → Reads (.map ps) (l :: (ts ++ [r]))
  | index (l r : Token) (e i : Expr F) (te ti : List Token) :
      l.kind = .Ls → r.kind = .Rs → Reads e te → Reads i ti → Reads (.index e i) (te ++ l :: (ti ++ [r]))
  | field (d n : Token) (e : Expr F) (te : List Token) :
      d.kind = .Dot → n.kind = .Ident → Reads e te → Reads (.field e n.literal) (te ++ [d, n])
  | letE (l n a : Token) (v : Expr F) (tv sm : List Token) :
      l.kind = .Let → n.kind = .Ident → a.kind = .Assign → Reads v tv → OptSemi sm →
      Reads (.letE n.literal v) (l :: n :: a :: (tv ++ sm))
  | unary (op : Token) (e : Expr F) (te : List Token) :
      op.kind = .Not ∨ op.kind = .Sub → Reads e te → Reads (.unary op e) (op :: te)
  | binary (op : Token) (l r : Expr F) (tl tr : List Token) :
      op.kind.isBinary = true → Reads l tl → Reads r tr → Reads (.binary op l r) (tl ++ op :: tr)
  | paren (l r : Token) (e : Expr F) (te : List Token) :
      l.kind = .Lp → r.kind = .Rp → Reads e te → Reads (.paren e) (l :: (te ++ [r]))
  | ifThen (i l r : Token) (c : Expr F) (t : List (Expr F)) (tc tt : List Token) :
      i.kind = .If → l.kind = .Lp → r.kind = .Rp → Reads c tc → ReadsBlock t tt →
      Reads (.ifE c t []) (i :: l :: (tc ++ r :: tt))
  | ifElse (i l r el : Token) (c : Expr F) (t e : List (Expr F)) (tc tt te : List Token) :
      i.kind = .If → l.kind = .Lp → r.kind = .Rp → el.kind = .Else → Reads c tc → ReadsBlock t tt → ReadsBlock e te →
      Reads (.ifE c t e) (i :: l :: (tc ++ r :: (tt ++ el :: te)))
  | call (f l r : Token) (es : List (Expr F)) (ts : List Token) :
      f.kind = .Ident → l.kind = .Lp → r.kind = .Rp → ReadsList es ts → Reads (.call f.literal es) (f :: l :: (ts ++ [r]))
/-- Comma-separated expressions; a trailing comma is allowed. -/
inductive ReadsList : List (Expr F) → List Token → Prop
  | nil : ReadsList [] []
  | last (e : Expr F) (te : List Token) : Reads e te → ReadsList [e] te
  | cons (e : Expr F) (es : List (Expr F)) (c : Token) (te ts : List Token) :
      c.kind = .Comma → Reads e te → ReadsList es ts → ReadsList (e :: es) (te ++ c :: ts)
/-- Comma-separated `key: value` pairs; a trailing comma is allowed. -/
inductive ReadsPairs : List (Expr F × Expr F) → List Token → Prop
  | nil : ReadsPairs [] []
  | last (k v : Expr F) (c : Token) (tk tv : List Token) :
      c.kind = .Colon → Reads k tk → Reads v tv → ReadsPairs [(k, v)] (tk ++ c :: tv)
  | cons (k v : Expr F) (ps : List (Expr F × Expr F)) (c m : Token) (tk tv ts : List Token) :
      c.kind = .Colon → m.kind = .Comma → Reads k tk → Reads v tv → ReadsPairs ps ts →
      ReadsPairs ((k, v) :: ps) (tk ++ c :: (tv ++ m :: ts))
/-- A braced block: expressions, each followed by an optional semicolon. -/
inductive ReadsBlock : List (Expr F) → List Token → Prop
  | mk (l r : Token) (es : List (Expr F)) (ts : List Token) :
      l.kind = .Lb → r.kind = .Rb → ReadsSeq es ts → ReadsBlock es (l :: (ts ++ [r]))
/-- Expressions, each followed by an optional semicolon. -/
inductive ReadsSeq : List (Expr F) → List Token → Prop
  | nil : ReadsSeq [] []
  | cons (e : Expr F) (es : List (Expr F)) (te sm ts : List Token) :
      Reads e te → OptSemi sm → ReadsSeq es ts → ReadsSeq (e :: es) (te ++ (sm ++ ts))
end

/-- The published precedence table of the binary operators (higher binds tighter). -/
def tableLevel : Kind → Nat
  | .Lo => 1 | .La => 2 | .Bo => 3 | .Bx => 4 | .Ba => 5 | .Eq | .Ne => 6 | .Lt | .Gt | .Le | .Ge => 7
  | .Sl | .Sr => 8 | .Add | .Sub => 9 | .Mul | .Div | .Rem => 10 | _ => 0

/-- How tightly the outermost construct of an expression holds together: its operator's level, 11 for unary operators, 14 for
everything that is closed by itself (literals, names, brackets, calls, index and field access). -/
def strength : Expr F → Nat
  | .binary op _ _ => tableLevel op.kind
  | .unary _ _ => 11
  | _ => 14

/-- The last operand, following right operands, is a `let` (whose value swallows everything up to the next semicolon). -/
def EndsInLet : Expr F → Prop
  | .letE _ _ => True
  | .unary _ r => EndsInLet r
  | .binary _ _ r => EndsInLet r
  | _ => False

mutual
/-- Every node of the tree is grouped as the precedence table says, except that a left operand for which `X` holds may have any
strength. -/
inductive Grouped (X : Expr F → Prop) : Expr F → Prop
  | int (i : Int64) : Grouped X (.int i)
  | float (f : F) : Grouped X (.float f)
  | bool (b : Bool) : Grouped X (.bool b)
  | str (s : Str) : Grouped X (.str s)
  | ident (n : Str) : Grouped X (.ident n)
  | arr (es : List (Expr F)) : GroupedAll X es → Grouped X (.arr es)
  | map (ps : List (Expr F × Expr F)) : GroupedPairs X ps → Grouped X (.map ps)
  | index (l i : Expr F) : Grouped X l → Grouped X i → (14 ≤ strength l ∨ X l) → Grouped X (.index l i)
  | field (l : Expr F) (n : Str) : Grouped X l → (14 ≤ strength l ∨ X l) → Grouped X (.field l n)
  | letE (n : Str) (v : Expr F) : Grouped X v → Grouped X (.letE n v)
  | unary (op : Token) (r : Expr F) : op.kind = .Not ∨ op.kind = .Sub → Grouped X r → 11 ≤ strength r → Grouped X (.unary op r)
  | binary (op : Token) (l r : Expr F) : op.kind.isBinary = true → Grouped X l → Grouped X r →
      tableLevel op.kind < strength r → (tableLevel op.kind ≤ strength l ∨ X l) → Grouped X (.binary op l r)
  | paren (e : Expr F) : Grouped X e → Grouped X (.paren e)
  | ifE (c : Expr F) (t e : List (Expr F)) : Grouped X c → GroupedAll X t → GroupedAll X e → Grouped X (.ifE c t e)
  | call (f : Str) (es : List (Expr F)) : GroupedAll X es → Grouped X (.call f es)
/-- Every expression of a list is grouped. -/
inductive GroupedAll (X : Expr F → Prop) : List (Expr F) → Prop
  | nil : GroupedAll X []
  | cons (e : Expr F) (es : List (Expr F)) : Grouped X e → GroupedAll X es → GroupedAll X (e :: es)
/-- Every key and value is grouped. -/
inductive GroupedPairs (X : Expr F → Prop) : List (Expr F × Expr F) → Prop
  | nil : GroupedPairs X []
  | cons (k v : Expr F) (ps : List (Expr F × Expr F)) : Grouped X k → Grouped X v → GroupedPairs X ps → GroupedPairs X ((k, v) :: ps)
end


/-- Grouped without exception. -/
abbrev StrictlyGrouped (e : Expr F) : Prop := Grouped (fun _ => False) e

/-- A top-level item of a source text. -/
inductive Item (F : Type) where
  | expr (e : Expr F)
  | request (name message : Str) (asserts : List (Expr F))
  | test (name : Str) (block : List (Expr F))

/-- The tokens of a top-level item (without the optional semicolon after it). -/
inductive ReadsItem : Item F → List Token → Prop
  | expr (e : Expr F) (ts : List Token) : Reads e ts → ReadsItem (.expr e) ts
  | request (r n m : Token) : r.kind = .Request → n.kind = .Ident → m.kind = .Template →
      ReadsItem (.request n.literal m.literal []) [r, n, m]
  | requestAsserts (r n m lb rb : Token) (es : List (Expr F)) (ts : List Token) :
      r.kind = .Request → n.kind = .Ident → m.kind = .Template → lb.kind = .Ls → rb.kind = .Rs → ReadsList es ts →
      ReadsItem (.request n.literal m.literal es) (r :: n :: m :: lb :: (ts ++ [rb]))
  | test (t n : Token) (es : List (Expr F)) (ts : List Token) :
      t.kind = .Test → n.kind = .Ident → ReadsBlock es ts → ReadsItem (.test n.literal es) (t :: n :: ts)

/-- A whole source: items, each followed by an optional semicolon, then the end marker. -/
inductive ReadsSource : List (Item F) → List Token → Prop
  | nil (t : Token) : t.kind = .Eof → ReadsSource [] [t]
  | cons (i : Item F) (is : List (Item F)) (ti sm ts : List Token) :
      ReadsItem i ti → OptSemi sm → ReadsSource is ts → ReadsSource (i :: is) (ti ++ (sm ++ ts))

/-- The top-level expressions in order. -/
def exprsOf : List (Item F) → List (Expr F)
  | [] => []
  | .expr e :: is => e :: exprsOf is
  | _ :: is => exprsOf is

/-- The last request definition with the given name. -/
def lastRequest (name : Str) : List (Item F) → Option (Str × List (Expr F))
  | [] => none
  | .request n m as :: is => (lastRequest name is).or (if n = name then some (m, as) else none)
  | _ :: is => lastRequest name is

/-- The last test definition with the given name. -/
def lastTest (name : Str) : List (Item F) → Option (List (Expr F))
  | [] => none
  | .test n b :: is => (lastTest name is).or (if n = name then some b else none)
  | _ :: is => lastTest name is

/-- Token kinds that can end an operand. -/
def endsOperand : Kind → Bool
  | .Ident | .Integer | .Float | .True | .False | .String | .Rp | .Rb | .Rs => true
  | _ => false

/-- Token kinds that are unary or binary operators. -/
def isOperator (k : Kind) : Bool := k == .Not || k.isBinary

/-- No two neighbouring elements are related. -/
def NoAdj (R : Token → Token → Prop) : List Token → Prop
  | a :: b :: r => ¬ R a b ∧ NoAdj R (b :: r)
  | _ => True

instance NoAdj.dec (R : Token → Token → Prop) [∀ a b, Decidable (R a b)] : (l : List Token) → Decidable (NoAdj R l)
  | [] => .isTrue trivial
  | [_] => .isTrue trivial
  | a :: b :: r => by unfold NoAdj; exact @instDecidableAnd _ _ inferInstance (NoAdj.dec R (b :: r))

/-- `let` directly after an operator. -/
def OpLet (a b : Token) : Prop := isOperator a.kind = true ∧ b.kind = .Let

instance (a b : Token) : Decidable (OpLet a b) := by unfold OpLet; exact inferInstance

/-- `!` directly after an operand, or `let` directly after an operator. -/
def Clash (a b : Token) : Prop := (endsOperand a.kind = true ∧ b.kind = .Not) ∨ OpLet a b

instance (a b : Token) : Decidable (Clash a b) := by unfold Clash; exact inferInstance

/-- No two neighbouring tokens clash. -/
abbrev NoClash (l : List Token) : Prop := NoAdj Clash l

end Am.Spec
