import Verif.Spec.Syntax
/-!
# The accepted language

Exactly which token lists are programs. Every relation reads a list of tokens from the left and names the tokens it leaves:
`Whole p ts e rest` says that `ts` begins with the expression `e`, of which nothing binds weaker than the level `p`, and that
`rest` follows. In contrast to `Reads` and `Writes` nothing is left open here: where an expression ends is part of the rules.

`Loops` describes the token lists on which reading never ends: an operand is followed by `!`, which belongs to the table of
levels but continues nothing.
-/
namespace Am.Spec
open Am
variable {F : Type} [Rt F]

/-- How tightly a token binds to what stands before it. Everything not in the table does not bind. -/
def level : Kind → Nat
  | .Not => 11
  | .Lp => 12
  | .Ls | .Dot => 13
  | k => tableLevel k

/-- What comes after an optional semicolon. -/
def dropSemi : List Token → List Token
  | t :: r => if t.kind = .Semi then r else t :: r
  | [] => []

/-- An expression of level `p` can end here: the next token does not bind tighter. -/
def Ends (p : Nat) (ts : List Token) : Prop := ∃ t r, ts = t :: r ∧ level t.kind ≤ p

/-- The next token is not of this kind. -/
def NotNext (k : Kind) (ts : List Token) : Prop := ∃ t r, ts = t :: r ∧ t.kind ≠ k

mutual
/-- The first operand of an expression of level `p`. The second number is the level for what follows; after `let` nothing can
follow any more, whatever the level was. -/
inductive Primary : Nat → List Token → Expr F → Nat → List Token → Prop
  | ident (p : Nat) (t : Token) (r : List Token) : t.kind = .Ident → Primary p (t :: r) (.ident t.literal) p r
  | int (p : Nat) (t : Token) (i : Int64) (r : List Token) :
      t.kind = .Integer → IntText t.literal i.toInt → Primary p (t :: r) (.int i) p r
  | float (p : Nat) (t : Token) (f : F) (r : List Token) :
      t.kind = .Float → Rt.fparse t.literal = some f → Primary p (t :: r) (.float f) p r
  | bool (p : Nat) (t : Token) (b : Bool) (r : List Token) :
      t.kind = .True ∨ t.kind = .False → t.literal = boolStr b → Primary p (t :: r) (.bool b) p r
  | str (p : Nat) (t : Token) (r : List Token) : t.kind = .String → Primary p (t :: r) (.str t.literal) p r
  | letE (p : Nat) (l n a : Token) (e : Expr F) (ts r : List Token) :
      l.kind = .Let → n.kind = .Ident → a.kind = .Assign → Whole 0 ts e r →
      Primary p (l :: n :: a :: ts) (.letE n.literal e) 255 (dropSemi r)
  | unary (p : Nat) (t : Token) (e : Expr F) (ts r : List Token) :
      t.kind = .Not ∨ t.kind = .Sub → Whole 11 ts e r → Primary p (t :: ts) (.unary t e) p r
  | paren (p : Nat) (l c : Token) (e : Expr F) (ts r : List Token) :
      l.kind = .Lp → c.kind = .Rp → Whole 0 ts e (c :: r) → Primary p (l :: ts) (.paren e) p r
  | ifThen (p : Nat) (i l c b d : Token) (e : Expr F) (es : List (Expr F)) (ts us r : List Token) :
      i.kind = .If → l.kind = .Lp → c.kind = .Rp → b.kind = .Lb → d.kind = .Rb → Whole 0 ts e (c :: b :: us) →
      Stmts us es (d :: r) → NotNext .Else r → Primary p (i :: l :: ts) (.ifE e es []) p r
  | ifElse (p : Nat) (i l c b d el b' d' : Token) (e : Expr F) (es es' : List (Expr F)) (ts us vs r : List Token) :
      i.kind = .If → l.kind = .Lp → c.kind = .Rp → b.kind = .Lb → d.kind = .Rb → el.kind = .Else → b'.kind = .Lb → d'.kind = .Rb →
      Whole 0 ts e (c :: b :: us) → Stmts us es (d :: el :: b' :: vs) → Stmts vs es' (d' :: r) →
      Primary p (i :: l :: ts) (.ifE e es es') p r
  | arr (p : Nat) (l c : Token) (es : List (Expr F)) (ts r : List Token) :
      l.kind = .Ls → c.kind = .Rs → Items .Rs ts es (c :: r) → Primary p (l :: ts) (.arr es) p r
  | map (p : Nat) (l c : Token) (ps : List (Expr F × Expr F)) (ts r : List Token) :
      l.kind = .Lb → c.kind = .Rb → Pairs ts ps (c :: r) → Primary p (l :: ts) (.map ps) p r
/-- What is built on an expression by the operators after it, as far as they bind tighter than `q`. -/
inductive Extends : Nat → Expr F → List Token → Expr F → List Token → Prop
  | nil (q : Nat) (l : Expr F) (ts : List Token) : Extends q l ts l ts
  | binary (q : Nat) (op : Token) (l r e : Expr F) (ts us rest : List Token) :
      q < tableLevel op.kind → Whole (tableLevel op.kind) ts r us → Extends q (.binary op l r) us e rest →
      Extends q l (op :: ts) e rest
  | call (q : Nat) (b c : Token) (f : Str) (es : List (Expr F)) (e : Expr F) (ts us rest : List Token) :
      q < 12 → b.kind = .Lp → c.kind = .Rp → Items .Rp ts es (c :: us) → Extends q (.call f es) us e rest →
      Extends q (.ident f) (b :: ts) e rest
  | index (q : Nat) (b c : Token) (l i e : Expr F) (ts us rest : List Token) :
      q < 13 → b.kind = .Ls → c.kind = .Rs → Whole 0 ts i (c :: us) → Extends q (.index l i) us e rest →
      Extends q l (b :: ts) e rest
  | field (q : Nat) (d n : Token) (l e : Expr F) (ts rest : List Token) :
      q < 13 → d.kind = .Dot → n.kind = .Ident → Extends q (.field l n.literal) ts e rest →
      Extends q l (d :: n :: ts) e rest
/-- A whole expression of level `p`: an operand and everything after it that binds tighter. -/
inductive Whole : Nat → List Token → Expr F → List Token → Prop
  | mk (p q : Nat) (l e : Expr F) (ts us rest : List Token) :
      Primary p ts l q us → Extends q l us e rest → Ends q rest → Whole p ts e rest
/-- Expressions separated by commas, a comma at the end is allowed; the closing token, of kind `k`, comes next. -/
inductive Items : Kind → List Token → List (Expr F) → List Token → Prop
  | nil (k : Kind) (c : Token) (r : List Token) : c.kind = k → Items k (c :: r) [] (c :: r)
  | last (k : Kind) (c : Token) (e : Expr F) (ts r : List Token) :
      c.kind = k → Whole 0 ts e (c :: r) → Items k ts [e] (c :: r)
  | cons (k : Kind) (c : Token) (e : Expr F) (es : List (Expr F)) (ts us rest : List Token) :
      c.kind = .Comma → Whole 0 ts e (c :: us) → Items k us es rest → Items k ts (e :: es) rest
/-- Pairs `key: value` separated by commas, before a closing brace. -/
inductive Pairs : List Token → List (Expr F × Expr F) → List Token → Prop
  | nil (c : Token) (r : List Token) : c.kind = .Rb → Pairs (c :: r) [] (c :: r)
  | last (m c : Token) (k v : Expr F) (ts us r : List Token) :
      m.kind = .Colon → c.kind = .Rb → Whole 0 ts k (m :: us) → Whole 0 us v (c :: r) → Pairs ts [(k, v)] (c :: r)
  | cons (m c : Token) (k v : Expr F) (ps : List (Expr F × Expr F)) (ts us vs rest : List Token) :
      m.kind = .Colon → c.kind = .Comma → Whole 0 ts k (m :: us) → Whole 0 us v (c :: vs) → Pairs vs ps rest →
      Pairs ts ((k, v) :: ps) rest
/-- Expressions one after the other, each with an optional semicolon, before a closing brace. -/
inductive Stmts : List Token → List (Expr F) → List Token → Prop
  | nil (c : Token) (r : List Token) : c.kind = .Rb → Stmts (c :: r) [] (c :: r)
  | cons (e : Expr F) (es : List (Expr F)) (ts us rest : List Token) :
      Whole 0 ts e us → Stmts (dropSemi us) es rest → Stmts ts (e :: es) rest
end

/-- One top-level item, without the optional semicolon after it. -/
inductive OneItem : List Token → Item F → List Token → Prop
  | expr (e : Expr F) (ts r : List Token) : Whole 0 ts e r → OneItem ts (.expr e) r
  | request (q n m : Token) (r : List Token) : q.kind = .Request → n.kind = .Ident → m.kind = .Template → NotNext .Ls r →
      OneItem (q :: n :: m :: r) (.request n.literal m.literal []) r
  | asserts (q n m b c : Token) (es : List (Expr F)) (ts r : List Token) : q.kind = .Request → n.kind = .Ident →
      m.kind = .Template → b.kind = .Ls → c.kind = .Rs → Items .Rs ts es (c :: r) →
      OneItem (q :: n :: m :: b :: ts) (.request n.literal m.literal es) r
  | test (q n b c : Token) (es : List (Expr F)) (ts r : List Token) : q.kind = .Test → n.kind = .Ident → b.kind = .Lb →
      c.kind = .Rb → Stmts ts es (c :: r) → OneItem (q :: n :: b :: ts) (.test n.literal es) r

/-- A program: items, each with an optional semicolon, up to the end of the text. -/
inductive Program : List Token → List (Item F) → Prop
  | nil (t : Token) : t.kind = .Eof → Program [t] []
  | cons (i : Item F) (is : List (Item F)) (ts us : List Token) : OneItem ts i us → Program (dropSemi us) is → Program ts (i :: is)

/-! ## Where reading never ends -/

variable (F) in
/-- Reading a list at `ts`, an item starts at `us`. -/
inductive InItems (k : Kind) : List Token → List Token → Prop
  | here (ts : List Token) : NotNext k ts → InItems k ts ts
  | next (c : Token) (e : Expr F) (ts us vs : List Token) :
      c.kind = .Comma → Whole 0 ts e (c :: us) → InItems k us vs → InItems k ts vs

variable (F) in
/-- Reading pairs at `ts`, a key or a value starts at `us`. -/
inductive InPairs : List Token → List Token → Prop
  | key (ts : List Token) : NotNext .Rb ts → InPairs ts ts
  | value (m : Token) (k : Expr F) (ts us : List Token) : m.kind = .Colon → Whole 0 ts k (m :: us) → InPairs ts us
  | next (m c : Token) (k v : Expr F) (ts us vs ws : List Token) :
      m.kind = .Colon → c.kind = .Comma → Whole 0 ts k (m :: us) → Whole 0 us v (c :: vs) → InPairs vs ws → InPairs ts ws

variable (F) in
/-- Reading a block at `ts`, a statement starts at `us`. -/
inductive InStmts : List Token → List Token → Prop
  | here (ts : List Token) : NotNext .Rb ts → InStmts ts ts
  | next (e : Expr F) (ts us vs : List Token) : Whole 0 ts e us → InStmts (dropSemi us) vs → InStmts ts vs

variable (F) in
/-- Reading an expression of level `p` at `ts`, an inner expression of level `q` starts at `us`. -/
inductive Inside : Nat → List Token → Nat → List Token → Prop
  | letE (p : Nat) (l n a : Token) (ts : List Token) : l.kind = .Let → n.kind = .Ident → a.kind = .Assign →
      Inside p (l :: n :: a :: ts) 0 ts
  | unary (p : Nat) (t : Token) (ts : List Token) : t.kind = .Not ∨ t.kind = .Sub → Inside p (t :: ts) 11 ts
  | paren (p : Nat) (t : Token) (ts : List Token) : t.kind = .Lp → Inside p (t :: ts) 0 ts
  | cond (p : Nat) (i l : Token) (ts : List Token) : i.kind = .If → l.kind = .Lp → Inside p (i :: l :: ts) 0 ts
  | thenE (p : Nat) (i l c b : Token) (e : Expr F) (ts us vs : List Token) : i.kind = .If → l.kind = .Lp → c.kind = .Rp →
      b.kind = .Lb → Whole 0 ts e (c :: b :: us) → InStmts F us vs → Inside p (i :: l :: ts) 0 vs
  | elseE (p : Nat) (i l c b d el b' : Token) (e : Expr F) (es : List (Expr F)) (ts us vs ws : List Token) : i.kind = .If →
      l.kind = .Lp → c.kind = .Rp → b.kind = .Lb → d.kind = .Rb → el.kind = .Else → b'.kind = .Lb →
      Whole 0 ts e (c :: b :: us) → Stmts us es (d :: el :: b' :: vs) → InStmts F vs ws → Inside p (i :: l :: ts) 0 ws
  | arr (p : Nat) (l : Token) (ts us : List Token) : l.kind = .Ls → InItems F .Rs ts us → Inside p (l :: ts) 0 us
  | map (p : Nat) (l : Token) (ts us : List Token) : l.kind = .Lb → InPairs F ts us → Inside p (l :: ts) 0 us
  | right (p q : Nat) (op : Token) (l e : Expr F) (ts us vs : List Token) : Primary p ts l q us → Extends q l us e (op :: vs) →
      q < tableLevel op.kind → Inside p ts (tableLevel op.kind) vs
  | arg (p q : Nat) (b : Token) (l e : Expr F) (ts us vs ws : List Token) : Primary p ts l q us → Extends q l us e (b :: vs) →
      q < 12 → b.kind = .Lp → InItems F .Rp vs ws → Inside p ts 0 ws
  | index (p q : Nat) (b : Token) (l e : Expr F) (ts us vs : List Token) : Primary p ts l q us → Extends q l us e (b :: vs) →
      q < 13 → b.kind = .Ls → Inside p ts 0 vs

variable (F) in
/-- Reading an expression of level `p` at `ts` never ends: a `!` comes where only an operator or the end can continue the
expression, or where one inside it would have to be continued. -/
inductive Loops : Nat → List Token → Prop
  | stuck (p q : Nat) (b : Token) (l e : Expr F) (ts us vs : List Token) : Primary p ts l q us → Extends q l us e (b :: vs) →
      q < 11 → b.kind = .Not → Loops p ts
  | inside (p q : Nat) (ts us : List Token) : Inside F p ts q us → Loops q us → Loops p ts

variable (F) in
/-- Reading a program never ends. -/
inductive Endless : List Token → Prop
  | expr (ts : List Token) : Loops F 0 ts → Endless ts
  | asserts (q n m b : Token) (ts us : List Token) : q.kind = .Request → n.kind = .Ident → m.kind = .Template → b.kind = .Ls →
      InItems F .Rs ts us → Loops F 0 us → Endless (q :: n :: m :: b :: ts)
  | test (q n b : Token) (ts us : List Token) : q.kind = .Test → n.kind = .Ident → b.kind = .Lb → InStmts F ts us →
      Loops F 0 us → Endless (q :: n :: b :: ts)
  | next (i : Item F) (ts us : List Token) : OneItem ts i us → Endless (dropSemi us) → Endless ts

end Am.Spec
