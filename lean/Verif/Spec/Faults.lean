import Verif.Spec.Accepts
/-!
# Where a text stops being a program, and what is said about it

`Wrong ts why at` says that reading the tokens `ts` of a text comes to `at`, whose first token does not fit for the reason `why`. It is the
third way reading can go, beside `Program` and `Endless`.
-/
namespace Am.Spec
open Am
variable {F : Type} [Rt F]

/-- What is wrong with a token. -/
inductive Fault (F : Type) where
  /-- a token of this kind has to come here -/
  | expects (k : Kind)
  /-- an expression has to begin here -/
  | operand
  /-- an integer that is not a 64-bit integer -/
  | integer
  | float
  | boolean
  /-- the closing parenthesis of a call of something that is not a name -/
  | callee (e : Expr F)

/-- The names of the kinds of tokens. -/
def kindWord : Kind → Str
  | .Illegal => c!"Illegal" | .Eof => c!"Eof"
  | .Ident => c!"Ident" | .Integer => c!"Integer" | .Float => c!"Float" | .True => c!"True" | .False => c!"False" | .String => c!"String"
  | .Template => c!"Template"
  | .Add => c!"Add" | .Sub => c!"Sub" | .Mul => c!"Mul" | .Div => c!"Div" | .Rem => c!"Rem" | .Not => c!"Not" | .Bx => c!"Bx"
  | .Bo => c!"Bo" | .Ba => c!"Ba" | .Sl => c!"Sl" | .Sr => c!"Sr" | .Lo => c!"Lo" | .La => c!"La" | .Lt => c!"Lt" | .Gt => c!"Gt"
  | .Le => c!"Le" | .Ge => c!"Ge" | .Eq => c!"Eq" | .Ne => c!"Ne"
  | .Assign => c!"Assign" | .Comma => c!"Comma" | .Semi => c!"Semi" | .Colon => c!"Colon" | .Dot => c!"Dot"
  | .Lp => c!"Lp" | .Rp => c!"Rp" | .Lb => c!"Lb" | .Rb => c!"Rb" | .Ls => c!"Ls" | .Rs => c!"Rs"
  | .Request => c!"Request" | .Let => c!"Let" | .If => c!"If" | .Else => c!"Else" | .Test => c!"Test"

/-- What is said about the token `t`. -/
def Fault.text (t : Token) : Fault F → Str
  | .expects k => c!"token expect " ++ kindWord k ++ c!" but found " ++ kindWord t.kind
  | .operand => c!"parse expr error: " ++ t.literal
  | .integer => c!"parse integer error: " ++ t.literal
  | .float => c!"parse float error: " ++ t.literal
  | .boolean => c!"parse boolean error: " ++ t.literal
  | .callee e => c!"parse call expr error: " ++ e.display

/-- The kinds of tokens an expression can begin with. -/
def Begins (k : Kind) : Prop :=
  k ∈ [.Ident, .Integer, .Float, .True, .False, .String, .Let, .Not, .Sub, .Lp, .If, .Ls, .Lb]

/-- After an item of a list comes neither a comma nor the closing token. -/
inductive FaultItems (k : Kind) : List Token → Fault F → List Token → Prop
  | comma (c : Token) (e : Expr F) (ts r : List Token) : Whole 0 ts e (c :: r) → c.kind ≠ k → c.kind ≠ .Comma →
      FaultItems k ts (.expects .Comma) (c :: r)
  | next (c : Token) (e : Expr F) (ts us at' : List Token) (why : Fault F) : c.kind = .Comma → Whole 0 ts e (c :: us) →
      FaultItems k us why at' → FaultItems k ts why at'

/-- After a key comes no colon, or after a value neither a comma nor the closing brace. -/
inductive FaultPairs : List Token → Fault F → List Token → Prop
  | colon (m : Token) (k : Expr F) (ts r : List Token) : Whole 0 ts k (m :: r) → m.kind ≠ .Colon →
      FaultPairs ts (.expects .Colon) (m :: r)
  | comma (m c : Token) (k v : Expr F) (ts us r : List Token) : m.kind = .Colon → Whole 0 ts k (m :: us) → Whole 0 us v (c :: r) →
      c.kind ≠ .Rb → c.kind ≠ .Comma → FaultPairs ts (.expects .Comma) (c :: r)
  | next (m c : Token) (k v : Expr F) (ts us vs at' : List Token) (why : Fault F) : m.kind = .Colon → c.kind = .Comma →
      Whole 0 ts k (m :: us) → Whole 0 us v (c :: vs) → FaultPairs vs why at' → FaultPairs ts why at'

/-- Reading an expression of level `p` at `ts` comes to a token that does not fit. -/
inductive Faulty : Nat → List Token → Fault F → List Token → Prop
  | operand (p : Nat) (t : Token) (r : List Token) : ¬ Begins t.kind → Faulty p (t :: r) .operand (t :: r)
  | integer (p : Nat) (t : Token) (r : List Token) : t.kind = .Integer → (∀ i : Int64, ¬ IntText t.literal i.toInt) →
      Faulty p (t :: r) .integer (t :: r)
  | float (p : Nat) (t : Token) (r : List Token) : t.kind = .Float → Rt.fparse (F := F) t.literal = none → Faulty p (t :: r) .float (t :: r)
  | boolean (p : Nat) (t : Token) (r : List Token) : t.kind = .True ∨ t.kind = .False → (∀ b, t.literal ≠ boolStr b) →
      Faulty p (t :: r) .boolean (t :: r)
  | letName (p : Nat) (l n : Token) (r : List Token) : l.kind = .Let → n.kind ≠ .Ident → Faulty p (l :: n :: r) (.expects .Ident) (n :: r)
  | letAssign (p : Nat) (l n a : Token) (r : List Token) : l.kind = .Let → n.kind = .Ident → a.kind ≠ .Assign →
      Faulty p (l :: n :: a :: r) (.expects .Assign) (a :: r)
  | paren (p : Nat) (l c : Token) (e : Expr F) (ts r : List Token) : l.kind = .Lp → Whole 0 ts e (c :: r) → c.kind ≠ .Rp →
      Faulty p (l :: ts) (.expects .Rp) (c :: r)
  | ifOpen (p : Nat) (i l : Token) (r : List Token) : i.kind = .If → l.kind ≠ .Lp → Faulty p (i :: l :: r) (.expects .Lp) (l :: r)
  | ifClose (p : Nat) (i l c : Token) (e : Expr F) (ts r : List Token) : i.kind = .If → l.kind = .Lp → Whole 0 ts e (c :: r) →
      c.kind ≠ .Rp → Faulty p (i :: l :: ts) (.expects .Rp) (c :: r)
  | thenOpen (p : Nat) (i l c b : Token) (e : Expr F) (ts r : List Token) : i.kind = .If → l.kind = .Lp → c.kind = .Rp →
      Whole 0 ts e (c :: b :: r) → b.kind ≠ .Lb → Faulty p (i :: l :: ts) (.expects .Lb) (b :: r)
  | elseOpen (p : Nat) (i l c b d el b' : Token) (e : Expr F) (es : List (Expr F)) (ts us r : List Token) : i.kind = .If →
      l.kind = .Lp → c.kind = .Rp → b.kind = .Lb → d.kind = .Rb → el.kind = .Else → Whole 0 ts e (c :: b :: us) →
      Stmts us es (d :: el :: b' :: r) → b'.kind ≠ .Lb → Faulty p (i :: l :: ts) (.expects .Lb) (b' :: r)
  | arr (p : Nat) (l : Token) (ts at' : List Token) (why : Fault F) : l.kind = .Ls → FaultItems .Rs ts why at' → Faulty p (l :: ts) why at'
  | map (p : Nat) (l : Token) (ts at' : List Token) (why : Fault F) : l.kind = .Lb → FaultPairs ts why at' → Faulty p (l :: ts) why at'
  | field (p q : Nat) (d n : Token) (l e : Expr F) (ts us r : List Token) : Primary p ts l q us → Extends q l us e (d :: n :: r) →
      q < 13 → d.kind = .Dot → n.kind ≠ .Ident → Faulty p ts (.expects .Ident) (n :: r)
  | index (p q : Nat) (b c : Token) (l e i : Expr F) (ts us vs r : List Token) : Primary p ts l q us → Extends q l us e (b :: vs) →
      q < 13 → b.kind = .Ls → Whole 0 vs i (c :: r) → c.kind ≠ .Rs → Faulty p ts (.expects .Rs) (c :: r)
  | arg (p q : Nat) (b : Token) (l e : Expr F) (ts us vs at' : List Token) (why : Fault F) : Primary p ts l q us →
      Extends q l us e (b :: vs) → q < 12 → b.kind = .Lp → FaultItems .Rp vs why at' → Faulty p ts why at'
  | callee (p q : Nat) (b c : Token) (l e : Expr F) (es : List (Expr F)) (ts us vs r : List Token) : Primary p ts l q us →
      Extends q l us e (b :: vs) → q < 12 → b.kind = .Lp → Items .Rp vs es (c :: r) → (∀ f, e ≠ .ident f) →
      Faulty p ts (.callee e) (c :: r)
  | inside (p q : Nat) (ts us at' : List Token) (why : Fault F) : Inside F p ts q us → Faulty q us why at' → Faulty p ts why at'

/-- Reading a program comes to a token that does not fit. -/
inductive Wrong : List Token → Fault F → List Token → Prop
  | expr (ts at' : List Token) (why : Fault F) : NotNext .Request ts → NotNext .Test ts → NotNext .Eof ts → Faulty 0 ts why at' →
      Wrong ts why at'
  | requestName (q n : Token) (r : List Token) : q.kind = .Request → n.kind ≠ .Ident → Wrong (q :: n :: r) (.expects .Ident) (n :: r)
  | requestText (q n m : Token) (r : List Token) : q.kind = .Request → n.kind = .Ident → m.kind ≠ .Template →
      Wrong (q :: n :: m :: r) (.expects .Template) (m :: r)
  | asserts (q n m b : Token) (ts at' : List Token) (why : Fault F) : q.kind = .Request → n.kind = .Ident → m.kind = .Template →
      b.kind = .Ls → FaultItems .Rs ts why at' → Wrong (q :: n :: m :: b :: ts) why at'
  | inAsserts (q n m b : Token) (ts us at' : List Token) (why : Fault F) : q.kind = .Request → n.kind = .Ident → m.kind = .Template →
      b.kind = .Ls → InItems F .Rs ts us → Faulty 0 us why at' → Wrong (q :: n :: m :: b :: ts) why at'
  | testName (q n : Token) (r : List Token) : q.kind = .Test → n.kind ≠ .Ident → Wrong (q :: n :: r) (.expects .Ident) (n :: r)
  | testOpen (q n b : Token) (r : List Token) : q.kind = .Test → n.kind = .Ident → b.kind ≠ .Lb →
      Wrong (q :: n :: b :: r) (.expects .Lb) (b :: r)
  | inTest (q n b : Token) (ts us at' : List Token) (why : Fault F) : q.kind = .Test → n.kind = .Ident → b.kind = .Lb → InStmts F ts us →
      Faulty 0 us why at' → Wrong (q :: n :: b :: ts) why at'
  | next (i : Item F) (ts us at' : List Token) (why : Fault F) : OneItem ts i us → Wrong (dropSemi us) why at' → Wrong ts why at'

variable (F) in
/-- The tokens `ts` are the beginning of a program. -/
def Beginning (ts : List Token) : Prop := ∃ (rest : List Token) (is : List (Item F)), Program (ts ++ rest) is

variable (F) in
/-- `t`, which follows `pre` in `ts`, is the first token that does not fit: up to there `ts` begins like a program, and with it no longer. -/
def FirstMisfit (ts pre : List Token) (t : Token) : Prop := pre ++ [t] <+: ts ∧ Beginning F pre ∧ ¬ Beginning F (pre ++ [t])

end Am.Spec
