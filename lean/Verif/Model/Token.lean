import Verif.Model.Basic
/-! # lib/src/token.rs -/
namespace Am

/-- token.rs:5-61 `enum Kind`. -/
inductive Kind where
  | Illegal | Eof
  | Ident | Integer | Float | True | False | String | Template
  | Add | Sub | Mul | Div | Rem | Not | Bx | Bo | Ba | Sl | Sr | Lo | La | Lt | Gt | Le | Ge | Eq | Ne
  | Assign | Comma | Semi | Colon | Dot
  | Lp | Rp | Lb | Rb | Ls | Rs
  | Request | Let | If | Else | Test
  deriving DecidableEq, Repr

/-- token.rs:63-67 `struct Token`. -/
structure Token where
  kind : Kind
  literal : Str
  deriving DecidableEq, Repr

/-- token.rs:74-101 `Token::precedence`, on the kind. -/
def Kind.precedence : Kind → Nat
  | .Lo => 1
  | .La => 2
  | .Bo => 3
  | .Bx => 4
  | .Ba => 5
  | .Eq => 6
  | .Ne => 6
  | .Lt => 7
  | .Gt => 7
  | .Le => 7
  | .Ge => 7
  | .Sl => 8
  | .Sr => 8
  | .Add => 9
  | .Sub => 9
  | .Mul => 10
  | .Div => 10
  | .Rem => 10
  | .Not => 11
  | .Lp => 12
  | .Ls => 13
  | .Dot => 13
  | _ => 0

/-- token.rs:74 `Token::precedence`. -/
def Token.precedence (t : Token) : Nat := t.kind.precedence

/-- `#[derive(Debug)]` of `Kind` (token.rs:5): the variant name. -/
def Kind.name : Kind → Str
  | .Illegal => c!"Illegal" | .Eof => c!"Eof" | .Ident => c!"Ident" | .Integer => c!"Integer"
  | .Float => c!"Float" | .True => c!"True" | .False => c!"False" | .String => c!"String"
  | .Template => c!"Template" | .Add => c!"Add" | .Sub => c!"Sub" | .Mul => c!"Mul" | .Div => c!"Div"
  | .Rem => c!"Rem" | .Not => c!"Not" | .Bx => c!"Bx" | .Bo => c!"Bo" | .Ba => c!"Ba" | .Sl => c!"Sl"
  | .Sr => c!"Sr" | .Lo => c!"Lo" | .La => c!"La" | .Lt => c!"Lt" | .Gt => c!"Gt" | .Le => c!"Le"
  | .Ge => c!"Ge" | .Eq => c!"Eq" | .Ne => c!"Ne" | .Assign => c!"Assign" | .Comma => c!"Comma"
  | .Semi => c!"Semi" | .Colon => c!"Colon" | .Dot => c!"Dot" | .Lp => c!"Lp" | .Rp => c!"Rp"
  | .Lb => c!"Lb" | .Rb => c!"Rb" | .Ls => c!"Ls" | .Rs => c!"Rs" | .Request => c!"Request"
  | .Let => c!"Let" | .If => c!"If" | .Else => c!"Else" | .Test => c!"Test"

/-- The end-of-file token (lexer.rs:160). -/
def Token.eof : Token := ⟨.Eof, []⟩

end Am
