import Verif.Model.Lexer
import Verif.Model.Syntax
/-!
# lib/src/parser.rs

The parser state (`tokens`, `index`) is represented by the current token and the tokens after it
(`Model/ParserIndex.lean` relates this to the index representation). `parse_expr` is recursive and contains
loops, so it takes fuel; `Res.hang` is "out of fuel". The helper functions take the recursive call `parse_expr`
as their argument `pe`.
-/
namespace Am

/-- parser.rs:13-16 `struct Parser`: `tokens[index]` and `tokens[index+1..]`. -/
structure PS where
  cur : Token
  rest : List Token
  deriving DecidableEq, Repr

/-- parser.rs:7-11 `struct Source`. -/
structure Source (F : Type) where
  exprs : List (Expr F)
  requests : List (Str × (Str × List (Expr F)))
  tests : List (Str × List (Expr F))

namespace PS

/-- parser.rs:26-29 `next_token`: stays on the last token. -/
def next (s : PS) : PS :=
  match s.rest with
  | [] => s
  | t :: r => ⟨t, r⟩

/-- parser.rs:35-37 `peek_token`. -/
def peek (s : PS) : Option Token := s.rest.head?

/-- parser.rs:39-41 `peek_token_is`. -/
def peekIs (s : PS) (k : Kind) : Bool :=
  match s.peek with
  | some t => t.kind == k
  | none => false

/-- parser.rs:43-54 `peek_token_expect`. -/
def expect (s : PS) (k : Kind) : Res PS :=
  match s.peek with
  | some t =>
    if t.kind = k then .ok s.next
    else .err (c!"token expect " ++ k.name ++ c!" but found " ++ t.kind.name)
  | none => .err (c!"token expect " ++ k.name ++ c!" but found none")

/-- parser.rs:60-66 `peek_precedence`. -/
def peekPrec (s : PS) : Nat :=
  match s.peek with
  | some t => t.precedence
  | none => 0

end PS

/-- parser.rs:112-129: the token kinds handled by `parse_binary_expr`. -/
def Kind.isBinary : Kind → Bool
  | .Add | .Sub | .Mul | .Div | .Rem | .Bx | .Bo | .Ba | .Sl | .Sr | .La | .Lo | .Lt | .Gt | .Le | .Ge | .Eq | .Ne => true
  | _ => false

/-- Rust `str::parse::<i64>`: optional sign, digits, range check. -/
def parseI64 (s : Str) : Option Int64 :=
  match s with
  | '-' :: r =>
    if r.isEmpty || !r.all isDigit then none
    else if digitsVal r ≤ 9223372036854775808 then some (Int64.ofInt (-(digitsVal r : Int))) else none
  | _ => (parseUnsigned 9223372036854775807 s).map fun n => Int64.ofNat n

/-- Rust `str::parse::<bool>`. -/
def parseBool (s : Str) : Option Bool :=
  if s = c!"true" then some true else if s = c!"false" then some false else none

variable {F : Type} [Rt F]

/-- The type of `parse_expr(&mut self, precedence) -> Result<Expr, String>`. -/
abbrev PE (F : Type) := Nat → PS → Res (Expr F × PS)

/-- parser.rs:159-165 `parse_integer_literal`. -/
def parseInteger (s : PS) : Res (Expr F) :=
  match parseI64 s.cur.literal with
  | some i => .ok (.int i)
  | none => .err (c!"parse integer error: " ++ s.cur.literal)

/-- parser.rs:167-173 `parse_float_literal`. -/
def parseFloat (s : PS) : Res (Expr F) :=
  match Rt.fparse s.cur.literal with
  | some f => .ok (.float f)
  | none => .err (c!"parse float error: " ++ s.cur.literal)

/-- parser.rs:175-181 `parse_boolean_literal`. -/
def parseBoolean (s : PS) : Res (Expr F) :=
  match parseBool s.cur.literal with
  | some b => .ok (.bool b)
  | none => .err (c!"parse boolean error: " ++ s.cur.literal)

/-- `if self.peek_token_is(Kind::Semi) { self.next_token(); }` (parser.rs:84-86, 193-195, 302-304). -/
def skipSemi (s : PS) : PS := if s.peekIs .Semi then s.next else s

/-- parser.rs:187-197 `parse_let_expr`. -/
def parseLet (pe : PE F) (s : PS) : Res (Expr F × PS) := do
  let s ← s.expect .Ident
  let name := s.cur.literal
  let s ← s.expect .Assign
  let s := s.next
  let (value, s) ← pe 0 s
  pure (.letE name value, skipSemi s)

/-- parser.rs:199-208 `parse_unary_expr`: `-` is parsed with precedence 9 + 2. -/
def parseUnary (pe : PE F) (s : PS) : Res (Expr F × PS) := do
  let token := s.cur
  let prec := if token.kind = .Sub then token.precedence + 2 else token.precedence
  let (right, s) ← pe prec s.next
  pure (.unary token right, s)

/-- parser.rs:210-216 `parse_binary_expr`. -/
def parseBinary (pe : PE F) (left : Expr F) (s : PS) : Res (Expr F × PS) := do
  let token := s.cur
  let (right, s) ← pe token.precedence s.next
  pure (.binary token left right, s)

/-- parser.rs:218-223 `parse_paren_expr`. -/
def parseParen (pe : PE F) (s : PS) : Res (Expr F × PS) := do
  let (e, s) ← pe 0 s.next
  let s ← s.expect .Rp
  pure (.paren e, s)

/-- parser.rs:250-256: the loop of `parse_expr_list`; `n` is fuel. -/
def parseListLoop (pe : PE F) (endK : Kind) : Nat → PS → Res (List (Expr F) × PS)
  | 0, _ => .hang
  | n + 1, s =>
    if s.peekIs endK then pure ([], s)
    else do
      let (e, s) ← pe 0 s.next
      let s ← if s.peekIs endK then pure s else s.expect .Comma
      let (es, s) ← parseListLoop pe endK n s
      pure (e :: es, s)

/-- parser.rs:248-259 `parse_expr_list`. -/
def parseList (pe : PE F) (n : Nat) (endK : Kind) (s : PS) : Res (List (Expr F) × PS) := do
  let (es, s) ← parseListLoop pe endK n s
  let s ← s.expect endK
  pure (es, s)

/-- parser.rs:268-278: the loop of `parse_map_literal`. -/
def parsePairsLoop (pe : PE F) : Nat → PS → Res (List (Expr F × Expr F) × PS)
  | 0, _ => .hang
  | n + 1, s =>
    if s.peekIs .Rb then pure ([], s)
    else do
      let (k, s) ← pe 0 s.next
      let s ← s.expect .Colon
      let (v, s) ← pe 0 s.next
      let s ← if s.peekIs .Rb then pure s else s.expect .Comma
      let (ps, s) ← parsePairsLoop pe n s
      pure ((k, v) :: ps, s)

/-- parser.rs:266-281 `parse_map_literal`. -/
def parseMap (pe : PE F) (n : Nat) (s : PS) : Res (Expr F × PS) := do
  let (ps, s) ← parsePairsLoop pe n s
  let s ← s.expect .Rb
  pure (.map ps, s)

/-- parser.rs:299-305: the loop of `parse_block_expr`. -/
def parseBlockLoop (pe : PE F) : Nat → PS → Res (List (Expr F) × PS)
  | 0, _ => .hang
  | n + 1, s =>
    if s.peekIs .Rb then pure ([], s)
    else do
      let (e, s) ← pe 0 s.next
      let (es, s) ← parseBlockLoop pe n (skipSemi s)
      pure (e :: es, s)

/-- parser.rs:296-308 `parse_block_expr`. -/
def parseBlock (pe : PE F) (n : Nat) (s : PS) : Res (List (Expr F) × PS) := do
  let s ← s.expect .Lb
  let (es, s) ← parseBlockLoop pe n s
  let s ← s.expect .Rb
  pure (es, s)

/-- parser.rs:225-237 `parse_if_expr`. -/
def parseIf (pe : PE F) (n : Nat) (s : PS) : Res (Expr F × PS) := do
  let s ← s.expect .Lp
  let (cond, s) ← pe 0 s.next
  let s ← s.expect .Rp
  let (cons, s) ← parseBlock pe n s
  if s.peekIs .Else then do
    let (alt, s) ← parseBlock pe n s.next
    pure (.ifE cond cons alt, s)
  else pure (.ifE cond cons [], s)

/-- parser.rs:239-246 `parse_call_expr`: only identifiers can be called. -/
def parseCall (pe : PE F) (n : Nat) (left : Expr F) (s : PS) : Res (Expr F × PS) := do
  let (args, s) ← parseList pe n .Rp s
  match left with
  | .ident f => pure (.call f args, s)
  | e => .err (c!"parse call expr error: " ++ e.display)

/-- parser.rs:261-264 `parse_array_literal`. -/
def parseArray (pe : PE F) (n : Nat) (s : PS) : Res (Expr F × PS) := do
  let (es, s) ← parseList pe n .Rs s
  pure (.arr es, s)

/-- parser.rs:283-288 `parse_index_expr`. -/
def parseIndex (pe : PE F) (left : Expr F) (s : PS) : Res (Expr F × PS) := do
  let (i, s) ← pe 0 s.next
  let s ← s.expect .Rs
  pure (.index left i, s)

/-- parser.rs:290-294 `parse_field_expr`. -/
def parseField (left : Expr F) (s : PS) : Res (Expr F × PS) := do
  let s ← s.expect .Ident
  pure (.field left s.cur.literal, s)

/-- parser.rs:93-109: the first part of `parse_expr`. Also returns the precedence used by the loop after it,
which `let` raises to `u8::MAX` (line 100). -/
def parsePrefix (pe : PE F) (n : Nat) (prec : Nat) (s : PS) : Res (Expr F × Nat × PS) :=
  match s.cur.kind with
  | .Ident => pure (.ident s.cur.literal, prec, s)
  | .Integer => do let e ← parseInteger s; pure (e, prec, s)
  | .Float => do let e ← parseFloat s; pure (e, prec, s)
  | .True | .False => do let e ← parseBoolean s; pure (e, prec, s)
  | .String => pure (.str s.cur.literal, prec, s)
  | .Let => do let (e, s) ← parseLet pe s; pure (e, 255, s)
  | .Not | .Sub => do let (e, s) ← parseUnary pe s; pure (e, prec, s)
  | .Lp => do let (e, s) ← parseParen pe s; pure (e, prec, s)
  | .If => do let (e, s) ← parseIf pe n s; pure (e, prec, s)
  | .Ls => do let (e, s) ← parseArray pe n s; pure (e, prec, s)
  | .Lb => do let (e, s) ← parseMap pe n s; pure (e, prec, s)
  | _ => .err (c!"parse expr error: " ++ s.cur.literal)

/-- parser.rs:110-147: the loop of `parse_expr`. The last branch (`_ => left`, line 145) changes nothing and
tests the same condition again; here it only burns fuel. -/
def parseLoop (pe : PE F) (prec : Nat) : Nat → Expr F → PS → Res (Expr F × PS)
  | 0, _, _ => .hang
  | n + 1, left, s =>
    if !s.peekIs .Semi && prec < s.peekPrec then
      match s.peek with
      | some t =>
        if t.kind.isBinary then do
          let (e, s) ← parseBinary pe left s.next
          parseLoop pe prec n e s
        else if t.kind = .Lp then do
          let (e, s) ← parseCall pe n left s.next
          parseLoop pe prec n e s
        else if t.kind = .Ls then do
          let (e, s) ← parseIndex pe left s.next
          parseLoop pe prec n e s
        else if t.kind = .Dot then do
          let (e, s) ← parseField left s.next
          parseLoop pe prec n e s
        else parseLoop pe prec n left s
      | none => parseLoop pe prec n left s
    else pure (left, s)

/-- parser.rs:92-149 `parse_expr`, with fuel. -/
def parseExpr : Nat → PE F
  | 0 => fun _ _ => .hang
  | n + 1 => fun prec s => do
    let (left, prec, s) ← parsePrefix (parseExpr n) n prec s
    parseLoop (parseExpr n) prec n left s

/-- parser.rs:310-321 `parse_request_literal`. -/
def parseRequest (n : Nat) (s : PS) : Res ((Str × Str × List (Expr F)) × PS) := do
  let s ← s.expect .Ident
  let name := s.cur.literal
  let s ← s.expect .Template
  let message := s.cur.literal
  if s.peekIs .Ls then do
    let (asserts, s) ← parseList (parseExpr n) n .Rs s.next
    pure ((name, message, asserts), s)
  else pure ((name, message, []), s)

/-- parser.rs:323-328 `parse_test_literal`. -/
def parseTest (n : Nat) (s : PS) : Res ((Str × List (Expr F)) × PS) := do
  let s ← s.expect .Ident
  let name := s.cur.literal
  let (block, s) ← parseBlock (parseExpr n) n s
  pure ((name, block), s)

/-- parser.rs:73-83: one iteration of the loop of `parse`. -/
def parseItem (n : Nat) (src : Source F) (s : PS) : Res (Source F × PS) :=
  match s.cur.kind with
  | .Request => do
    let ((name, message, asserts), s) ← parseRequest n s
    pure ({ src with requests := amInsert name (message, asserts) src.requests }, s)
  | .Test => do
    let ((name, block), s) ← parseTest n s
    pure ({ src with tests := amInsert name block src.tests }, s)
  | _ => do
    let (e, s) ← parseExpr n 0 s
    pure ({ src with exprs := src.exprs ++ [e] }, s)

/-- parser.rs:72-88: the loop of `parse`. -/
def parseTop (n : Nat) : Nat → Source F → PS → Res (Source F)
  | 0, _, _ => .hang
  | k + 1, src, s =>
    if s.cur.kind = .Eof then pure src
    else do
      let (src, s) ← parseItem n src s
      parseTop n k src (skipSemi s).next

/-- parser.rs:19-24, 68-90 `Parser::new(text).parse()` with fuel `n`. -/
def parseFuel (n : Nat) (text : Str) : Res (Source F) :=
  match segment text with
  | [] => .panic
  | t :: r => parseTop n n ⟨[], [], []⟩ ⟨t, r⟩

/-- `Parser::new(text).parse()`. The fuel is one more than the number of tokens; `Props/C06` proves that this is
enough: `hang` is returned exactly when no amount of fuel suffices, that is, when the Rust code loops forever. -/
def parse (text : Str) : Res (Source F) := parseFuel ((segment text).length + 1) text

end Am
