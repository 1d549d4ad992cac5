import Verif.Model.Parser
/-!
# lib/src/parser.rs with its real state: the token vector and an index into it

The same functions as in `Model/Parser.lean`, but the state is (`tokens`, `index`) as in parser.rs:13-16 and
`current_token` (parser.rs:31-33, `&self.tokens[self.index]`) panics when the index is out of bounds.
`Props/ParsingIndex.lean` proves that it never does, and that both versions give the same result.
-/
namespace Am

/-- parser.rs:13-16 `struct Parser`. -/
structure IS where
  tokens : List Token
  index : Nat

namespace IS

/-- parser.rs:31-33 `current_token`: indexing panics out of bounds. -/
def cur (s : IS) : Res Token :=
  match s.tokens[s.index]? with
  | some t => .ok t
  | none => .panic

/-- parser.rs:26-29 `next_token`. -/
def next (s : IS) : IS := if s.index + 1 < s.tokens.length then { s with index := s.index + 1 } else s

/-- parser.rs:35-37 `peek_token`. -/
def peek (s : IS) : Option Token := s.tokens[s.index + 1]?

/-- parser.rs:39-41 `peek_token_is`. -/
def peekIs (s : IS) (k : Kind) : Bool :=
  match s.peek with
  | some t => t.kind == k
  | none => false

/-- parser.rs:43-54 `peek_token_expect`. -/
def expect (s : IS) (k : Kind) : Res IS :=
  match s.peek with
  | some t =>
    if t.kind = k then .ok s.next
    else .err (c!"token expect " ++ k.name ++ c!" but found " ++ t.kind.name)
  | none => .err (c!"token expect " ++ k.name ++ c!" but found none")

/-- parser.rs:60-66 `peek_precedence`. -/
def peekPrec (s : IS) : Nat :=
  match s.peek with
  | some t => t.precedence
  | none => 0

end IS

variable {F : Type} [Rt F]

/-- The type of `parse_expr`. -/
abbrev IPE (F : Type) := Nat → IS → Res (Expr F × IS)

/-- `if self.peek_token_is(Kind::Semi) { self.next_token(); }`. -/
def iskipSemi (s : IS) : IS := if s.peekIs .Semi then s.next else s

/-- parser.rs:159-165 `parse_integer_literal`. -/
def iparseInteger (s : IS) : Res (Expr F) := do
  let t ← s.cur
  match parseI64 t.literal with
  | some i => .ok (.int i)
  | none => .err (c!"parse integer error: " ++ t.literal)

/-- parser.rs:167-173 `parse_float_literal`. -/
def iparseFloat (s : IS) : Res (Expr F) := do
  let t ← s.cur
  match Rt.fparse t.literal with
  | some f => .ok (.float f)
  | none => .err (c!"parse float error: " ++ t.literal)

/-- parser.rs:175-181 `parse_boolean_literal`. -/
def iparseBoolean (s : IS) : Res (Expr F) := do
  let t ← s.cur
  match parseBool t.literal with
  | some b => .ok (.bool b)
  | none => .err (c!"parse boolean error: " ++ t.literal)

/-- parser.rs:187-197 `parse_let_expr`. -/
def iparseLet (pe : IPE F) (s : IS) : Res (Expr F × IS) := do
  let s ← s.expect .Ident
  let t ← s.cur
  let s ← s.expect .Assign
  let s := s.next
  let (value, s) ← pe 0 s
  pure (.letE t.literal value, iskipSemi s)

/-- parser.rs:199-208 `parse_unary_expr`. -/
def iparseUnary (pe : IPE F) (s : IS) : Res (Expr F × IS) := do
  let token ← s.cur
  let prec := if token.kind = .Sub then token.precedence + 2 else token.precedence
  let (right, s) ← pe prec s.next
  pure (.unary token right, s)

/-- parser.rs:210-216 `parse_binary_expr`. -/
def iparseBinary (pe : IPE F) (left : Expr F) (s : IS) : Res (Expr F × IS) := do
  let token ← s.cur
  let (right, s) ← pe token.precedence s.next
  pure (.binary token left right, s)

/-- parser.rs:218-223 `parse_paren_expr`. -/
def iparseParen (pe : IPE F) (s : IS) : Res (Expr F × IS) := do
  let (e, s) ← pe 0 s.next
  let s ← s.expect .Rp
  pure (.paren e, s)

/-- parser.rs:250-256: the loop of `parse_expr_list`. -/
def iparseListLoop (pe : IPE F) (endK : Kind) : Nat → IS → Res (List (Expr F) × IS)
  | 0, _ => .hang
  | n + 1, s =>
    if s.peekIs endK then pure ([], s)
    else do
      let (e, s) ← pe 0 s.next
      let s ← if s.peekIs endK then pure s else s.expect .Comma
      let (es, s) ← iparseListLoop pe endK n s
      pure (e :: es, s)

/-- parser.rs:248-259 `parse_expr_list`. -/
def iparseList (pe : IPE F) (n : Nat) (endK : Kind) (s : IS) : Res (List (Expr F) × IS) := do
  let (es, s) ← iparseListLoop pe endK n s
  let s ← s.expect endK
  pure (es, s)

/-- parser.rs:268-278: the loop of `parse_map_literal`. -/
def iparsePairsLoop (pe : IPE F) : Nat → IS → Res (List (Expr F × Expr F) × IS)
  | 0, _ => .hang
  | n + 1, s =>
    if s.peekIs .Rb then pure ([], s)
    else do
      let (k, s) ← pe 0 s.next
      let s ← s.expect .Colon
      let (v, s) ← pe 0 s.next
      let s ← if s.peekIs .Rb then pure s else s.expect .Comma
      let (ps, s) ← iparsePairsLoop pe n s
      pure ((k, v) :: ps, s)

/-- parser.rs:266-281 `parse_map_literal`. -/
def iparseMap (pe : IPE F) (n : Nat) (s : IS) : Res (Expr F × IS) := do
  let (ps, s) ← iparsePairsLoop pe n s
  let s ← s.expect .Rb
  pure (.map ps, s)

/-- parser.rs:299-305: the loop of `parse_block_expr`. -/
def iparseBlockLoop (pe : IPE F) : Nat → IS → Res (List (Expr F) × IS)
  | 0, _ => .hang
  | n + 1, s =>
    if s.peekIs .Rb then pure ([], s)
    else do
      let (e, s) ← pe 0 s.next
      let (es, s) ← iparseBlockLoop pe n (iskipSemi s)
      pure (e :: es, s)

/-- parser.rs:296-308 `parse_block_expr`. -/
def iparseBlock (pe : IPE F) (n : Nat) (s : IS) : Res (List (Expr F) × IS) := do
  let s ← s.expect .Lb
  let (es, s) ← iparseBlockLoop pe n s
  let s ← s.expect .Rb
  pure (es, s)

/-- parser.rs:225-237 `parse_if_expr`. -/
def iparseIf (pe : IPE F) (n : Nat) (s : IS) : Res (Expr F × IS) := do
  let s ← s.expect .Lp
  let (cond, s) ← pe 0 s.next
  let s ← s.expect .Rp
  let (cons, s) ← iparseBlock pe n s
  if s.peekIs .Else then do
    let (alt, s) ← iparseBlock pe n s.next
    pure (.ifE cond cons alt, s)
  else pure (.ifE cond cons [], s)

/-- parser.rs:239-246 `parse_call_expr`. -/
def iparseCall (pe : IPE F) (n : Nat) (left : Expr F) (s : IS) : Res (Expr F × IS) := do
  let (args, s) ← iparseList pe n .Rp s
  match left with
  | .ident f => pure (.call f args, s)
  | e => .err (c!"parse call expr error: " ++ e.display)

/-- parser.rs:261-264 `parse_array_literal`. -/
def iparseArray (pe : IPE F) (n : Nat) (s : IS) : Res (Expr F × IS) := do
  let (es, s) ← iparseList pe n .Rs s
  pure (.arr es, s)

/-- parser.rs:283-288 `parse_index_expr`. -/
def iparseIndex (pe : IPE F) (left : Expr F) (s : IS) : Res (Expr F × IS) := do
  let (i, s) ← pe 0 s.next
  let s ← s.expect .Rs
  pure (.index left i, s)

/-- parser.rs:290-294 `parse_field_expr`. -/
def iparseField (left : Expr F) (s : IS) : Res (Expr F × IS) := do
  let s ← s.expect .Ident
  let t ← s.cur
  pure (.field left t.literal, s)

/-- parser.rs:93-109: the first part of `parse_expr`. -/
def iparsePrefix (pe : IPE F) (n : Nat) (prec : Nat) (s : IS) : Res (Expr F × Nat × IS) := do
  let t ← s.cur
  match t.kind with
  | .Ident => pure (.ident t.literal, prec, s)
  | .Integer => do let e ← iparseInteger s; pure (e, prec, s)
  | .Float => do let e ← iparseFloat s; pure (e, prec, s)
  | .True | .False => do let e ← iparseBoolean s; pure (e, prec, s)
  | .String => pure (.str t.literal, prec, s)
  | .Let => do let (e, s) ← iparseLet pe s; pure (e, 255, s)
  | .Not | .Sub => do let (e, s) ← iparseUnary pe s; pure (e, prec, s)
  | .Lp => do let (e, s) ← iparseParen pe s; pure (e, prec, s)
  | .If => do let (e, s) ← iparseIf pe n s; pure (e, prec, s)
  | .Ls => do let (e, s) ← iparseArray pe n s; pure (e, prec, s)
  | .Lb => do let (e, s) ← iparseMap pe n s; pure (e, prec, s)
  | _ => .err (c!"parse expr error: " ++ t.literal)

/-- parser.rs:110-147: the loop of `parse_expr`. -/
def iparseLoop (pe : IPE F) (prec : Nat) : Nat → Expr F → IS → Res (Expr F × IS)
  | 0, _, _ => .hang
  | n + 1, left, s =>
    if !s.peekIs .Semi && prec < s.peekPrec then
      match s.peek with
      | some t =>
        if t.kind.isBinary then do
          let (e, s) ← iparseBinary pe left s.next
          iparseLoop pe prec n e s
        else if t.kind = .Lp then do
          let (e, s) ← iparseCall pe n left s.next
          iparseLoop pe prec n e s
        else if t.kind = .Ls then do
          let (e, s) ← iparseIndex pe left s.next
          iparseLoop pe prec n e s
        else if t.kind = .Dot then do
          let (e, s) ← iparseField left s.next
          iparseLoop pe prec n e s
        else iparseLoop pe prec n left s
      | none => iparseLoop pe prec n left s
    else pure (left, s)

/-- parser.rs:92-149 `parse_expr`, with fuel. -/
def iparseExpr : Nat → IPE F
  | 0 => fun _ _ => .hang
  | n + 1 => fun prec s => do
    let (left, prec, s) ← iparsePrefix (iparseExpr n) n prec s
    iparseLoop (iparseExpr n) prec n left s

/-- parser.rs:310-321 `parse_request_literal`. -/
def iparseRequest (n : Nat) (s : IS) : Res ((Str × Str × List (Expr F)) × IS) := do
  let s ← s.expect .Ident
  let t ← s.cur
  let s ← s.expect .Template
  let m ← s.cur
  if s.peekIs .Ls then do
    let (asserts, s) ← iparseList (iparseExpr n) n .Rs s.next
    pure ((t.literal, m.literal, asserts), s)
  else pure ((t.literal, m.literal, []), s)

/-- parser.rs:323-328 `parse_test_literal`. -/
def iparseTest (n : Nat) (s : IS) : Res ((Str × List (Expr F)) × IS) := do
  let s ← s.expect .Ident
  let t ← s.cur
  let (block, s) ← iparseBlock (iparseExpr n) n s
  pure ((t.literal, block), s)

/-- parser.rs:73-83: one iteration of the loop of `parse`. -/
def iparseItem (n : Nat) (src : Source F) (s : IS) : Res (Source F × IS) := do
  let t ← s.cur
  match t.kind with
  | .Request => do
    let ((name, message, asserts), s) ← iparseRequest n s
    pure ({ src with requests := amInsert name (message, asserts) src.requests }, s)
  | .Test => do
    let ((name, block), s) ← iparseTest n s
    pure ({ src with tests := amInsert name block src.tests }, s)
  | _ => do
    let (e, s) ← iparseExpr n 0 s
    pure ({ src with exprs := src.exprs ++ [e] }, s)

/-- parser.rs:72-88: the loop of `parse`. -/
def iparseTop (n : Nat) : Nat → Source F → IS → Res (Source F)
  | 0, _, _ => .hang
  | k + 1, src, s => do
    let t ← s.cur
    if t.kind = .Eof then pure src
    else do
      let (src, s) ← iparseItem n src s
      iparseTop n k src (iskipSemi s).next

/-- parser.rs:19-24, 68-90 `Parser::new(text).parse()` with fuel `n`. -/
def iparseFuel (n : Nat) (text : Str) : Res (Source F) := iparseTop n n ⟨[], [], []⟩ ⟨segment text, 0⟩

end Am
