import Verif.Model.Parser
/-!
# lib/src/parser.rs with its steps counted

The same functions as in `Model/Parser.lean`, in a monad that also counts steps. A step is a call of `parse_expr` (parser.rs:92) or an
iteration of one of the five loops of the parser (lines 72, 110, 250, 268 and 299). Everything else the parser does in one step is bounded
by the length of one token, apart from the text of an error. `Props/Steps.lean` proves that the results are those of `Model/Parser.lean`.
-/
namespace Am

/-- A result and the number of steps taken. -/
def Cnt (α : Type) := Res α × Nat

namespace Cnt

/-- A value, without a step. -/
def pure {α : Type} (a : α) : Cnt α := (.ok a, 0)

/-- The `?` operator; steps add up. -/
def bind {α β : Type} (x : Cnt α) (f : α → Cnt β) : Cnt β :=
  match x with
  | (.ok a, n) => ((f a).1, n + (f a).2)
  | (.err e, n) => (.err e, n)
  | (.panic, n) => (.panic, n)
  | (.hang, n) => (.hang, n)

instance : Monad Cnt where
  pure := pure
  bind := bind

/-- A computation that takes no step. -/
def free {α : Type} (r : Res α) : Cnt α := (r, 0)

/-- One step. -/
def tick : Cnt Unit := (.ok (), 1)

end Cnt

variable {F : Type} [Rt F]

/-- The type of `parse_expr`. -/
abbrev TPE (F : Type) := Nat → PS → Cnt (Expr F × PS)

/-- parser.rs:187-197 `parse_let_expr`. -/
def tparseLet (pe : TPE F) (s : PS) : Cnt (Expr F × PS) := do
  let s ← Cnt.free (s.expect .Ident)
  let name := s.cur.literal
  let s ← Cnt.free (s.expect .Assign)
  let s := s.next
  let (value, s) ← pe 0 s
  pure (.letE name value, skipSemi s)

/-- parser.rs:199-208 `parse_unary_expr`. -/
def tparseUnary (pe : TPE F) (s : PS) : Cnt (Expr F × PS) := do
  let token := s.cur
  let prec := if token.kind = .Sub then token.precedence + 2 else token.precedence
  let (right, s) ← pe prec s.next
  pure (.unary token right, s)

/-- parser.rs:210-216 `parse_binary_expr`. -/
def tparseBinary (pe : TPE F) (left : Expr F) (s : PS) : Cnt (Expr F × PS) := do
  let token := s.cur
  let (right, s) ← pe token.precedence s.next
  pure (.binary token left right, s)

/-- parser.rs:218-223 `parse_paren_expr`. -/
def tparseParen (pe : TPE F) (s : PS) : Cnt (Expr F × PS) := do
  let (e, s) ← pe 0 s.next
  let s ← Cnt.free (s.expect .Rp)
  pure (.paren e, s)

/-- parser.rs:250-256: the loop of `parse_expr_list`; an iteration is a step. -/
def tparseListLoop (pe : TPE F) (endK : Kind) : Nat → PS → Cnt (List (Expr F) × PS)
  | 0, _ => Cnt.free .hang
  | n + 1, s =>
    if s.peekIs endK then pure ([], s)
    else do
      Cnt.tick
      let (e, s) ← pe 0 s.next
      let s ← if s.peekIs endK then pure s else Cnt.free (s.expect .Comma)
      let (es, s) ← tparseListLoop pe endK n s
      pure (e :: es, s)

/-- parser.rs:248-259 `parse_expr_list`. -/
def tparseList (pe : TPE F) (n : Nat) (endK : Kind) (s : PS) : Cnt (List (Expr F) × PS) := do
  let (es, s) ← tparseListLoop pe endK n s
  let s ← Cnt.free (s.expect endK)
  pure (es, s)

/-- parser.rs:268-278: the loop of `parse_map_literal`; an iteration is a step. -/
def tparsePairsLoop (pe : TPE F) : Nat → PS → Cnt (List (Expr F × Expr F) × PS)
  | 0, _ => Cnt.free .hang
  | n + 1, s =>
    if s.peekIs .Rb then pure ([], s)
    else do
      Cnt.tick
      let (k, s) ← pe 0 s.next
      let s ← Cnt.free (s.expect .Colon)
      let (v, s) ← pe 0 s.next
      let s ← if s.peekIs .Rb then pure s else Cnt.free (s.expect .Comma)
      let (ps, s) ← tparsePairsLoop pe n s
      pure ((k, v) :: ps, s)

/-- parser.rs:266-281 `parse_map_literal`. -/
def tparseMap (pe : TPE F) (n : Nat) (s : PS) : Cnt (Expr F × PS) := do
  let (ps, s) ← tparsePairsLoop pe n s
  let s ← Cnt.free (s.expect .Rb)
  pure (.map ps, s)

/-- parser.rs:299-305: the loop of `parse_block_expr`; an iteration is a step. -/
def tparseBlockLoop (pe : TPE F) : Nat → PS → Cnt (List (Expr F) × PS)
  | 0, _ => Cnt.free .hang
  | n + 1, s =>
    if s.peekIs .Rb then pure ([], s)
    else do
      Cnt.tick
      let (e, s) ← pe 0 s.next
      let (es, s) ← tparseBlockLoop pe n (skipSemi s)
      pure (e :: es, s)

/-- parser.rs:296-308 `parse_block_expr`. -/
def tparseBlock (pe : TPE F) (n : Nat) (s : PS) : Cnt (List (Expr F) × PS) := do
  let s ← Cnt.free (s.expect .Lb)
  let (es, s) ← tparseBlockLoop pe n s
  let s ← Cnt.free (s.expect .Rb)
  pure (es, s)

/-- parser.rs:225-237 `parse_if_expr`. -/
def tparseIf (pe : TPE F) (n : Nat) (s : PS) : Cnt (Expr F × PS) := do
  let s ← Cnt.free (s.expect .Lp)
  let (cond, s) ← pe 0 s.next
  let s ← Cnt.free (s.expect .Rp)
  let (cons, s) ← tparseBlock pe n s
  if s.peekIs .Else then do
    let (alt, s) ← tparseBlock pe n s.next
    pure (.ifE cond cons alt, s)
  else pure (.ifE cond cons [], s)

/-- parser.rs:239-246 `parse_call_expr`. -/
def tparseCall (pe : TPE F) (n : Nat) (left : Expr F) (s : PS) : Cnt (Expr F × PS) := do
  let (args, s) ← tparseList pe n .Rp s
  match left with
  | .ident f => pure (.call f args, s)
  | e => Cnt.free (.err (c!"parse call expr error: " ++ e.display))

/-- parser.rs:261-264 `parse_array_literal`. -/
def tparseArray (pe : TPE F) (n : Nat) (s : PS) : Cnt (Expr F × PS) := do
  let (es, s) ← tparseList pe n .Rs s
  pure (.arr es, s)

/-- parser.rs:283-288 `parse_index_expr`. -/
def tparseIndex (pe : TPE F) (left : Expr F) (s : PS) : Cnt (Expr F × PS) := do
  let (i, s) ← pe 0 s.next
  let s ← Cnt.free (s.expect .Rs)
  pure (.index left i, s)

/-- parser.rs:290-294 `parse_field_expr`. -/
def tparseField (left : Expr F) (s : PS) : Cnt (Expr F × PS) := do
  let s ← Cnt.free (s.expect .Ident)
  pure (.field left s.cur.literal, s)

/-- parser.rs:93-109: the first part of `parse_expr`. -/
def tparsePrefix (pe : TPE F) (n : Nat) (prec : Nat) (s : PS) : Cnt (Expr F × Nat × PS) :=
  match s.cur.kind with
  | .Ident => pure (.ident s.cur.literal, prec, s)
  | .Integer => do let e ← Cnt.free (parseInteger s); pure (e, prec, s)
  | .Float => do let e ← Cnt.free (parseFloat s); pure (e, prec, s)
  | .True | .False => do let e ← Cnt.free (parseBoolean s); pure (e, prec, s)
  | .String => pure (.str s.cur.literal, prec, s)
  | .Let => do let (e, s) ← tparseLet pe s; pure (e, 255, s)
  | .Not | .Sub => do let (e, s) ← tparseUnary pe s; pure (e, prec, s)
  | .Lp => do let (e, s) ← tparseParen pe s; pure (e, prec, s)
  | .If => do let (e, s) ← tparseIf pe n s; pure (e, prec, s)
  | .Ls => do let (e, s) ← tparseArray pe n s; pure (e, prec, s)
  | .Lb => do let (e, s) ← tparseMap pe n s; pure (e, prec, s)
  | _ => Cnt.free (.err (c!"parse expr error: " ++ s.cur.literal))

/-- parser.rs:110-147: the loop of `parse_expr`; an iteration is a step, also one that changes nothing (line 145). -/
def tparseLoop (pe : TPE F) (prec : Nat) : Nat → Expr F → PS → Cnt (Expr F × PS)
  | 0, _, _ => Cnt.free .hang
  | n + 1, left, s =>
    if !s.peekIs .Semi && prec < s.peekPrec then
      match s.peek with
      | some t =>
        if t.kind.isBinary then do
          Cnt.tick
          let (e, s) ← tparseBinary pe left s.next
          tparseLoop pe prec n e s
        else if t.kind = .Lp then do
          Cnt.tick
          let (e, s) ← tparseCall pe n left s.next
          tparseLoop pe prec n e s
        else if t.kind = .Ls then do
          Cnt.tick
          let (e, s) ← tparseIndex pe left s.next
          tparseLoop pe prec n e s
        else if t.kind = .Dot then do
          Cnt.tick
          let (e, s) ← tparseField left s.next
          tparseLoop pe prec n e s
        else do
          Cnt.tick
          tparseLoop pe prec n left s
      | none => do
        Cnt.tick
        tparseLoop pe prec n left s
    else pure (left, s)

/-- parser.rs:92-149 `parse_expr`, with fuel; a call is a step. -/
def tparseExpr : Nat → TPE F
  | 0 => fun _ _ => Cnt.free .hang
  | n + 1 => fun prec s => do
    Cnt.tick
    let (left, prec, s) ← tparsePrefix (tparseExpr n) n prec s
    tparseLoop (tparseExpr n) prec n left s

/-- parser.rs:310-321 `parse_request_literal`. -/
def tparseRequest (n : Nat) (s : PS) : Cnt ((Str × Str × List (Expr F)) × PS) := do
  let s ← Cnt.free (s.expect .Ident)
  let name := s.cur.literal
  let s ← Cnt.free (s.expect .Template)
  let message := s.cur.literal
  if s.peekIs .Ls then do
    let (asserts, s) ← tparseList (tparseExpr n) n .Rs s.next
    pure ((name, message, asserts), s)
  else pure ((name, message, []), s)

/-- parser.rs:323-328 `parse_test_literal`. -/
def tparseTest (n : Nat) (s : PS) : Cnt ((Str × List (Expr F)) × PS) := do
  let s ← Cnt.free (s.expect .Ident)
  let name := s.cur.literal
  let (block, s) ← tparseBlock (tparseExpr n) n s
  pure ((name, block), s)

/-- parser.rs:73-83: one iteration of the loop of `parse`. -/
def tparseItem (n : Nat) (src : Source F) (s : PS) : Cnt (Source F × PS) :=
  match s.cur.kind with
  | .Request => do
    let ((name, message, asserts), s) ← tparseRequest n s
    pure ({ src with requests := amInsert name (message, asserts) src.requests }, s)
  | .Test => do
    let ((name, block), s) ← tparseTest n s
    pure ({ src with tests := amInsert name block src.tests }, s)
  | _ => do
    let (e, s) ← tparseExpr n 0 s
    pure ({ src with exprs := src.exprs ++ [e] }, s)

/-- parser.rs:72-88: the loop of `parse`; an iteration is a step. -/
def tparseTop (n : Nat) : Nat → Source F → PS → Cnt (Source F)
  | 0, _, _ => Cnt.free .hang
  | k + 1, src, s =>
    if s.cur.kind = .Eof then pure src
    else do
      Cnt.tick
      let (src, s) ← tparseItem n src s
      tparseTop n k src (skipSemi s).next

/-- parser.rs:68-90 `Parser::new(text).parse()` with its steps counted. -/
def tparse (text : Str) : Cnt (Source F) :=
  match segment text with
  | [] => Cnt.free .panic
  | t :: r => tparseTop (r.length + 2) (r.length + 2) ⟨[], [], []⟩ ⟨t, r⟩

end Am
