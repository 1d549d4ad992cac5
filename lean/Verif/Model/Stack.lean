import Verif.Model.Evaluator
/-!
# Nested calls

`parse_expr` (parser.rs:92) and `eval_expr` (evaluator.rs:12) call themselves, each call taking a piece of the thread's stack, whose size is
fixed (8 MiB for the main thread on Linux, 2 MiB for the threads of `am test`). When the stack is used up the process is killed. Here both
functions are given the number of nested calls for which there is room; `panic` stands for the crash when there is no more room. Only the
calls of these two functions count; a crash is therefore seen later than in reality, never earlier.
-/
namespace Am
variable {F : Type} [Rt F]

/-- parser.rs:92-149 `parse_expr` with room for `d` nested calls; `n` is the fuel of the loops. -/
def parseExprIn (n : Nat) : Nat → PE F
  | 0 => fun _ _ => .panic
  | d + 1 => fun prec s => do
    let (left, prec, s) ← parsePrefix (parseExprIn n d) n prec s
    parseLoop (parseExprIn n d) prec n left s

/-- parser.rs:310-321 `parse_request_literal` with the given `parse_expr`. -/
def parseRequestBy (pe : PE F) (n : Nat) (s : PS) : Res ((Str × Str × List (Expr F)) × PS) := do
  let s ← s.expect .Ident
  let name := s.cur.literal
  let s ← s.expect .Template
  let message := s.cur.literal
  if s.peekIs .Ls then do
    let (asserts, s) ← parseList pe n .Rs s.next
    pure ((name, message, asserts), s)
  else pure ((name, message, []), s)

/-- parser.rs:323-328 `parse_test_literal` with the given `parse_expr`. -/
def parseTestBy (pe : PE F) (n : Nat) (s : PS) : Res ((Str × List (Expr F)) × PS) := do
  let s ← s.expect .Ident
  let name := s.cur.literal
  let (block, s) ← parseBlock pe n s
  pure ((name, block), s)

/-- parser.rs:73-83: one iteration of the loop of `parse` with the given `parse_expr`. -/
def parseItemBy (pe : PE F) (n : Nat) (src : Source F) (s : PS) : Res (Source F × PS) :=
  match s.cur.kind with
  | .Request => do
    let ((name, message, asserts), s) ← parseRequestBy pe n s
    pure ({ src with requests := amInsert name (message, asserts) src.requests }, s)
  | .Test => do
    let ((name, block), s) ← parseTestBy pe n s
    pure ({ src with tests := amInsert name block src.tests }, s)
  | _ => do
    let (e, s) ← pe 0 s
    pure ({ src with exprs := src.exprs ++ [e] }, s)

/-- parser.rs:72-88: the loop of `parse` with the given `parse_expr`. -/
def parseTopBy (pe : PE F) (n : Nat) : Nat → Source F → PS → Res (Source F)
  | 0, _, _ => .hang
  | k + 1, src, s =>
    if s.cur.kind = .Eof then pure src
    else do
      let (src, s) ← parseItemBy pe n src s
      parseTopBy pe n k src (skipSemi s).next

/-- parser.rs:68-90 `Parser::new(text).parse()` with room for `d` nested calls of `parse_expr`. -/
def parseIn (d : Nat) (text : Str) : Res (Source F) :=
  match segment text with
  | [] => .panic
  | t :: r => parseTopBy (parseExprIn (r.length + 2) d) (r.length + 2) (r.length + 2) ⟨[], [], []⟩ ⟨t, r⟩

/-- http/response.rs:63-88 `Response::to_map` with room for `d` nested calls of `parse_expr` on the body. -/
def Response.toMapIn (d : Nat) (r : Response) : Res (List (Str × Value F)) :=
  match (parseIn d r.body : Res (Source F)) with
  | .ok src =>
    match src.exprs with
    | e :: _ => .ok (amInsert c!"json" e.eval r.baseMap)
    | [] => .ok r.baseMap
  | .err _ => .ok r.baseMap
  | .panic => .panic
  | .hang => .hang

/-! ## Evaluation -/

mutual
/-- evaluator.rs:12-30 `eval_expr` with room for the given number of nested calls; `call` is told how much room is left. -/
def evalExprIn (call : Nat → Call F) : Expr F → Nat → M F (Value F)
  | .int i => fun d => if d = 0 then M.lift .panic else M.pure (.int i)
  | .float f => fun d => if d = 0 then M.lift .panic else M.pure (.float f)
  | .bool b => fun d => if d = 0 then M.lift .panic else M.pure (.bool b)
  | .str s => fun d => if d = 0 then M.lift .panic else M.pure (.str s)
  | .arr items => fun d => if d = 0 then M.lift .panic else do
    let vs ← evalListIn call items (d - 1)
    pure (.arr vs)
  | .map pairs => fun d => if d = 0 then M.lift .panic else do
    let m ← evalPairsIn call pairs [] (d - 1)
    pure (.map m)
  | .index l i => fun d => if d = 0 then M.lift .panic else do
    let v ← evalExprIn call l (d - 1)
    let i ← evalExprIn call i (d - 1)
    M.lift (indexValue v i)
  | .field l n => fun d => if d = 0 then M.lift .panic else do
    let v ← evalExprIn call l (d - 1)
    M.lift (fieldValue v n)
  | .ident n => fun d => if d = 0 then M.lift .panic else fun s =>
    match s.ctx.get n with
    | some v => (.ok v, s)
    | none => (.err (c!"ident:" ++ n ++ c!" not found"), s)
  | .letE n e => fun d => if d = 0 then M.lift .panic else do
    let v ← evalExprIn call e (d - 1)
    M.modify fun s => { s with ctx := s.ctx.set n v }
    pure v
  | .unary t r => fun d => if d = 0 then M.lift .panic else do
    let v ← evalExprIn call r (d - 1)
    M.lift (unaryValue t v)
  | .binary t l r => fun d => if d = 0 then M.lift .panic else
    match binaryOp (F := F) t.kind with
    | some op => do
      let a ← evalExprIn call l (d - 1)
      let b ← evalExprIn call r (d - 1)
      M.lift (op a b)
    | none =>
      if t.kind = .Lo then do
        let a ← evalExprIn call l (d - 1)
        if a.falsy then evalExprIn call r (d - 1) else pure a
      else if t.kind = .La then do
        let a ← evalExprIn call l (d - 1)
        if a.falsy then pure a else evalExprIn call r (d - 1)
      else M.lift (.err (c!"not support operator: " ++ l.display ++ c!" " ++ t.literal ++ c!" " ++ r.display))
  | .paren e => fun d => if d = 0 then M.lift .panic else evalExprIn call e (d - 1)
  | .ifE c t e => fun d => if d = 0 then M.lift .panic else do
    let v ← evalExprIn call c (d - 1)
    if v.falsy then evalBlockIn call e .null (d - 1) else evalBlockIn call t .null (d - 1)
  | .call f args => fun d => if d = 0 then M.lift .panic else do
    let vs ← evalListIn call args (d - 1)
    call (d - 1) f vs
termination_by structural e => e
/-- evaluator.rs:242-248 `eval_list`. -/
def evalListIn (call : Nat → Call F) : List (Expr F) → Nat → M F (List (Value F))
  | [] => fun _ => M.pure []
  | e :: l => fun d => do
    let v ← evalExprIn call e d
    let vs ← evalListIn call l d
    pure (v :: vs)
termination_by structural l => l
/-- evaluator.rs:52-60 `eval_map_literal`'s loop; `acc` is the map so far. -/
def evalPairsIn (call : Nat → Call F) : List (Expr F × Expr F) → List (Str × Value F) → Nat → M F (List (Str × Value F))
  | [] => fun acc _ => M.pure acc
  | (k, v) :: l => fun acc d => do
    let k ← evalExprIn call k d
    let v ← evalExprIn call v d
    evalPairsIn call l (amInsert k.display v acc) d
termination_by structural l => l
/-- evaluator.rs:234-240 `eval_block`'s loop; `acc` is the result so far. -/
def evalBlockIn (call : Nat → Call F) : List (Expr F) → Value F → Nat → M F (Value F)
  | [] => fun acc _ => M.pure acc
  | e :: l => fun acc d => do
    let v ← evalExprIn call e d
    evalBlockIn call l v d
termination_by structural l => l
end

/-- evaluator.rs:185-212: the asserts, with room for `d` nested calls. -/
def evalAssertsIn (call : Nat → Call F) (d : Nat) : List (Expr F) → M F (List Assert)
  | [] => M.pure []
  | .binary t l r :: rest => do
    let a ← (evalExprIn call l d).orElse .null
    let b ← (evalExprIn call r d).orElse .null
    let as ← evalAssertsIn call d rest
    match compareValues t.kind a b with
    | some result =>
      pure (⟨l.display ++ c!" " ++ t.literal ++ c!" " ++ r.display, a.display, t.literal, b.display, result⟩ :: as)
    | none => pure as
  | _ :: rest => evalAssertsIn call d rest

/-- evaluator.rs:167-222: a call that names a request, with room for `d` nested calls of either function. -/
def callRequestIn (net : Net) (call : Nat → Call F) (d : Nat) (name : Str) (message : Str) (asserts : List (Expr F)) : M F (Value F) := do
  let s ← M.get
  let text := render s.ctx message
  M.modify fun s => { s with sent := s.sent ++ [text] }
  let (request, response, time, error) ← M.lift (send net s.sent text)
  let map ← M.lift (response.toMapIn (F := F) d)
  let (as, inner) ← inLocal map (evalAssertsIn call d asserts)
  M.modify fun s => { s with ctx := s.ctx.push ⟨name, time, request, response, as, error⟩ }
  pure (.map inner)

/-- evaluator.rs:166-231: a call with evaluated arguments. -/
def callAtIn (net : Net) : Nat → Nat → Call F
  | 0, _, name, args => fun s =>
    match s.ctx.request name with
    | some _ => (.hang, s)
    | none => callNative name args s
  | n + 1, d, name, args => fun s =>
    match s.ctx.request name with
    | some (message, asserts) => callRequestIn net (callAtIn net n) d name message asserts s
    | none => callNative name args s

/-- evaluator.rs:234 `eval_block` with room for `d` nested calls. -/
def runBlockIn (net : Net) (d : Nat) (es : List (Expr F)) : M F (Value F) := evalBlockIn (callAtIn net 1) es .null d

end Am
