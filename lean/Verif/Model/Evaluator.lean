import Verif.Model.Context
import Verif.Model.Native
/-!
# lib/src/evaluator.rs

Evaluation is a state monad over the context plus the world it acts on: the messages sent so far and the text printed so far.
The state survives an `Err` (the REPL keeps its context).
-/
namespace Am

/-- A context together with the effects so far. -/
structure St (F : Type) where
  ctx : Context F
  sent : List Str
  out : Str

/-- The type of evaluator functions: `&mut Context` in, `Result` and the changed context out. -/
def M (F α : Type) := St F → Res α × St F

namespace M
variable {F : Type}

/-- A value, without effects. -/
def pure {α : Type} (a : α) : M F α := fun s => (.ok a, s)

/-- The `?` operator on effectful calls. -/
def bind {α β : Type} (m : M F α) (f : α → M F β) : M F β := fun s =>
  match m s with
  | (.ok a, s) => f a s
  | (.err e, s) => (.err e, s)
  | (.panic, s) => (.panic, s)
  | (.hang, s) => (.hang, s)

instance : Monad (M F) where
  pure := pure
  bind := bind

/-- A call without effects. -/
def lift {α : Type} (r : Res α) : M F α := fun s => (r, s)

/-- Reads the state. -/
def get : M F (St F) := fun s => (.ok s, s)

/-- Changes the state. -/
def modify (f : St F → St F) : M F Unit := fun s => (.ok (), f s)

/-- `.unwrap_or(d)` (evaluator.rs:191-192). -/
def orElse {α : Type} (m : M F α) (d : α) : M F α := fun s =>
  match m s with
  | (.err _, s) => (.ok d, s)
  | r => r

end M

variable {F : Type} [Rt F]

/-- How a call behaves: `eval_call_expr` after its arguments. -/
abbrev Call (F : Type) := Str → List (Value F) → M F (Value F)

/-- The values that count as false (evaluator.rs:117, 139, 143, 159). -/
def Value.falsy : Value F → Bool
  | .bool false => true
  | .null => true
  | _ => false

/-- evaluator.rs:66-84: indexing. `index as usize` is the two's complement reading. -/
def indexValue (value index : Value F) : Res (Value F) :=
  match value, index with
  | .arr items, .int i => .ok ((items[i.toUInt64.toNat]?).getD .null)
  | .map pairs, key => .ok ((amGet key.display pairs).getD .null)
  | v, _ => .err (c!"index operator not support: " ++ v.debug)

/-- evaluator.rs:89-98: field access. -/
def fieldValue (value : Value F) (field : Str) : Res (Value F) :=
  match value with
  | .map pairs => .ok ((amGet field pairs).getD .null)
  | v => .err (c!"field operator not support: " ++ v.debug)

/-- evaluator.rs:116-123: unary operators. -/
def unaryValue (token : Token) (right : Value F) : Res (Value F) :=
  match token.kind, right with
  | .Not, .bool false => .ok (.bool true)
  | .Not, .null => .ok (.bool true)
  | .Not, .int i => .ok (.int (~~~i))
  | .Not, _ => .ok (.bool false)
  | .Sub, .int i => do let n ← checked F (-i.toInt); pure (.int n)
  | .Sub, .float f => .ok (.float (Rt.fneg f))
  | _, r => .err (c!"unknown operator: " ++ token.literal ++ r.debug)

/-- evaluator.rs:128-137 and 146-151: a strict binary operator on evaluated operands; `none` for other tokens. -/
def binaryOp (k : Kind) : Option (Value F → Value F → Res (Value F)) :=
  match k with
  | .Add => some Value.add
  | .Sub => some Value.sub
  | .Mul => some Value.mul
  | .Div => some Value.div
  | .Rem => some Value.rem
  | .Bx => some Value.bitxor
  | .Bo => some Value.bitor
  | .Ba => some Value.bitand
  | .Sl => some Value.shl
  | .Sr => some Value.shr
  | .Lt => some fun l r => .ok (.bool (l.lt r))
  | .Gt => some fun l r => .ok (.bool (l.gt r))
  | .Le => some fun l r => .ok (.bool (l.le r))
  | .Ge => some fun l r => .ok (.bool (l.ge r))
  | .Eq => some fun l r => .ok (.bool (l.eq r))
  | .Ne => some fun l r => .ok (.bool (!l.eq r))
  | _ => none

mutual
/-- evaluator.rs:12-30 `eval_expr` with the functions it dispatches to; `call` is lines 166-231. -/
def evalExpr (call : Call F) : Expr F → M F (Value F)
  | .int i => M.pure (.int i)
  | .float f => M.pure (.float f)
  | .bool b => M.pure (.bool b)
  | .str s => M.pure (.str s)
  | .arr items => do
    let vs ← evalList call items
    pure (.arr vs)
  | .map pairs => do
    let m ← evalPairs call [] pairs
    pure (.map m)
  | .index l i => do
    let v ← evalExpr call l
    let i ← evalExpr call i
    M.lift (indexValue v i)
  | .field l n => do
    let v ← evalExpr call l
    M.lift (fieldValue v n)
  | .ident n => fun s =>
    match s.ctx.get n with
    | some v => (.ok v, s)
    | none => (.err (c!"ident:" ++ n ++ c!" not found"), s)
  | .letE n e => do
    let v ← evalExpr call e
    M.modify fun s => { s with ctx := s.ctx.set n v }
    pure v
  | .unary t r => do
    let v ← evalExpr call r
    M.lift (unaryValue t v)
  | .binary t l r =>
    match binaryOp (F := F) t.kind with
    | some op => do
      let a ← evalExpr call l
      let b ← evalExpr call r
      M.lift (op a b)
    | none =>
      if t.kind = .Lo then do
        let a ← evalExpr call l
        if a.falsy then evalExpr call r else pure a
      else if t.kind = .La then do
        let a ← evalExpr call l
        if a.falsy then pure a else evalExpr call r
      else M.lift (.err (c!"not support operator: " ++ l.display ++ c!" " ++ t.literal ++ c!" " ++ r.display))
  | .paren e => evalExpr call e
  | .ifE c t e => do
    let v ← evalExpr call c
    if v.falsy then evalBlock call .null e else evalBlock call .null t
  | .call f args => do
    let vs ← evalList call args
    call f vs
termination_by structural e => e
/-- evaluator.rs:242-248 `eval_list`. -/
def evalList (call : Call F) : List (Expr F) → M F (List (Value F))
  | [] => M.pure []
  | e :: l => do
    let v ← evalExpr call e
    let vs ← evalList call l
    pure (v :: vs)
termination_by structural l => l
/-- evaluator.rs:52-60 `eval_map_literal`'s loop; `acc` is the map so far. -/
def evalPairs (call : Call F) (acc : List (Str × Value F)) : List (Expr F × Expr F) → M F (List (Str × Value F))
  | [] => M.pure acc
  | (k, v) :: l => do
    let k ← evalExpr call k
    let v ← evalExpr call v
    evalPairs call (amInsert k.display v acc) l
termination_by structural l => l
/-- evaluator.rs:234-240 `eval_block`'s loop; `acc` is the result so far. -/
def evalBlock (call : Call F) (acc : Value F) : List (Expr F) → M F (Value F)
  | [] => M.pure acc
  | e :: l => do
    let v ← evalExpr call e
    evalBlock call v l
termination_by structural l => l
end

/-- evaluator.rs:223-230 with native.rs:3-21: a call that names no request. -/
def callNative (name : Str) (args : List (Value F)) : M F (Value F) :=
  if name = c!"println" then do
    let v ← M.lift (nativeFormat args)
    M.modify fun s => { s with out := s.out ++ v.display ++ c!"\n" }
    pure .null
  else if name = c!"print" then do
    let v ← M.lift (nativeFormat args)
    M.modify fun s => { s with out := s.out ++ v.display }
    pure .null
  else if name = c!"format" then M.lift (nativeFormat args)
  else if name = c!"length" then M.lift (nativeLength args)
  else if name = c!"append" then M.lift (nativeAppend args)
  else M.lift (.err (c!"function " ++ name ++ c!" not found"))

/-- evaluator.rs:176-179: the text that replaces a template variable. -/
def varText (ctx : Context F) (name : Str) : Str :=
  match ctx.get name with
  | some v => v.display
  | none => (Value.null : Value F).display

/-- evaluator.rs:169-181: the message with its variables substituted. -/
def render (ctx : Context F) (message : Str) : Str :=
  replaceAll message ((findTemplates message).reverse.map fun m => (m.2, varText ctx m.1))

/-- evaluator.rs:193-201: the comparison of an assert. -/
def compareValues (k : Kind) (l r : Value F) : Option Bool :=
  match k with
  | .Lt => some (l.lt r)
  | .Gt => some (l.gt r)
  | .Le => some (l.le r)
  | .Ge => some (l.ge r)
  | .Eq => some (l.eq r)
  | .Ne => some (!l.eq r)
  | _ => none

/-- evaluator.rs:185-212: the asserts, evaluated one after the other in the local context. -/
def evalAsserts (call : Call F) : List (Expr F) → M F (List Assert)
  | [] => M.pure []
  | .binary t l r :: rest => do
    let a ← (evalExpr call l).orElse .null
    let b ← (evalExpr call r).orElse .null
    let as ← evalAsserts call rest
    match compareValues t.kind a b with
    | some result =>
      pure (⟨l.display ++ c!" " ++ t.literal ++ c!" " ++ r.display, a.display, t.literal, b.display, result⟩ :: as)
    | none => pure as
  | _ :: rest => evalAsserts call rest

/-- Runs `m` in the local context `Context::from(map)` (evaluator.rs:185) and returns its result with the local map. The
surrounding context is untouched; what was printed (or sent) is kept. -/
def inLocal {α : Type} (map : List (Str × Value F)) (m : M F α) : M F (α × List (Str × Value F)) := fun s =>
  match m { s with ctx := Context.ofMap map } with
  | (.ok a, s') => (.ok (a, s'.ctx.inner), { s' with ctx := s.ctx })
  | (.err e, s') => (.err e, { s' with ctx := s.ctx })
  | (.panic, s') => (.panic, { s' with ctx := s.ctx })
  | (.hang, s') => (.hang, { s' with ctx := s.ctx })

/-- evaluator.rs:167-222: a call that names a request; `call` is how calls inside the asserts behave. -/
def callRequest (net : Net) (call : Call F) (name : Str) (message : Str) (asserts : List (Expr F)) : M F (Value F) := do
  let s ← M.get
  let text := render s.ctx message
  M.modify fun s => { s with sent := s.sent ++ [text] }
  let (request, response, time, error) ← M.lift (send net s.sent text)
  let map ← M.lift (response.toMap (F := F))
  let (as, inner) ← inLocal map (evalAsserts call asserts)
  M.modify fun s => { s with ctx := s.ctx.push ⟨name, time, request, response, as, error⟩ }
  pure (.map inner)

/-- evaluator.rs:166-231: a call with evaluated arguments. Asserts are evaluated in a context without requests, so
requests never nest; the first argument bounds the nesting, and `Props/C13` proves that the bound is never reached. -/
def callAt (net : Net) : Nat → Call F
  | 0, name, args => fun s =>
    match s.ctx.request name with
    | some _ => (.hang, s)
    | none => callNative name args s
  | n + 1, name, args => fun s =>
    match s.ctx.request name with
    | some (message, asserts) => callRequest net (callAt net n) name message asserts s
    | none => callNative name args s

/-- evaluator.rs:12 `eval_expr`. -/
def eval (net : Net) (e : Expr F) : M F (Value F) := evalExpr (callAt net 1) e

/-- evaluator.rs:234 `eval_block`. -/
def runBlock (net : Net) (es : List (Expr F)) : M F (Value F) := evalBlock (callAt net 1) .null es

end Am
