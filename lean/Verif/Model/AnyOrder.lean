import Verif.Model.Command
/-!
# The evaluator when hash maps list their entries in any order

In Rust every `HashMap` has its own random order of iteration, so two equal maps may be turned into different texts in one run. The evaluator of
Model/Evaluator.lean takes one order for a whole run (`Rt.order`). Here evaluation is a relation instead: wherever a value is turned into text, the
entries of every map in it may come in any order, chosen anew each time. (The real program has fewer possibilities: a map that is not changed keeps its
order.)
-/
namespace Am
variable {F : Type}

/-- The text between the braces of a map (std `DebugMap`). -/
def entriesText (es : List (Str × Str)) : Str := joinStr c!", " (es.map fun p => p.1 ++ c!": " ++ p.2)

section
variable [Rt F]

mutual
/-- value.rs:16 `#[derive(Debug)]`: the texts a value may have. -/
inductive DebuggedAs : Value F → Str → Prop
  | null : DebuggedAs .null c!"Null"
  | int (i : Int64) : DebuggedAs (.int i) (c!"Integer(" ++ intStr i.toInt ++ c!")")
  | float (f : F) : DebuggedAs (.float f) (c!"Float(" ++ Rt.fdebug f ++ c!")")
  | bool (b : Bool) : DebuggedAs (.bool b) (c!"Boolean(" ++ boolStr b ++ c!")")
  | str (s : Str) : DebuggedAs (.str s) (c!"String(" ++ debugStr F s ++ c!")")
  | arr {items : List (Value F)} {ts : List Str} : DebuggedList items ts → DebuggedAs (.arr items) (c!"Array([" ++ joinStr c!", " ts ++ c!"])")
  | map {pairs : List (Str × Value F)} {es es' : List (Str × Str)} : DebuggedEntries pairs es → es'.Perm es →
      DebuggedAs (.map pairs) (c!"Map({" ++ entriesText es' ++ c!"})")
/-- `Debug` of the items of a `Vec<Value>`. -/
inductive DebuggedList : List (Value F) → List Str → Prop
  | nil : DebuggedList [] []
  | cons {v : Value F} {t : Str} {l : List (Value F)} {ts : List Str} : DebuggedAs v t → DebuggedList l ts → DebuggedList (v :: l) (t :: ts)
/-- `Debug` of the entries of a `HashMap<String, Value>`. -/
inductive DebuggedEntries : List (Str × Value F) → List (Str × Str) → Prop
  | nil : DebuggedEntries [] []
  | cons {k : Str} {v : Value F} {t : Str} {l : List (Str × Value F)} {es : List (Str × Str)} : DebuggedAs v t → DebuggedEntries l es →
      DebuggedEntries ((k, v) :: l) ((debugStr F k, t) :: es)
end

/-- value.rs:27-39 `Display for Value`: the texts a value may have. -/
inductive ShownAs : Value F → Str → Prop
  | null : ShownAs .null c!"null"
  | int (i : Int64) : ShownAs (.int i) (intStr i.toInt)
  | float (f : F) : ShownAs (.float f) (Rt.fdisp f)
  | bool (b : Bool) : ShownAs (.bool b) (boolStr b)
  | str (s : Str) : ShownAs (.str s) s
  | arr {items : List (Value F)} {ts : List Str} : DebuggedList items ts → ShownAs (.arr items) (c!"[" ++ joinStr c!", " ts ++ c!"]")
  | map {pairs : List (Str × Value F)} {es es' : List (Str × Str)} : DebuggedEntries pairs es → es'.Perm es →
      ShownAs (.map pairs) (c!"{" ++ entriesText es' ++ c!"}")

/-- Several values, each turned into text on its own. -/
inductive ShownList : List (Value F) → List Str → Prop
  | nil : ShownList [] []
  | cons {v : Value F} {t : Str} {l : List (Value F)} {ts : List Str} : ShownAs v t → ShownList l ts → ShownList (v :: l) (t :: ts)
end

/-- Evaluation with several possible outcomes: the state before, and a result with the state after. -/
def AnyM (F α : Type) := St F → Res α × St F → Prop

namespace AnyM

/-- A function with one outcome. -/
def det {α : Type} (m : M F α) : AnyM F α := fun s x => x = m s

/-- A call without effects. -/
def lift {α : Type} (P : Res α → Prop) : AnyM F α := fun s x => P x.1 ∧ x.2 = s

/-- A text chosen without effects. -/
def text {α : Type} (P : α → Prop) : AnyM F α := fun s x => ∃ a, P a ∧ x = (.ok a, s)

/-- The `?` operator on effectful calls. -/
def bind {α β : Type} (m : AnyM F α) (f : α → AnyM F β) : AnyM F β := fun s x => ∃ y, m s y ∧
  match y with
  | (.ok a, t) => f a t x
  | (.err e, t) => x = (.err e, t)
  | (.panic, t) => x = (.panic, t)
  | (.hang, t) => x = (.hang, t)

/-- `.unwrap_or(d)` (evaluator.rs:191-192). -/
def orElse {α : Type} (m : AnyM F α) (d : α) : AnyM F α := fun s x => ∃ y, m s y ∧
  match y with
  | (.err _, t) => x = (.ok d, t)
  | y => x = y

end AnyM

variable [Rt F]

/-- The outcome `x` of an operation, but an error with any of the texts `P` instead of its own. -/
def anyError {α : Type} (x : Res α) (P : Str → Prop) (r : Res α) : Prop :=
  match x with
  | .err _ => ∃ e, P e ∧ r = .err e
  | x => r = x

/-- evaluator.rs:66-84: indexing; the key of a map is turned into text, an error names the value. -/
def anyIndex (value index : Value F) (r : Res (Value F)) : Prop :=
  match value with
  | .map pairs => ∃ t, ShownAs index t ∧ r = .ok ((amGet t pairs).getD .null)
  | v => anyError (indexValue v index) (fun e => ∃ t, DebuggedAs v t ∧ e = c!"index operator not support: " ++ t) r

/-- evaluator.rs:89-98: field access; an error names the value. -/
def anyField (value : Value F) (field : Str) : Res (Value F) → Prop :=
  anyError (fieldValue value field) fun e => ∃ t, DebuggedAs value t ∧ e = c!"field operator not support: " ++ t

/-- evaluator.rs:116-123: unary operators; an error names the value. -/
def anyUnary (token : Token) (right : Value F) : Res (Value F) → Prop :=
  anyError (unaryValue token right) fun e => ∃ t, DebuggedAs right t ∧ e = c!"unknown operator: " ++ token.literal ++ t

/-- value.rs:41-155: how the error of an operator writes the operator. -/
def mismatchOp : Kind → Str
  | .Add => c!"+"
  | .Sub => c!"-"
  | .Mul => c!"*"
  | .Div => c!"/"
  | .Rem => c!"%"
  | .Bx => c!"^"
  | .Bo => c!"|"
  | .Ba => c!"&"
  | .Sl => c!"<<"
  | .Sr => c!">>"
  | _ => []

/-- evaluator.rs:128-137 and 146-151: a strict binary operator `op` written with the token kind `k`; an error names both operands. -/
def anyBinary (k : Kind) (op : Value F → Value F → Res (Value F)) (a b : Value F) : Res (Value F) → Prop :=
  anyError (op a b) fun e => ∃ t u, ShownAs a t ∧ ShownAs b u ∧ e = c!"type mismatch: " ++ t ++ c!" " ++ mismatchOp k ++ c!" " ++ u

/-- How a call behaves, with its possible outcomes. -/
abbrev AnyCall (F : Type) := Str → List (Value F) → AnyM F (Value F)

mutual
/-- evaluator.rs:12-30 `eval_expr`. -/
def anyExpr (call : AnyCall F) : Expr F → AnyM F (Value F)
  | .int i => .det (M.pure (.int i))
  | .float f => .det (M.pure (.float f))
  | .bool b => .det (M.pure (.bool b))
  | .str s => .det (M.pure (.str s))
  | .arr items => .bind (anyList call items) fun vs => .det (M.pure (.arr vs))
  | .map pairs => .bind (anyPairs call [] pairs) fun m => .det (M.pure (.map m))
  | .index l i => .bind (anyExpr call l) fun v => .bind (anyExpr call i) fun i => .lift (anyIndex v i)
  | .field l n => .bind (anyExpr call l) fun v => .lift (anyField v n)
  | .ident n => .det fun s =>
    match s.ctx.get n with
    | some v => (.ok v, s)
    | none => (.err (c!"ident:" ++ n ++ c!" not found"), s)
  | .letE n e => .bind (anyExpr call e) fun v => .bind (.det (M.modify fun s => { s with ctx := s.ctx.set n v })) fun _ => .det (M.pure v)
  | .unary t r => .bind (anyExpr call r) fun v => .lift (anyUnary t v)
  | .binary t l r =>
    match binaryOp (F := F) t.kind with
    | some op => .bind (anyExpr call l) fun a => .bind (anyExpr call r) fun b => .lift (anyBinary t.kind op a b)
    | none =>
      if t.kind = .Lo then .bind (anyExpr call l) fun a => if a.falsy then anyExpr call r else .det (M.pure a)
      else if t.kind = .La then .bind (anyExpr call l) fun a => if a.falsy then .det (M.pure a) else anyExpr call r
      else .det (M.lift (.err (c!"not support operator: " ++ l.display ++ c!" " ++ t.literal ++ c!" " ++ r.display)))
  | .paren e => anyExpr call e
  | .ifE c t e => .bind (anyExpr call c) fun v => if v.falsy then anyBlock call .null e else anyBlock call .null t
  | .call f args => .bind (anyList call args) fun vs => call f vs
termination_by structural e => e
/-- evaluator.rs:242-248 `eval_list`. -/
def anyList (call : AnyCall F) : List (Expr F) → AnyM F (List (Value F))
  | [] => .det (M.pure [])
  | e :: l => .bind (anyExpr call e) fun v => .bind (anyList call l) fun vs => .det (M.pure (v :: vs))
termination_by structural l => l
/-- evaluator.rs:52-60 `eval_map_literal`'s loop; the keys are turned into text. -/
def anyPairs (call : AnyCall F) (acc : List (Str × Value F)) : List (Expr F × Expr F) → AnyM F (List (Str × Value F))
  | [] => .det (M.pure acc)
  | (k, v) :: l => .bind (anyExpr call k) fun k => .bind (anyExpr call v) fun v => .bind (.text (ShownAs k)) fun t =>
    anyPairs call (amInsert t v acc) l
termination_by structural l => l
/-- evaluator.rs:234-240 `eval_block`'s loop. -/
def anyBlock (call : AnyCall F) (acc : Value F) : List (Expr F) → AnyM F (Value F)
  | [] => .det (M.pure acc)
  | e :: l => .bind (anyExpr call e) fun v => anyBlock call v l
termination_by structural l => l
end

/-- native.rs:23-45 `format`. -/
def anyFormat (args : List (Value F)) (r : Res (Value F)) : Prop :=
  match args with
  | .str s :: args =>
    if args.reverse.length ≠ (((findTemplates s).map (·.2)).reverse).length then r = nativeFormat (.str s :: args)
    else ∃ ts, ShownList args.reverse ts ∧ r = .ok (.str (replaceAll s ((((findTemplates s).map (·.2)).reverse).zip ts)))
  | args => r = nativeFormat args

/-- evaluator.rs:223-230 with native.rs:3-21: a call that names no request. What `format` gives is a string, which has one text; the errors of `length`
name only values without maps. -/
def anyNative (name : Str) (args : List (Value F)) : AnyM F (Value F) :=
  if name = c!"println" then .bind (.lift (anyFormat args)) fun v =>
    .bind (.det (M.modify fun s => { s with out := s.out ++ v.display ++ c!"\n" })) fun _ => .det (M.pure .null)
  else if name = c!"print" then .bind (.lift (anyFormat args)) fun v =>
    .bind (.det (M.modify fun s => { s with out := s.out ++ v.display })) fun _ => .det (M.pure .null)
  else if name = c!"format" then .lift (anyFormat args)
  else .det (callNative name args)

/-- evaluator.rs:169-181: the message with its variables substituted. -/
def anyRender (ctx : Context F) (message text : Str) : Prop := ∃ ts,
  ShownList ((findTemplates message).reverse.map fun m => (ctx.get m.1).getD .null) ts ∧
  text = replaceAll message (((findTemplates message).reverse.map (·.2)).zip ts)

mutual
/-- syntax.rs:33-50 `Expr::eval`: the value of a literal expression. -/
inductive LiteralAs : Expr F → Value F → Prop
  | arr {items : List (Expr F)} {vs : List (Value F)} : LiteralList items vs → LiteralAs (.arr items) (.arr vs)
  | map {pairs : List (Expr F × Expr F)} {m : List (Str × Value F)} : LiteralEntries [] pairs m → LiteralAs (.map pairs) (.map m)
  | other {e : Expr F} : (∀ items, e ≠ .arr items) → (∀ pairs, e ≠ .map pairs) → LiteralAs e e.eval
/-- syntax.rs:40. -/
inductive LiteralList : List (Expr F) → List (Value F) → Prop
  | nil : LiteralList [] []
  | cons {e : Expr F} {v : Value F} {l : List (Expr F)} {vs : List (Value F)} : LiteralAs e v → LiteralList l vs → LiteralList (e :: l) (v :: vs)
/-- syntax.rs:41-46: the keys are turned into text. -/
inductive LiteralEntries : List (Str × Value F) → List (Expr F × Expr F) → List (Str × Value F) → Prop
  | nil (acc : List (Str × Value F)) : LiteralEntries acc [] acc
  | cons {acc m : List (Str × Value F)} {k v : Expr F} {a b : Value F} {t : Str} {l : List (Expr F × Expr F)} : LiteralAs k a → ShownAs a t → LiteralAs v b →
      LiteralEntries (amInsert t b acc) l m → LiteralEntries acc ((k, v) :: l) m
end

/-- response.rs:66-88 `Response::to_map`. -/
def Response.anyMap (r : Response) (x : Res (List (Str × Value F))) : Prop :=
  match (parse r.body : Res (Source F)) with
  | .ok ⟨e :: _, _, _⟩ => ∃ v, LiteralAs e v ∧ x = .ok (amInsert c!"json" v r.baseMap)
  | _ => x = r.toMap

/-- evaluator.rs:185-212: the asserts; both operands are turned into text. -/
def anyAsserts (call : AnyCall F) : List (Expr F) → AnyM F (List Assert)
  | [] => .det (M.pure [])
  | .binary t l r :: rest => .bind (.orElse (anyExpr call l) .null) fun a => .bind (.orElse (anyExpr call r) .null) fun b =>
    .bind (anyAsserts call rest) fun as =>
    match compareValues t.kind a b with
    | some result => .bind (.text (ShownAs a)) fun x => .bind (.text (ShownAs b)) fun y =>
      .det (M.pure (⟨l.display ++ c!" " ++ t.literal ++ c!" " ++ r.display, x, t.literal, y, result⟩ :: as))
    | none => .det (M.pure as)
  | _ :: rest => anyAsserts call rest

/-- Runs `m` in the local context (evaluator.rs:185), as `inLocal`. -/
def anyLocal {α : Type} (map : List (Str × Value F)) (m : AnyM F α) : AnyM F (α × List (Str × Value F)) := fun s x =>
  ∃ y, m { s with ctx := Context.ofMap map } y ∧ x = inLocal map (fun _ => y) s

/-- evaluator.rs:167-222: a call that names a request. -/
def anyRequest (net : Net) (call : AnyCall F) (name : Str) (message : Str) (asserts : List (Expr F)) : AnyM F (Value F) :=
  .bind (.det M.get) fun s => .bind (.text (anyRender s.ctx message)) fun text =>
  .bind (.det (M.modify fun s => { s with sent := s.sent ++ [text] })) fun _ =>
  .bind (.det (M.lift (send net s.sent text))) fun p =>
  .bind (.lift p.2.1.anyMap) fun map =>
  .bind (anyLocal map (anyAsserts call asserts)) fun q =>
  .bind (.det (M.modify fun s => { s with ctx := s.ctx.push ⟨name, p.2.2.1, p.1, p.2.1, q.1, p.2.2.2⟩ })) fun _ => .det (M.pure (.map q.2))

/-- evaluator.rs:166-231: a call with evaluated arguments; the number bounds the nesting of requests, as in `callAt`. -/
def anyCallAt (net : Net) : Nat → AnyCall F
  | 0, name, args => fun s =>
    match s.ctx.request name with
    | some _ => fun x => x = (.hang, s)
    | none => anyNative name args s
  | n + 1, name, args => fun s =>
    match s.ctx.request name with
    | some (message, asserts) => anyRequest net (anyCallAt net n) name message asserts s
    | none => anyNative name args s

/-- evaluator.rs:234 `eval_block`. -/
def anyRun (net : Net) (es : List (Expr F)) : AnyM F (Value F) := anyBlock (anyCallAt net 1) .null es

/-- command.rs:32-47 `eval`: the value or the error is printed. -/
def anyText (net : Net) (text : Str) : AnyM F Unit :=
  match (parse text : Res (Source F)) with
  | .ok src => .bind (.det (M.modify fun s => { s with ctx := s.ctx.extend src.requests })) fun _ => fun s x =>
    ∃ y, anyRun net src.exprs s y ∧
    match y with
    | (.ok v, t) => ∃ text, ShownAs v text ∧ x = sayLine text t
    | (.err e, t) => x = sayLine e t
    | (.panic, t) => x = (.panic, t)
    | (.hang, t) => x = (.hang, t)
  | _ => .det (evalText net text)

/-- command.rs:16-30 `repl`'s loop. -/
def anyLoop (net : Net) : List Input → AnyM F Unit
  | [] => .det (M.lift .hang)
  | .bad :: rest => anyLoop net rest
  | .line text :: rest =>
    if text = c!"exit" then .det (M.pure ())
    else if (trim text).isEmpty then anyLoop net rest
    else .bind (anyText net text) fun _ => anyLoop net rest

end Am
