import Verif.Model.Evaluator
/-!
# lib/src/evaluator.rs with its steps counted

The same functions as in `Model/Evaluator.lean`, in a monad that also counts steps. A step is a call of `eval_expr` (evaluator.rs:12) or an
iteration of one of the loops of the evaluator (lines 54, 186, 236 and 244). What a step does besides is work on values, whose size C104 is
about, and an exchange, whose time is not counted. `Props/EvalSteps.lean` proves that the results are those of `Model/Evaluator.lean`.
-/
namespace Am

/-- Like `M`, with the number of steps. -/
def MC (F α : Type) := St F → (Res α × St F) × Nat

namespace MC
variable {F : Type}

/-- A value, without a step. -/
def pure {α : Type} (a : α) : MC F α := fun s => ((.ok a, s), 0)

/-- The `?` operator; steps add up. -/
def bind {α β : Type} (m : MC F α) (f : α → MC F β) : MC F β := fun s =>
  match m s with
  | ((.ok a, s), n) => ((f a s).1, n + (f a s).2)
  | ((.err e, s), n) => ((.err e, s), n)
  | ((.panic, s), n) => ((.panic, s), n)
  | ((.hang, s), n) => ((.hang, s), n)

instance : Monad (MC F) where
  pure := pure
  bind := bind

/-- A computation that takes no step. -/
def free {α : Type} (m : M F α) : MC F α := fun s => (m s, 0)

/-- One step. -/
def tick : MC F Unit := fun s => ((.ok (), s), 1)

/-- `.unwrap_or(d)` (evaluator.rs:191-192). -/
def orElse {α : Type} (m : MC F α) (d : α) : MC F α := fun s =>
  match m s with
  | ((.err _, s), n) => ((.ok d, s), n)
  | r => r

end MC

variable {F : Type} [Rt F]

/-- How a call behaves, counted. -/
abbrev CallC (F : Type) := Str → List (Value F) → MC F (Value F)

/-- evaluator.rs:101-106: reading a variable. -/
def tident (n : Str) : MC F (Value F) := MC.free fun s =>
  match s.ctx.get n with
  | some v => (.ok v, s)
  | none => (.err (c!"ident:" ++ n ++ c!" not found"), s)

mutual
/-- evaluator.rs:12-30 `eval_expr` with the functions it dispatches to. -/
def tevalExpr (call : CallC F) : Expr F → MC F (Value F)
  | .int i => do MC.tick; pure (.int i)
  | .float f => do MC.tick; pure (.float f)
  | .bool b => do MC.tick; pure (.bool b)
  | .str s => do MC.tick; pure (.str s)
  | .arr items => do
    MC.tick
    let vs ← tevalList call items
    pure (.arr vs)
  | .map pairs => do
    MC.tick
    let m ← tevalPairs call [] pairs
    pure (.map m)
  | .index l i => do
    MC.tick
    let v ← tevalExpr call l
    let i ← tevalExpr call i
    MC.free (M.lift (indexValue v i))
  | .field l n => do
    MC.tick
    let v ← tevalExpr call l
    MC.free (M.lift (fieldValue v n))
  | .ident n => do MC.tick; tident n
  | .letE n e => do
    MC.tick
    let v ← tevalExpr call e
    MC.free (M.modify fun s => { s with ctx := s.ctx.set n v })
    pure v
  | .unary t r => do
    MC.tick
    let v ← tevalExpr call r
    MC.free (M.lift (unaryValue t v))
  | .binary t l r => do
    MC.tick
    match binaryOp (F := F) t.kind with
    | some op => do
      let a ← tevalExpr call l
      let b ← tevalExpr call r
      MC.free (M.lift (op a b))
    | none =>
      if t.kind = .Lo then do
        let a ← tevalExpr call l
        if a.falsy then tevalExpr call r else pure a
      else if t.kind = .La then do
        let a ← tevalExpr call l
        if a.falsy then pure a else tevalExpr call r
      else MC.free (M.lift (.err (c!"not support operator: " ++ l.display ++ c!" " ++ t.literal ++ c!" " ++ r.display)))
  | .paren e => do
    MC.tick
    tevalExpr call e
  | .ifE c t e => do
    MC.tick
    let v ← tevalExpr call c
    if v.falsy then tevalBlock call .null e else tevalBlock call .null t
  | .call f args => do
    MC.tick
    let vs ← tevalList call args
    call f vs
termination_by structural e => e
/-- evaluator.rs:242-248 `eval_list`. -/
def tevalList (call : CallC F) : List (Expr F) → MC F (List (Value F))
  | [] => pure []
  | e :: l => do
    MC.tick
    let v ← tevalExpr call e
    let vs ← tevalList call l
    pure (v :: vs)
termination_by structural l => l
/-- evaluator.rs:52-60 `eval_map_literal`'s loop. -/
def tevalPairs (call : CallC F) (acc : List (Str × Value F)) : List (Expr F × Expr F) → MC F (List (Str × Value F))
  | [] => pure acc
  | (k, v) :: l => do
    MC.tick
    let k ← tevalExpr call k
    let v ← tevalExpr call v
    tevalPairs call (amInsert k.display v acc) l
termination_by structural l => l
/-- evaluator.rs:234-240 `eval_block`'s loop. -/
def tevalBlock (call : CallC F) (acc : Value F) : List (Expr F) → MC F (Value F)
  | [] => pure acc
  | e :: l => do
    MC.tick
    let v ← tevalExpr call e
    tevalBlock call v l
termination_by structural l => l
end

/-- evaluator.rs:186-212: the asserts. -/
def tevalAsserts (call : CallC F) : List (Expr F) → MC F (List Assert)
  | [] => pure []
  | .binary t l r :: rest => do
    MC.tick
    let a ← (tevalExpr call l).orElse .null
    let b ← (tevalExpr call r).orElse .null
    let as ← tevalAsserts call rest
    match compareValues t.kind a b with
    | some result =>
      pure (⟨l.display ++ c!" " ++ t.literal ++ c!" " ++ r.display, a.display, t.literal, b.display, result⟩ :: as)
    | none => pure as
  | _ :: rest => do
    MC.tick
    tevalAsserts call rest

/-- evaluator.rs:185 and 216-220: work in the local context. -/
def tinLocal {α : Type} (map : List (Str × Value F)) (m : MC F α) : MC F (α × List (Str × Value F)) := fun s =>
  let r := m { s with ctx := Context.ofMap map }
  (match r.1 with
    | (.ok a, s') => (.ok (a, s'.ctx.inner), { s' with ctx := s.ctx })
    | (.err e, s') => (.err e, { s' with ctx := s.ctx })
    | (.panic, s') => (.panic, { s' with ctx := s.ctx })
    | (.hang, s') => (.hang, { s' with ctx := s.ctx }), r.2)

/-- evaluator.rs:167-222: a call that names a request. -/
def tcallRequest (net : Net) (call : CallC F) (name : Str) (message : Str) (asserts : List (Expr F)) : MC F (Value F) := do
  let s ← MC.free M.get
  let text := render s.ctx message
  MC.free (M.modify fun s => { s with sent := s.sent ++ [text] })
  let (request, response, time, error) ← MC.free (M.lift (send net s.sent text))
  let map ← MC.free (M.lift (response.toMap (F := F)))
  let (as, inner) ← tinLocal map (tevalAsserts call asserts)
  MC.free (M.modify fun s => { s with ctx := s.ctx.push ⟨name, time, request, response, as, error⟩ })
  pure (.map inner)

/-- evaluator.rs:166-231: a call with evaluated arguments; the number bounds the nesting of requests, as in `callAt`. -/
def tcallAt (net : Net) : Nat → CallC F
  | 0, name, args => fun s =>
    match s.ctx.request name with
    | some _ => ((.hang, s), 0)
    | none => (callNative name args s, 0)
  | n + 1, name, args => fun s =>
    match s.ctx.request name with
    | some (message, asserts) => tcallRequest net (tcallAt net n) name message asserts s
    | none => (callNative name args s, 0)

/-- evaluator.rs:234 `eval_block`. -/
def trunBlock (net : Net) (es : List (Expr F)) : MC F (Value F) := tevalBlock (tcallAt net 1) .null es

end Am
