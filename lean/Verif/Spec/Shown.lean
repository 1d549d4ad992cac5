import Verif.Model.Command
/-!
# What a run turns into text

The iteration order of hash maps is not fixed by the language and changes from run to run. It can show only where a value is turned into text. The
functions below list the values a run turns into text: holes of messages, keys of maps, arguments of `print`, `println` and `format`, operands of
asserts, the value shown at the end, and values named in error messages.
-/
namespace Am.Spec
open Am
variable {F : Type}

/-- The runtime with another iteration order of hash maps. -/
abbrev reordered (i : Rt F) (o : List (Str × Str) → List (Str × Str)) : Rt F := { i with order := o }

/-- An iteration order visits every entry once. -/
def Visits (o : List (Str × Str) → List (Str × Str)) : Prop := ∀ l, (o l).Perm l

/-- A value in which no map has more than one entry. -/
inductive OneWay : Value F → Prop
  | null : OneWay .null
  | int (n : Int64) : OneWay (.int n)
  | float (f : F) : OneWay (.float f)
  | bool (b : Bool) : OneWay (.bool b)
  | str (s : Str) : OneWay (.str s)
  | arr (items : List (Value F)) : (∀ v ∈ items, OneWay v) → OneWay (.arr items)
  | none : OneWay (.map [])
  | one (k : Str) (v : Value F) : OneWay v → OneWay (.map [(k, v)])

/-- What is turned into text after `m`, if it gives a value. -/
def after {α : Type} (m : M F α) (f : α → St F → List (Value F)) (s : St F) : List (Value F) :=
  match m s with
  | (.ok a, t) => f a t
  | _ => []

variable [Rt F]

/-- What an error message of an operation names. -/
def named {α : Type} (r : Res α) (vs : List (Value F)) : List (Value F) :=
  match r with
  | .err _ => vs
  | _ => []

/-- Indexing: the key of a map. -/
def shownIndex : Value F → Value F → List (Value F)
  | .map _, k => [k]
  | v, k => named (indexValue v k) [v]

mutual
/-- What evaluating an expression turns into text; `call` is how calls behave, `shows` what they turn into text. -/
def shownExpr (call : Call F) (shows : Str → List (Value F) → St F → List (Value F)) : Expr F → St F → List (Value F)
  | .arr items => shownList call shows items
  | .map pairs => shownPairs call shows pairs
  | .index l j => fun s => shownExpr call shows l s ++ after (evalExpr call l) (fun v s =>
      shownExpr call shows j s ++ after (evalExpr call j) (fun k _ => shownIndex v k) s) s
  | .field l n => fun s => shownExpr call shows l s ++ after (evalExpr call l) (fun v _ => named (fieldValue v n) [v]) s
  | .letE _ e => shownExpr call shows e
  | .unary t e => fun s => shownExpr call shows e s ++ after (evalExpr call e) (fun v _ => named (unaryValue t v) [v]) s
  | .binary t l r => fun s => shownExpr call shows l s ++ after (evalExpr call l) (fun a s =>
      match binaryOp t.kind with
      | some op => shownExpr call shows r s ++ after (evalExpr call r) (fun b _ => named (op a b) [a, b]) s
      | none => if (t.kind = .Lo ∧ a.falsy = true) ∨ (t.kind = .La ∧ a.falsy = false) then shownExpr call shows r s else []) s
  | .paren e => shownExpr call shows e
  | .ifE c t e => fun s => shownExpr call shows c s ++ after (evalExpr call c) (fun v s =>
      if v.falsy then shownBlock call shows e s else shownBlock call shows t s) s
  | .call f args => fun s => shownList call shows args s ++ after (evalList call args) (fun vs s => shows f vs s) s
  | _ => fun _ => []
termination_by structural e => e
/-- The same for the expressions of a list. -/
def shownList (call : Call F) (shows : Str → List (Value F) → St F → List (Value F)) : List (Expr F) → St F → List (Value F)
  | [] => fun _ => []
  | e :: l => fun s => shownExpr call shows e s ++ after (evalExpr call e) (fun _ s => shownList call shows l s) s
termination_by structural l => l
/-- The same for the pairs of a map literal; the keys are turned into text. -/
def shownPairs (call : Call F) (shows : Str → List (Value F) → St F → List (Value F)) : List (Expr F × Expr F) → St F → List (Value F)
  | [] => fun _ => []
  | (k, v) :: l => fun s => shownExpr call shows k s ++ after (evalExpr call k) (fun a s => a :: (shownExpr call shows v s ++
      after (evalExpr call v) (fun _ s => shownPairs call shows l s) s)) s
termination_by structural l => l
/-- The same for a block. -/
def shownBlock (call : Call F) (shows : Str → List (Value F) → St F → List (Value F)) : List (Expr F) → St F → List (Value F)
  | [] => fun _ => []
  | e :: l => fun s => shownExpr call shows e s ++ after (evalExpr call e) (fun _ s => shownBlock call shows l s) s
termination_by structural l => l
end

/-- A call that names no request: the arguments of `print`, `println` and `format`. (`length` names in its error messages only values that are no
maps or arrays.) -/
def shownNative (name : Str) (args : List (Value F)) : List (Value F) := if name ∈ [c!"print", c!"println", c!"format"] then args else []

mutual
/-- The keys of the maps in a JSON body; a key that is no string is turned into text. -/
def shownKeys : Expr F → List (Value F)
  | .arr items => shownKeysList items
  | .map pairs => shownKeysPairs pairs
  | _ => []
termination_by structural e => e
/-- The same for a list. -/
def shownKeysList : List (Expr F) → List (Value F)
  | [] => []
  | e :: l => shownKeys e ++ shownKeysList l
termination_by structural l => l
/-- The same for the pairs of a map. -/
def shownKeysPairs : List (Expr F × Expr F) → List (Value F)
  | [] => []
  | (k, v) :: l => k.eval :: (shownKeys k ++ shownKeys v ++ shownKeysPairs l)
termination_by structural l => l
end

/-- The keys of the maps in the first expression of a body. -/
def shownBody (body : Str) : List (Value F) :=
  match (parse body : Res (Source F)) with
  | .ok src =>
    match src.exprs with
    | e :: _ => shownKeys e
    | [] => []
  | _ => []

/-- The asserts of a request: both operands of every comparison. -/
def shownAsserts (call : Call F) (shows : Str → List (Value F) → St F → List (Value F)) : List (Expr F) → St F → List (Value F)
  | [] => fun _ => []
  | .binary t l r :: rest => fun s => shownExpr call shows l s ++ after ((evalExpr call l).orElse .null) (fun a s =>
      shownExpr call shows r s ++ after ((evalExpr call r).orElse .null) (fun b s =>
        (if (compareValues t.kind a b).isSome then [a, b] else []) ++ shownAsserts call shows rest s) s) s
  | _ :: rest => shownAsserts call shows rest

/-- A call that names a request: the values in the holes of its message, the keys in the body of the answer, and what its asserts show. -/
def shownRequest (net : Net) (call : Call F) (shows : Str → List (Value F) → St F → List (Value F)) (message : Str) (asserts : List (Expr F)) (s : St F) :
    List (Value F) :=
  (findTemplates message).filterMap (fun m => s.ctx.get m.1) ++
  match send net s.sent (render s.ctx message) with
  | .ok (_, response, _, _) => shownBody response.body ++
    match response.toMap (F := F) with
    | .ok map => shownAsserts call shows asserts ⟨Context.ofMap map, s.sent ++ [render s.ctx message], s.out⟩
    | _ => []
  | _ => []

/-- Calls; the first number bounds how deep requests nest, as in `callAt`. -/
def shownCall (net : Net) : Nat → Str → List (Value F) → St F → List (Value F)
  | 0, name, args => fun _ => shownNative name args
  | n + 1, name, args => fun s =>
    match s.ctx.request name with
    | some (message, asserts) => shownRequest net (callAt net n) (shownCall net n) message asserts s
    | none => shownNative name args

/-- Everything a run of a block turns into text. -/
def shownRun (net : Net) (es : List (Expr F)) (s : St F) : List (Value F) := shownBlock (callAt net 1) (shownCall net 1) es s

/-- Everything `am eval` turns into text: also the value of the script. -/
def shownText (net : Net) (text : Str) (s : St F) : List (Value F) :=
  match (parse text : Res (Source F)) with
  | .ok src =>
    let t := { s with ctx := s.ctx.extend src.requests }
    shownRun net src.exprs t ++ after (runBlock net src.exprs) (fun v _ => [v]) t
  | _ => []

/-- Everything a session turns into text. -/
def shownSession (net : Net) : List Input → St F → List (Value F)
  | [] => fun _ => []
  | .bad :: rest => shownSession net rest
  | .line text :: rest => fun s =>
    if text = c!"exit" then []
    else if (trim text).isEmpty then shownSession net rest s
    else shownText net text s ++ after (evalText net text) (fun _ t => shownSession net rest t) s

end Am.Spec
