import Verif.Model.Token
import Verif.Model.Value
/-! # lib/src/syntax.rs -/
namespace Am

/-- syntax.rs:10-31 `enum Expr`. -/
inductive Expr (F : Type) where
  | int (i : Int64)
  | float (f : F)
  | bool (b : Bool)
  | str (s : Str)
  | arr (items : List (Expr F))
  | map (pairs : List (Expr F × Expr F))
  | index (left index : Expr F)
  | field (left : Expr F) (name : Str)
  | ident (name : Str)
  | letE (name : Str) (value : Expr F)
  | unary (op : Token) (right : Expr F)
  | binary (op : Token) (left right : Expr F)
  | paren (value : Expr F)
  | ifE (cond : Expr F) (cons alt : List (Expr F))
  | call (name : Str) (args : List (Expr F))

variable {F : Type} [Rt F]

mutual
/-- syntax.rs:33-50 `Expr::eval`: the value of a literal expression (used for JSON bodies); everything else is `Null`. -/
def Expr.eval : Expr F → Value F
  | .int i => .int i
  | .float f => .float f
  | .bool b => .bool b
  | .str s => .str s
  | .arr items => .arr (Expr.evalItems items)
  | .map pairs => .map (Expr.evalPairs [] pairs)
  | _ => .null
termination_by structural e => e
/-- syntax.rs:40 `items.iter().map(|e| e.eval()).collect()`. -/
def Expr.evalItems : List (Expr F) → List (Value F)
  | [] => []
  | e :: l => e.eval :: Expr.evalItems l
termination_by structural l => l
/-- syntax.rs:41-46: collect into a `HashMap`, later pairs replacing earlier ones. -/
def Expr.evalPairs (acc : List (Str × Value F)) : List (Expr F × Expr F) → List (Str × Value F)
  | [] => acc
  | (k, v) :: l => Expr.evalPairs (amInsert k.eval.display v.eval acc) l
termination_by structural l => l
end

mutual
/-- syntax.rs:69-99 `Display for Expr`. -/
def Expr.display : Expr F → Str
  | .int i => intStr i.toInt
  | .float f => Rt.fdisp f
  | .bool b => boolStr b
  | .str s => c!"\"" ++ s ++ c!"\""
  | .ident n => n
  | .arr items => c!"[" ++ joinStr c!", " (Expr.displayList items) ++ c!"]"
  | .map pairs => c!"{" ++ joinStr c!", " (Expr.displayPairs pairs) ++ c!"}"
  | .index l i => l.display ++ c!"[" ++ i.display ++ c!"]"
  | .field l n => l.display ++ c!"." ++ n
  | .letE n v => c!"let " ++ n ++ c!" = " ++ v.display
  | .unary t r => t.literal ++ r.display
  | .binary t l r => l.display ++ c!" " ++ t.literal ++ c!" " ++ r.display
  | .paren v => c!"(" ++ v.display ++ c!")"
  | .ifE c t e =>
    c!"if (" ++ c.display ++ c!") { " ++ joinStr c!";" (Expr.displayList t) ++
      (if e.isEmpty then [] else c!"} else { " ++ joinStr c!";" (Expr.displayList e)) ++ c!" }"
  | .call f args => f ++ c!"(" ++ joinStr c!", " (Expr.displayList args) ++ c!")"
termination_by structural e => e
/-- syntax.rs:52-67 `join!` over expressions: the texts joined. -/
def Expr.displayList : List (Expr F) → List Str
  | [] => []
  | e :: l => e.display :: Expr.displayList l
termination_by structural l => l
/-- syntax.rs:60-66 `join!` over pairs. -/
def Expr.displayPairs : List (Expr F × Expr F) → List Str
  | [] => []
  | (k, v) :: l => (k.display ++ c!": " ++ v.display) :: Expr.displayPairs l
termination_by structural l => l
end

mutual
/-- syntax.rs:101-113 `Debug for Expr`: like `Display` with parentheses around index, unary and binary nodes. -/
def Expr.debug : Expr F → Str
  | .index l i => c!"(" ++ l.debug ++ c!"[" ++ i.debug ++ c!"])"
  | .unary t r => c!"(" ++ t.literal ++ r.debug ++ c!")"
  | .binary t l r => c!"(" ++ l.debug ++ c!" " ++ t.literal ++ c!" " ++ r.debug ++ c!")"
  | .call f args => f ++ c!"(" ++ joinStr c!", " (Expr.debugList args) ++ c!")"
  | e => e.display
termination_by structural e => e
/-- `join!(arguments, "{:?}", ", ")`, the texts joined. -/
def Expr.debugList : List (Expr F) → List Str
  | [] => []
  | e :: l => e.debug :: Expr.debugList l
termination_by structural l => l
end

end Am
