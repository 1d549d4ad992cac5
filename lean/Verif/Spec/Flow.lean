import Verif.Spec.Eval
import Verif.Spec.Template
/-!
# Which variables a piece of script reads before it sets them

`sure e` are the variables that certainly have been set by a `let` in `e` once `e` has a value. `KnownIn table D e` says that evaluating `e`, in a
context with the requests of `table`, reads no variable but those of `D` and those it has certainly set before. The template of a called request
counts: calling the request reads the variables of its placeholders.
-/
namespace Am.Spec
open Am
variable {F : Type}

/-- The variables of `D` and those of `l`. -/
def more (D : Str → Prop) (l : List Str) : Str → Prop := fun x => D x ∨ x ∈ l

mutual
/-- The variables certainly set once the expression has a value. The second operand of `&&` and `||` may be skipped; of an `if` one branch is taken. -/
def sure : Expr F → List Str
  | .int _ | .float _ | .bool _ | .str _ | .ident _ => []
  | .arr items => sureList items
  | .map pairs => surePairs pairs
  | .index l i => sure l ++ sure i
  | .field l _ => sure l
  | .letE n v => n :: sure v
  | .unary _ r => sure r
  | .binary t l r => if t.kind = .La ∨ t.kind = .Lo then sure l else sure l ++ sure r
  | .paren v => sure v
  | .ifE c t e => sure c ++ (sureList t).filter (fun x => decide (x ∈ sureList e))
  | .call _ args => sureList args
termination_by structural e => e
/-- The variables certainly set once all expressions of a list have a value. -/
def sureList : List (Expr F) → List Str
  | [] => []
  | e :: l => sure e ++ sureList l
termination_by structural l => l
/-- The variables certainly set once the pairs of a map literal have values. -/
def surePairs : List (Expr F × Expr F) → List Str
  | [] => []
  | (k, v) :: l => sure k ++ (sure v ++ surePairs l)
termination_by structural l => l
end

/-- Calling `f` reads only variables of `D`: if it is a request, those named by the placeholders of its template. -/
def KnownCall (table : List (Str × (Str × List (Expr F)))) (D : Str → Prop) (f : Str) : Prop :=
  ∀ message asserts ps x, amGet f table = some (message, asserts) → Pieces message ps → Piece.hole x ∈ ps → D x

mutual
/-- Every variable the expression reads is one of `D` or has certainly been set before. -/
def KnownIn (table : List (Str × (Str × List (Expr F)))) (D : Str → Prop) : Expr F → Prop
  | .int _ | .float _ | .bool _ | .str _ => True
  | .ident n => D n
  | .arr items => KnownList table D items
  | .map pairs => KnownPairs table D pairs
  | .index l i => KnownIn table D l ∧ KnownIn table (more D (sure l)) i
  | .field l _ => KnownIn table D l
  | .letE _ v => KnownIn table D v
  | .unary _ r => KnownIn table D r
  | .binary _ l r => KnownIn table D l ∧ KnownIn table (more D (sure l)) r
  | .paren v => KnownIn table D v
  | .ifE c t e => KnownIn table D c ∧ KnownList table (more D (sure c)) t ∧ KnownList table (more D (sure c)) e
  | .call f args => KnownList table D args ∧ KnownCall table (more D (sureList args)) f
termination_by structural e => e
/-- The same for expressions evaluated one after the other. -/
def KnownList (table : List (Str × (Str × List (Expr F)))) (D : Str → Prop) : List (Expr F) → Prop
  | [] => True
  | e :: l => KnownIn table D e ∧ KnownList table (more D (sure e)) l
termination_by structural l => l
/-- The same for the pairs of a map literal. -/
def KnownPairs (table : List (Str × (Str × List (Expr F)))) (D : Str → Prop) : List (Expr F × Expr F) → Prop
  | [] => True
  | (k, v) :: l => KnownIn table D k ∧ KnownIn table (more D (sure k)) v ∧ KnownPairs table (more (more D (sure k)) (sure v)) l
termination_by structural l => l
end

/-- Two states that differ at most in the variables outside `D`. -/
structure Alike (D : Str → Prop) (s t : St F) : Prop where
  requests : s.ctx.requests = t.ctx.requests
  records : s.ctx.records = t.ctx.records
  sent : s.sent = t.sent
  out : s.out = t.out
  vars : ∀ x, D x → s.ctx.get x = t.ctx.get x

end Am.Spec
