import Verif.Spec.Flow
import Verif.Spec.Joining
import Verif.Spec.Semantics
/-!
# Names that are defined (C128)
-/
namespace Am.Spec
open Am
variable {F : Type}

/-- Every name that the statements call is a request of `table` or a built-in function. -/
def CallsKnown (table : List (Str × (Str × List (Expr F)))) (b : List (Expr F)) : Prop :=
  ∀ f ∈ calledList b, amGet f table ≠ none ∨ f ∈ builtins

/-- The errors for a variable or a function that does not exist. -/
def NameError (e : Str) : Prop := ∃ n, e = c!"ident:" ++ n ++ c!" not found" ∨ e = c!"function " ++ n ++ c!" not found"

/-- The variables of `D` have values. -/
def HaveValues (D : Str → Prop) (s : St F) : Prop := ∀ x, D x → s.ctx.get x ≠ none

/-- `m` is the template of a request of `table`, with every placeholder replaced by the text of a variable that has a value. -/
def FilledIn [Rt F] (table : List (Str × (Str × List (Expr F)))) (m : Str) : Prop :=
  ∃ name template asserts ps, amGet name table = some (template, asserts) ∧ Pieces template ps ∧
    ∃ value : Str → Option (Value F), (∀ x, Piece.hole x ∈ ps → value x ≠ none) ∧
      m = fillBy (fun x => match value x with | some v => v.display | none => c!"null") ps

mutual
/-- Every part of the expression is evaluated whenever the expression has a value: no `if`, no `&&` and no `||`. -/
def Unbranched : Expr F → Prop
  | .int _ | .float _ | .bool _ | .str _ | .ident _ => True
  | .arr items => UnbranchedList items
  | .map pairs => UnbranchedPairs pairs
  | .index l i => Unbranched l ∧ Unbranched i
  | .field l _ => Unbranched l
  | .letE _ v => Unbranched v
  | .unary _ r => Unbranched r
  | .binary t l r => t.kind ≠ .La ∧ t.kind ≠ .Lo ∧ Unbranched l ∧ Unbranched r
  | .paren v => Unbranched v
  | .ifE _ _ _ => False
  | .call _ args => UnbranchedList args
termination_by structural e => e
/-- The same for a list. -/
def UnbranchedList : List (Expr F) → Prop
  | [] => True
  | e :: l => Unbranched e ∧ UnbranchedList l
termination_by structural l => l
/-- The same for the pairs of a map literal. -/
def UnbranchedPairs : List (Expr F × Expr F) → Prop
  | [] => True
  | (k, v) :: l => Unbranched k ∧ Unbranched v ∧ UnbranchedPairs l
termination_by structural l => l
end

end Am.Spec
