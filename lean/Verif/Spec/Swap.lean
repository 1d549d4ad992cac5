import Verif.Spec.Flow
import Verif.Spec.Joining
/-!
# Statements that do not depend on each other (C111)
-/
namespace Am.Spec
open Am
variable {F : Type}

/-- The statements call no request and do not print. -/
def QuietIn (table : List (Str × (Str × List (Expr F)))) (b : List (Expr F)) : Prop :=
  ∀ f ∈ calledList b, amGet f table = none ∧ f ≠ c!"print" ∧ f ≠ c!"println"

/-- Neither part reads a variable that the other one may set, they set no common variable, and the second one sends and prints nothing. Calling
a request reads the variables of its template. -/
structure NoInfluence (table : List (Str × (Str × List (Expr F)))) (a b : List (Expr F)) : Prop where
  left : KnownList table (fun x => x ∉ letsList b) a
  right : KnownList table (fun x => x ∉ letsList a) b
  sets : ∀ x ∈ letsList a, x ∉ letsList b
  quiet : QuietIn table b

end Am.Spec
