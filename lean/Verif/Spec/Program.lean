import Verif.Spec.Accepts
import Verif.Spec.Semantics
import Verif.Spec.Grammar
import Verif.Spec.Lexer
import Verif.Spec.Run
/-! # What a program given as text does -/
namespace Am.Spec
open Am
variable {F : Type} [Rt F]

/-- The text is a program of the published grammar with the given items: it is laid out as tokens, and the tokens are those of the items. -/
def ProgramText (text : Str) (items : List (Item F)) : Prop := ∃ closed tokens, Layout closed text tokens ∧ WritesSource items tokens

/-- The text is a program of the accepted language (Spec/Accepts), which is larger than the published grammar, with the given items. -/
def Accepted (text : Str) (items : List (Item F)) : Prop := ∃ closed tokens, Layout closed text tokens ∧ Program tokens items

/-- The table of requests with the items' requests added: a later definition replaces an earlier one. -/
def addRequests : List (Item F) → List (Str × (Str × List (Expr F))) → List (Str × (Str × List (Expr F)))
  | [], table => table
  | .request n m as :: items, table => addRequests items (amInsert n (m, as) table)
  | _ :: items, table => addRequests items table

/-- What is shown of an outcome: the value or the error message on a line of its own. -/
inductive Shows : Res (Value F) → Str → Res Unit → Prop
  | value (v : Value F) : Shows (.ok v) (v.display ++ c!"\n") (.ok ())
  | error (e : Str) : Shows (.err e) (e ++ c!"\n") (.ok ())
  | crash : Shows .panic [] .panic
  | endless : Shows .hang [] .hang

end Am.Spec
