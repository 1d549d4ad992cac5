import Verif.Model.AnyOrder
import Verif.Spec.Finding
/-! # What a message looks like when hash maps list their entries in any order (C127, C128) -/
namespace Am.Spec
open Am
variable {F : Type} [Rt F]

/-- `m` consists of the pieces, with every placeholder replaced by a text of the value of its variable, chosen anew for every placeholder. -/
inductive FilledAs (value : Str → Value F) : List Piece → Str → Prop
  | nil : FilledAs value [] []
  | lit {c : Char} {ps : List Piece} {m : Str} : FilledAs value ps m → FilledAs value (.lit c :: ps) (c :: m)
  | hole {name t m : Str} {ps : List Piece} : ShownAs (value name) t → FilledAs value ps m → FilledAs value (.hole name :: ps) (t ++ m)

/-- `m` is the template of a request of `table`, with every placeholder replaced by a text of a variable that has a value. -/
def AnyFilledIn (table : List (Str × (Str × List (Expr F)))) (m : Str) : Prop :=
  ∃ name template asserts ps, amGet name table = some (template, asserts) ∧ Pieces template ps ∧
    ∃ value : Str → Option (Value F), (∀ x, Piece.hole x ∈ ps → value x ≠ none) ∧ FilledAs (fun x => (value x).getD .null) ps m

end Am.Spec
