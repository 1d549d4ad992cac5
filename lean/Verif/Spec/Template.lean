import Verif.Model.Basic
/-!
# What placeholders in a text are

A placeholder is `{name}`, where white space is allowed between the braces and the name and a name is an ASCII letter or underscore
followed by ASCII letters, digits and underscores. Text is cut into placeholders and other characters.
-/
namespace Am.Spec
open Am

/-- `h` is a placeholder for `name`. -/
def IsHole (h name : Str) : Prop :=
  ∃ before after first rest, h = '{' :: (before ++ (first :: rest) ++ after ++ ['}']) ∧ name = first :: rest ∧
    (∀ c ∈ before, isWs c = true) ∧ (∀ c ∈ after, isWs c = true) ∧ isWordStart first = true ∧ (∀ c ∈ rest, isWordChar c = true)

/-- One piece of a text. -/
inductive Piece where
  | lit (c : Char)
  | hole (name : Str)
  deriving DecidableEq, Repr

/-- The text `s` consists of these pieces: placeholders wherever there is one, single characters elsewhere. -/
inductive Pieces : Str → List Piece → Prop
  | nil : Pieces [] []
  | hole {h name rest : Str} {ps : List Piece} : IsHole h name → Pieces rest ps → Pieces (h ++ rest) (.hole name :: ps)
  | lit {c : Char} {rest : Str} {ps : List Piece} :
      (∀ h name tail, IsHole h name → c :: rest ≠ h ++ tail) → Pieces rest ps → Pieces (c :: rest) (.lit c :: ps)

/-- Replace every placeholder by the text of its name. -/
def fillBy (text : Str → Str) : List Piece → Str
  | [] => []
  | .lit c :: ps => c :: fillBy text ps
  | .hole n :: ps => text n ++ fillBy text ps

/-- Number of placeholders. -/
def holes : List Piece → Nat
  | [] => 0
  | .lit _ :: ps => holes ps
  | .hole _ :: ps => holes ps + 1

/-- Replace the placeholders by the given texts in order. -/
def fillWith : List Piece → List Str → Str
  | [], _ => []
  | .lit c :: ps, ts => c :: fillWith ps ts
  | .hole _ :: ps, t :: ts => t ++ fillWith ps ts
  | .hole _ :: ps, [] => fillWith ps []

end Am.Spec
