import Verif.Model.Stdin
import Verif.Spec.Silent
/-! # C101: the lines of the standard input -/
namespace Am.Spec
open Am

/-- What a line is read as: its text, or nothing when it is not UTF-8. -/
inductive LineReads : List UInt8 → Input → Prop where
  | text (s : Str) : LineReads (utf8 s) (.line s)
  | bad (l : List UInt8) : NotText l → LineReads l .bad

/-- The lines of an input: each ends with a line feed, or with a carriage return and a line feed; the last one may end with the input. -/
inductive InputLines : List UInt8 → List Input → Prop where
  | none : InputLines [] []
  | last (l : List UInt8) (i : Input) : l ≠ [] → 10 ∉ l → LineReads l i → InputLines l [i]
  | lf (l rest : List UInt8) (i : Input) (is : List Input) : 10 ∉ l → l.getLast? ≠ some 13 → LineReads l i → InputLines rest is →
      InputLines (l ++ 10 :: rest) (i :: is)
  | crlf (l rest : List UInt8) (i : Input) (is : List Input) : 10 ∉ l → LineReads l i → InputLines rest is → InputLines (l ++ 13 :: 10 :: rest) (i :: is)

/-- Lines written one after the other, each with either kind of line end. -/
def typed : List (Str × Bool) → Str
  | [] => []
  | (l, crlf) :: rest => l ++ (if crlf then c!"\r\n" else c!"\n") ++ typed rest

/-- A text of one line. -/
def OneLine (s : Str) : Prop := '\n' ∉ s

/-- No request definition spans lines. -/
def OneLineRequests {F : Type} (table : List (Str × (Str × List (Expr F)))) : Prop := ∀ name message asserts, amGet name table = some (message, asserts) → OneLine message

end Am.Spec
