import Verif.Spec.Message
/-! # Multipart requests -/
namespace Am.Spec
open Am

/-- The parts written in the lines of a multipart body: name and value are the trimmed texts before and after the first colon; a value that begins with `@`
names a file; lines without a colon are ignored. -/
inductive PartLines : List Str → List Part → Prop
  | nil : PartLines [] []
  | skip (l : Str) (r : List Str) (ps : List Part) : ':' ∉ l → PartLines r ps → PartLines (l :: r) ps
  | text (n v name value : Str) (r : List Str) (ps : List Part) : ':' ∉ n → Trims n name → Trims v value → (∀ p, value ≠ '@' :: p) → PartLines r ps →
      PartLines ((n ++ ':' :: v) :: r) (.text name value :: ps)
  | file (n v name path : Str) (r : List Str) (ps : List Part) : ':' ∉ n → Trims n name → Trims v ('@' :: path) → PartLines r ps →
      PartLines ((n ++ ':' :: v) :: r) (.file name path :: ps)

/-- RFC 2046, 5.1.1: a content type that tells which boundary separates the parts. -/
def NamesBoundary (v : Str) : Prop := ∃ a b, v = a ++ c!"boundary=" ++ b

end Am.Spec
