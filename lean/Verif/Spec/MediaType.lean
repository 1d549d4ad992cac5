import Verif.Spec.HeaderCase
import Verif.Spec.Multipart
/-! # Media types (RFC 9110, 8.3.1: type and subtype are case-insensitive; parameters may follow) -/
namespace Am.Spec
open Am

/-- The value of a `Content-Type` header names the media type: type and subtype in any letter case, then the end, or optional blanks, a semicolon and
anything. -/
def NamesMedia (type v : Str) : Prop :=
  ∃ t gap ps, v = t ++ gap ++ ps ∧ SameLetters t type ∧ (∀ c ∈ gap, ows c = true) ∧ (ps = [] ∨ ∃ r, ps = ';' :: r)

/-- The media type of form bodies. -/
def formType : Str := c!"application/x-www-form-urlencoded"

/-- The media type of multipart bodies. -/
def multipartType : Str := c!"multipart/form-data"

end Am.Spec
