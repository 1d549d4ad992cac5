import Verif.Model.Basic
/-! # Shared specification vocabulary -/
namespace Am.Spec
open Am

/-- The value of a decimal digit string: each digit times the power of ten of its position. -/
def decimal : Str → Nat
  | [] => 0
  | c :: r => (c.toNat - 48) * 10 ^ r.length + decimal r

/-- The texts of the integers from -2^63 to 2^63-1: decimal digits, possibly with a sign in front. -/
inductive IntText : Str → Int → Prop
  | digits (ds : Str) : ds ≠ [] → (∀ c ∈ ds, isDigit c = true) → decimal ds < 2 ^ 63 → IntText ds (decimal ds)
  | plus (ds : Str) : ds ≠ [] → (∀ c ∈ ds, isDigit c = true) → decimal ds < 2 ^ 63 → IntText ('+' :: ds) (decimal ds)
  | minus (ds : Str) : ds ≠ [] → (∀ c ∈ ds, isDigit c = true) → decimal ds ≤ 2 ^ 63 → IntText ('-' :: ds) (-(decimal ds : Int))

/-- Lexicographic order of code points. -/
inductive TextLt : Str → Str → Prop
  | nil {b : Char} {r : Str} : TextLt [] (b :: r)
  | head {a b : Char} {l r : Str} : a.toNat < b.toNat → TextLt (a :: l) (b :: r)
  | tail {a : Char} {l r : Str} : TextLt l r → TextLt (a :: l) (a :: r)

end Am.Spec
