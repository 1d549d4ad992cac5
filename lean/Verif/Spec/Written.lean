import Verif.Model.Value
import Verif.Spec.Basic
/-! # How values are written -/
namespace Am.Spec
open Am

/-- An integer written out: decimal digits without superfluous zeros in front, after a minus sign when it is negative. -/
inductive Decimal : Str → Int → Prop
  | nonneg (ds : Str) : ds ≠ [] → (∀ c ∈ ds, isDigit c = true) → (ds.head? = some '0' → ds = ['0']) → Decimal ds (decimal ds)
  | neg (ds : Str) : ds ≠ [] → (∀ c ∈ ds, isDigit c = true) → ds.head? ≠ some '0' → Decimal ('-' :: ds) (-(decimal ds : Int))

/-- The hexadecimal digits. -/
def hexDigits : Str := c!"0123456789abcdef"

/-- The value of a hexadecimal digit string: the place of each digit among the digits times the power of sixteen of its position. -/
def hexadecimal : Str → Nat
  | [] => 0
  | c :: r => hexDigits.idxOf c * 16 ^ r.length + hexadecimal r

/-- A number in hexadecimal digits, without superfluous zeros in front. -/
def HexText (t : Str) (n : Nat) : Prop :=
  t ≠ [] ∧ (∀ c ∈ t, c ∈ hexDigits) ∧ (t.head? = some '0' → t = ['0']) ∧ hexadecimal t = n

/-- How one character is written between quotes: the quote and the backslash after a backslash, the control characters by name or by their
code, the rest of ASCII as it is; the other characters as they are or by their code. -/
inductive Escaped : Char → Str → Prop
  | quote : Escaped '"' c!"\\\""
  | backslash : Escaped '\\' c!"\\\\"
  | feed : Escaped '\n' c!"\\n"
  | back : Escaped '\r' c!"\\r"
  | tab : Escaped '\t' c!"\\t"
  | zero : Escaped '\x00' c!"\\0"
  | control (c : Char) (h : Str) : c.toNat < 32 ∨ c.toNat = 127 → c ∉ ['\n', '\r', '\t', '\x00'] → HexText h c.toNat →
      Escaped c (c!"\\u{" ++ h ++ c!"}")
  | plain (c : Char) : 32 ≤ c.toNat → c.toNat < 127 → c ≠ '"' → c ≠ '\\' → Escaped c [c]
  | other (c : Char) : 127 < c.toNat → Escaped c [c]
  | code (c : Char) (h : Str) : 127 < c.toNat → HexText h c.toNat → Escaped c (c!"\\u{" ++ h ++ c!"}")

/-- The characters of a text, each written as between quotes. -/
inductive EscapedText : Str → Str → Prop
  | nil : EscapedText [] []
  | cons {c : Char} {s t u : Str} : Escaped c t → EscapedText s u → EscapedText (c :: s) (t ++ u)

/-- A text between quotes. -/
inductive Quoted : Str → Str → Prop
  | mk {s t : Str} : EscapedText s t → Quoted s (c!"\"" ++ t ++ c!"\"")

variable {F : Type} [Rt F]

mutual
/-- How a value inside an array or a map is written: the name of its kind and its content. The entries of a map come in any order. -/
inductive Written : Value F → Str → Prop
  | null : Written .null c!"Null"
  | int (i : Int64) (t : Str) : Decimal t i.toInt → Written (.int i) (c!"Integer(" ++ t ++ c!")")
  | float (f : F) : Written (.float f) (c!"Float(" ++ Rt.fdebug f ++ c!")")
  | yes : Written (.bool true) c!"Boolean(true)"
  | no : Written (.bool false) c!"Boolean(false)"
  | str (s t : Str) : Quoted s t → Written (.str s) (c!"String(" ++ t ++ c!")")
  | arr (vs : List (Value F)) (t : Str) : WrittenItems vs t → Written (.arr vs) (c!"Array([" ++ t ++ c!"])")
  | map (ps qs : List (Str × Value F)) (t : Str) : qs.Perm ps → WrittenPairs qs t → Written (.map ps) (c!"Map({" ++ t ++ c!"})")
/-- Items, separated by a comma and a space. -/
inductive WrittenItems : List (Value F) → Str → Prop
  | nil : WrittenItems [] []
  | one (v : Value F) (t : Str) : Written v t → WrittenItems [v] t
  | cons (v w : Value F) (vs : List (Value F)) (t u : Str) : Written v t → WrittenItems (w :: vs) u → WrittenItems (v :: w :: vs) (t ++ c!", " ++ u)
/-- Entries, separated by a comma and a space: the key between quotes, a colon and a space, the value. -/
inductive WrittenPairs : List (Str × Value F) → Str → Prop
  | nil : WrittenPairs [] []
  | one (k : Str) (v : Value F) (q t : Str) : Quoted k q → Written v t → WrittenPairs [(k, v)] (q ++ c!": " ++ t)
  | cons (k : Str) (v : Value F) (p : Str × Value F) (ps : List (Str × Value F)) (q t u : Str) : Quoted k q → Written v t →
      WrittenPairs (p :: ps) u → WrittenPairs ((k, v) :: p :: ps) (q ++ c!": " ++ t ++ c!", " ++ u)
end

/-- How a value by itself is printed. -/
inductive Shown : Value F → Str → Prop
  | null : Shown .null c!"null"
  | int (i : Int64) (t : Str) : Decimal t i.toInt → Shown (.int i) t
  | float (f : F) : Shown (.float f) (Rt.fdisp f)
  | yes : Shown (.bool true) c!"true"
  | no : Shown (.bool false) c!"false"
  | str (s : Str) : Shown (.str s) s
  | arr (vs : List (Value F)) (t : Str) : WrittenItems vs t → Shown (.arr vs) (c!"[" ++ t ++ c!"]")
  | map (ps qs : List (Str × Value F)) (t : Str) : qs.Perm ps → WrittenPairs qs t → Shown (.map ps) (c!"{" ++ t ++ c!"}")

/-- What is assumed of the standard library: a `HashMap` gives each of its entries once, `{:?}` writes a character outside ASCII as itself or
by its code. -/
structure PrintsFair (F : Type) [Rt F] : Prop where
  order : ∀ l, (Rt.order F l).Perm l
  escape : ∀ c : Char, 127 < c.toNat → Rt.escape F c = [c] ∨ ∃ h, HexText h c.toNat ∧ Rt.escape F c = c!"\\u{" ++ h ++ c!"}"

/-- What is assumed of the texts of floats: made of digits, signs, points and the letters of `e`, `inf` and `NaN`, and the same for two
floats only if they are equal, unless they are not even equal to themselves. -/
structure FloatsShown (F : Type) [Rt F] : Prop where
  chars : ∀ (f : F) (c : Char), c ∈ Rt.fdisp f ∨ c ∈ Rt.fdebug f → c ∈ c!"0123456789+-.einfNa"
  display : ∀ f g : F, Rt.fdisp f = Rt.fdisp g → Rt.feq f f = true → Rt.feq f g = true
  debug : ∀ f g : F, Rt.fdebug f = Rt.fdebug g → Rt.feq f f = true → Rt.feq f g = true

end Am.Spec
