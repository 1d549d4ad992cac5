import Verif.Spec.Text
import Verif.Model.Http
/-! # Response texts -/
namespace Am.Spec
open Am

/-- The first line of a text and what follows it. -/
inductive FirstLine : Str → Str → Str → Prop
  | only (l : Str) : '\n' ∉ l → FirstLine l l []
  | more (l r : Str) : '\n' ∉ l → FirstLine (l ++ '\n' :: r) l r

/-- The text after the status line: header lines `name: value` (trimmed), lines without a colon ignored, up to the first blank line or the
end; the last text is everything after the blank line. -/
inductive HeaderText : Str → List Header → Str → Prop
  | blank (s l r : Str) : FirstLine s l r → (∀ c ∈ l, isWs c = true) → HeaderText s [] r
  | skip (s l r : Str) (hs : List Header) (body : Str) : FirstLine s l r → (∃ c ∈ l, isWs c = false) → ':' ∉ l → HeaderText r hs body → HeaderText s hs body
  | field (s n v name value r : Str) (hs : List Header) (body : Str) : FirstLine s (n ++ ':' :: v) r → ':' ∉ n → Trims n name → Trims v value →
      HeaderText r hs body → HeaderText s (⟨name, value⟩ :: hs) body

/-- A decimal number below 65536, possibly with a plus sign in front. -/
inductive Number16 : Option Str → Nat → Prop
  | digits (ds : Str) : ds ≠ [] → (∀ c ∈ ds, isDigit c = true) → decimal ds ≤ 65535 → Number16 (some ds) (decimal ds)
  | plus (ds : Str) : ds ≠ [] → (∀ c ∈ ds, isDigit c = true) → decimal ds ≤ 65535 → Number16 (some ('+' :: ds)) (decimal ds)

/-- The status of a status line with this second word: the number it writes, 0 if it writes none. -/
def StatusOf (w : Option Str) (n : Nat) : Prop := Number16 w n ∨ ((∀ m, ¬ Number16 w m) ∧ n = 0)

/-- The values received under a name, in order. -/
def valuesOf (name : Str) : List Header → List Str
  | [] => []
  | h :: hs => if h.name = name then h.value :: valuesOf name hs else valuesOf name hs

end Am.Spec
