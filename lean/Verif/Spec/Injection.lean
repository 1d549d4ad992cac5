import Verif.Spec.Template
/-! # Headers as written in a request template -/
namespace Am.Spec
open Am

/-- No placeholder of `m` contains a line feed. -/
def HolesOnLines (m : Str) : Prop := ∀ x h name y, m = x ++ h ++ y → IsHole h name → '\n' ∉ h

/-- `name` occurs as a placeholder of `m`. -/
def Mentions (m name : Str) : Prop := ∃ x h y, m = x ++ h ++ y ∧ IsHole h name

/-- The headers written in the text after the request line of a template: the text before and after the first colon of each line up to the
first blank line or the end. Names contain no brace, so placeholders occur in values only. -/
inductive HeaderTemplate : Str → List (Str × Str) → Prop
  | blankEnd (r : Str) : (∀ c ∈ r, isWs c = true) → '\n' ∉ r → HeaderTemplate r []
  | blank (l r : Str) : (∀ c ∈ l, isWs c = true) → '\n' ∉ l → HeaderTemplate (l ++ '\n' :: r) []
  | skipEnd (l : Str) : '\n' ∉ l → '{' ∉ l → ':' ∉ l → HeaderTemplate l []
  | skip (l r : Str) (hs : List (Str × Str)) : (∃ c ∈ l, isWs c = false) → '\n' ∉ l → '{' ∉ l → ':' ∉ l → HeaderTemplate r hs →
      HeaderTemplate (l ++ '\n' :: r) hs
  | fieldEnd (n v : Str) : '\n' ∉ n → '{' ∉ n → ':' ∉ n → '\n' ∉ v → HeaderTemplate (n ++ ':' :: v) [(n, v)]
  | field (n v r : Str) (hs : List (Str × Str)) : '\n' ∉ n → '{' ∉ n → ':' ∉ n → '\n' ∉ v → HeaderTemplate r hs →
      HeaderTemplate (n ++ ':' :: v ++ '\n' :: r) ((n, v) :: hs)

/-- Header values (with their placeholders replaced) that stay inside their headers: no line feed, except that the last value may be followed by
white space that contains line feeds. -/
def ValuesKept : List Str → Prop
  | [] => True
  | [w] => ∀ l w', w = l ++ '\n' :: w' → '\n' ∉ l → ∀ c ∈ w', isWs c = true
  | w :: x :: ws => '\n' ∉ w ∧ ValuesKept (x :: ws)

/-- The headers that a text adds when it stands at the end of the request line after a line feed, with the name and the value of each, and
whether one of its lines is blank, which ends the headers. -/
inductive Added : Str → List (Str × Str) → Bool → Prop
  | blankEnd (l : Str) : (∀ c ∈ l, isWs c = true) → '\n' ∉ l → Added l [] true
  | blank (l r : Str) : (∀ c ∈ l, isWs c = true) → '\n' ∉ l → Added (l ++ '\n' :: r) [] true
  | skipEnd (l : Str) : (∃ c ∈ l, isWs c = false) → '\n' ∉ l → ':' ∉ l → Added l [] false
  | skip (l r : Str) (hs : List (Str × Str)) (b : Bool) : (∃ c ∈ l, isWs c = false) → '\n' ∉ l → ':' ∉ l → Added r hs b → Added (l ++ '\n' :: r) hs b
  | fieldEnd (n v : Str) : '\n' ∉ n → ':' ∉ n → '\n' ∉ v → Added (n ++ ':' :: v) [(n, v)] false
  | field (n v r : Str) (hs : List (Str × Str)) (b : Bool) : '\n' ∉ n → ':' ∉ n → '\n' ∉ v → Added r hs b →
      Added (n ++ ':' :: v ++ '\n' :: r) ((n, v) :: hs) b

end Am.Spec
