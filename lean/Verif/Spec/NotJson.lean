import Verif.Spec.Json
import Verif.Model.Http
import Verif.Spec.Accepts
/-! # C102: what is taken for JSON -/
namespace Am.Spec
open Am
variable {F : Type} [Rt F]

mutual
/-- The value of an expression without evaluating anything: literals stand for themselves, arrays and maps for their literals, everything else for null.
A map has the last value given for each key, where a key is the text shown for its literal. -/
inductive Literal : Expr F → Value F → Prop
  | int (i : Int64) : Literal (.int i) (.int i)
  | float (f : F) : Literal (.float f) (.float f)
  | bool (b : Bool) : Literal (.bool b) (.bool b)
  | str (s : Str) : Literal (.str s) (.str s)
  | arr (es : List (Expr F)) (vs : List (Value F)) : LiteralAll es vs → Literal (.arr es) (.arr vs)
  | map (ps : List (Expr F × Expr F)) (vs m : List (Str × Value F)) : LiteralPairs ps vs → KeysNodup m → (∀ k, amGet k m = lastValue k vs) →
      Literal (.map ps) (.map m)
  | other (e : Expr F) : (∀ i, e ≠ .int i) → (∀ f, e ≠ .float f) → (∀ b, e ≠ .bool b) → (∀ s, e ≠ .str s) → (∀ es, e ≠ .arr es) → (∀ ps, e ≠ .map ps) →
      Literal e .null
/-- The same for the items of an array. -/
inductive LiteralAll : List (Expr F) → List (Value F) → Prop
  | nil : LiteralAll [] []
  | cons (e : Expr F) (es : List (Expr F)) (v : Value F) (vs : List (Value F)) : Literal e v → LiteralAll es vs → LiteralAll (e :: es) (v :: vs)
/-- The same for the pairs of a map. -/
inductive LiteralPairs : List (Expr F × Expr F) → List (Str × Value F) → Prop
  | nil : LiteralPairs [] []
  | cons (k e : Expr F) (ps : List (Expr F × Expr F)) (kv v : Value F) (vs : List (Str × Value F)) : Literal k kv → Literal e v → LiteralPairs ps vs →
      LiteralPairs ((k, e) :: ps) ((kv.display, v) :: vs)
end

/-- C102 as stated: when a response has the entry `json`, its body is JSON. -/
def OnlyJson (F : Type) [Rt F] : Prop :=
  ∀ (r : Response) (m : List (Str × Value F)), r.toMap = .ok m → amGet c!"json" m ≠ none → ∃ j, JsonBody j r.body

end Am.Spec
