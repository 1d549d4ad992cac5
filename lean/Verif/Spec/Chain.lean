import Verif.Spec.Json
import Verif.Spec.Template
import Verif.Model.Syntax
/-!
# Using what one answer says in the next request

A place in a JSON document, the expression a script writes for it, and the text found there.
-/
namespace Am.Spec
open Am
variable {F : Type}

/-- One step into a document: to a member, or to an item counted from zero. -/
inductive Step where
  | member (name : Str)
  | item (i : Nat)
  deriving DecidableEq, Repr

/-- At this place of the document stands that document. Of several members with one name the last counts. -/
inductive JAt : JsonDoc → List Step → JsonDoc → Prop
  | here (j : JsonDoc) : JAt j [] j
  | member {before after : List (List JChar × JsonDoc)} {k : List JChar} {name : Str} {j leaf : JsonDoc} {path : List Step} :
      JStrVal k name → (∀ m ∈ after, ¬ JStrVal m.1 name) → JAt j path leaf → JAt (.obj (before ++ (k, j) :: after)) (.member name :: path) leaf
  | item {before after : List JsonDoc} {j leaf : JsonDoc} {path : List Step} : JAt j path leaf →
      JAt (.arr (before ++ j :: after)) (.item before.length :: path) leaf

/-- The text of a leaf: what a string denotes, the digits of an integer, `true`, `false` or `null`. -/
inductive LeafText : JsonDoc → Str → Prop
  | str {s : List JChar} {x : Str} : JStrVal s x → LeafText (.str s) x
  | int {n : JNum} : n.neg = false → n.frac = none → n.exp = none → LeafText (.num n) n.int
  | bool (b : Bool) : LeafText (.bool b) (if b then c!"true" else c!"false")
  | null : LeafText .null c!"null"

/-- The expression for a place: `e.name` and `e[i]` one after the other. -/
def placeExpr (e : Expr F) : List Step → Expr F
  | [] => e
  | .member n :: path => placeExpr (.field e n) path
  | .item i :: path => placeExpr (.index e (.int (Int64.ofNat i))) path

/-- Every index fits into an integer of the language. -/
def SmallSteps (path : List Step) : Prop := ∀ i, Step.item i ∈ path → i < 2 ^ 63

end Am.Spec
