import Verif.Model.Pipe
import Verif.Spec.Run
import Verif.Spec.Builds
/-! # A standard output that stops working (C89) -/
namespace Am.Spec
open Am
variable {F : Type} [Rt F]

/-- A closed pipe stays closed: when a text cannot be printed completely, nor can any longer one. -/
def StaysBroken (broken : Str → Bool) : Prop := ∀ t more, broken t = true → broken (t ++ more) = true

/-- The reader goes away after `limit` characters. -/
def closedAfter (limit : Nat) : Str → Bool := fun t => decide (limit < t.length)

/-- The output always works. -/
def working : Str → Bool := fun _ => false

/-- `r` is reached in a run of the test `name` with `t` threads and `--number n`; every step says whether the output works. -/
def NamedRunOn (record stat : Bool) (base : Context F) (name : Str) (test : List (Expr F)) (t n : Nat) (l : List (RunStep × (Str → Bool))) (r : Run F) : Prop :=
  (Run.init (List.replicate t (fresh record base name test))).runOn ⟨true, n / t, stat⟩ l = some r

end Am.Spec
