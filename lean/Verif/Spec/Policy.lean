import Verif.Spec.Peer
import Verif.Model.Main
/-! # Scripts that name the hosts they talk to -/
namespace Am.Spec
open Am

variable {F : Type}

/-- Scheme, host and port of a server. -/
abbrev Place := Scheme × Str × Nat

/-- The message goes to one of these servers. -/
def GoesTo (places : List Place) (m : Str) : Prop := ∃ u, Addressed m u ∧ (u.scheme, u.host, u.port) ∈ places

/-- Every request has its method and the address of one of these servers written out. -/
def WrittenOut (places : List Place) (requests : List (Str × (Str × List (Expr F)))) : Prop :=
  ∀ name template asserts, amGet name requests = some (template, asserts) →
    ∃ sc host port, FixedTarget template sc host port ∧ (sc, host, port) ∈ places

end Am.Spec
