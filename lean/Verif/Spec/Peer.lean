import Verif.Spec.Io
import Verif.Spec.Url
import Verif.Spec.Message
/-! # Where a message goes -/
namespace Am.Spec
open Am

/-- The address that a message names: the second word of its first line, read as a URL; without one, the home page of the local machine. -/
inductive Addressed : Str → Url → Prop
  | blank (m : Str) : (∀ c ∈ m, isWs c = true) → Addressed m ⟨.Http, c!"localhost", 80, c!"/"⟩
  | bare (m t first w : Str) (rest : List Str) : Trims m t → Lines t (first :: rest) → Words first [w] → Addressed m ⟨.Http, c!"localhost", 80, c!"/"⟩
  | named (m t first w word : Str) (rest ws : List Str) (u : Url) : Trims m t → Lines t (first :: rest) → Words first (w :: word :: ws) → UrlRead word u →
      Addressed m u

/-- Two networks that are the same as far as this host and this port are concerned: they differ only in how they look up and check others. -/
structure SameAt (host : Str) (port : Nat) (w w' : Wire) : Prop where
  name : w.nameOk host = w'.nameOk host
  tls : w.tlsOk host = w'.tlsOk host
  found : w.resolved host port = w'.resolved host port
  rest : w' = { w with nameOk := w'.nameOk, tlsOk := w'.tlsOk, resolved := w'.resolved }

/-- A request template that begins with a method and an address up to the slash after host and port, all written out. -/
structure FixedTarget (m : Str) (sc : Scheme) (host : Str) (port : Nat) : Prop where
  shape : ∃ pre w gap pt rest, m = pre ++ w ++ gap ++ (sc.text ++ c!"://" ++ host ++ pt) ++ '/' :: rest ∧
    (∀ c ∈ pre, isWs c = true) ∧
    w ≠ [] ∧ (∀ c ∈ w, isWs c = false ∧ c ≠ '{') ∧
    gap ≠ [] ∧ (∀ c ∈ gap, isWs c = true ∧ c ≠ '\n') ∧
    PortText (wellKnown sc) pt port
  plain : PlainHost host
  solid : ∀ c ∈ host, isWs c = false ∧ c ≠ '{'

end Am.Spec
