import Verif.Spec.Silent
/-! # What can depend on an answer (C133) -/
namespace Am.Spec
open Am
variable {F : Type}

/-- The networks give the same answers, except perhaps to the exchanges of `apart`: to a message, after certain others. -/
def SameBut (apart : List Str → Str → Bool) (net net' : Net) : Prop :=
  net.multipart = net'.multipart ∧ ∀ sent m, apart sent m = false → net.exch sent m = net'.exch sent m

/-- The networks give the same answers to the first `n` messages. -/
def SameUntil (n : Nat) (net net' : Net) : Prop :=
  net.multipart = net'.multipart ∧ ∀ sent m, sent.length < n → net.exch sent m = net'.exch sent m

/-- What has been sent, printed and recorded in the first state begins what has been in the second. -/
def Ahead (s t : St F) : Prop := s.sent <+: t.sent ∧ s.out <+: t.out ∧ s.ctx.records <+: t.ctx.records

end Am.Spec
