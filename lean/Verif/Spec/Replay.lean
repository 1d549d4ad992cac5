import Verif.Spec.Timing
/-! # C131: answering from records -/
namespace Am.Spec
open Am
variable {F : Type}

/-- The network answers from the records: when `n + i` messages have been sent before, any message gets the response of the `i`-th record. -/
def Replays (net : Net) (n : Nat) (recs : List Record) : Prop :=
  ∀ i r, recs[i]? = some r → ∀ sent m, sent.length = n + i → ∃ rq t e, send net sent m = .ok (rq, r.response, t, e)

/-- Records of the same exchange, made at different times: the name of the request, the response and the asserts with their results are the same. -/
def Replayed (r r' : Record) : Prop := r.name = r'.name ∧ r.response = r'.response ∧ r.asserts = r'.asserts

/-- The same variables, requests, messages sent and texts printed; only the records may differ. -/
structure SameButRecords (s t : St F) : Prop where
  inner : s.ctx.inner = t.ctx.inner
  requests : s.ctx.requests = t.ctx.requests
  sent : s.sent = t.sent
  out : s.out = t.out

/-- The network looks at nothing but the number of messages sent before. -/
def CountsOnly (net : Net) : Prop := ∀ sent sent' m m', sent.length = sent'.length → net.exch sent m = net.exch sent' m'

end Am.Spec
