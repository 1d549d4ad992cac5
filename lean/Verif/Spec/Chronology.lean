import Verif.Model.TestRun
import Verif.Spec.Http
/-! # When exchanges take place (C124) -/
namespace Am.Spec
open Am

/-- The readings of the system clock at a network: no exchange ends before it begins, and none begins before those sent earlier have ended. -/
structure Chronological (net : Net) : Prop where
  lasts : ∀ sent m, (clocksOf (net.exch sent m)).sys0 ≤ (clocksOf (net.exch sent m)).sys1
  next : ∀ sent m more m', (clocksOf (net.exch sent m)).sys1 ≤ (clocksOf (net.exch (sent ++ m :: more) m')).sys0

/-- Everything at the first network is over before anything at the second one begins. -/
def Earlier (net net' : Net) : Prop := ∀ sent m sent' m', (clocksOf (net.exch sent m)).sys1 ≤ (clocksOf (net'.exch sent' m')).sys0

/-- The records are in order of time: each ends after it begins, and before the later ones begin. -/
def InTimeOrder (rs : List Record) : Prop :=
  (∀ r ∈ rs, r.time.start ≤ r.time.fin) ∧ rs.Pairwise fun r r' => r.time.fin ≤ r'.time.start

/-- A time that says when an exchange with these clock readings took place and how long it took. -/
def TellsTime (t : Time) (c : Clocks) : Prop := t.start = c.sys0 ∧ t.fin = c.sys1 ∧ t.total = c.fin - c.start

end Am.Spec
