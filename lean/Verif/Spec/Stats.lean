import Verif.Model.Stat
/-! # What statistics should say -/
namespace Am.Spec

/-- The timings added under a name, in order. -/
def timesOf (name : Str) (l : List (Str × Nat)) : List Nat := (l.filter fun p => p.1 = name).map Prod.snd

/-- The statistic of a non-empty list of timings: number, sum, a largest and a smallest one, and the floor of the mean. -/
def IsStat (ts : List Nat) (s : Stat) : Prop :=
  s.count = ts.length ∧ s.sum = ts.sum ∧ (s.max ∈ ts ∧ ∀ t ∈ ts, t ≤ s.max) ∧ (s.min ∈ ts ∧ ∀ t ∈ ts, s.min ≤ t) ∧
  (s.avg * ts.length ≤ ts.sum ∧ ts.sum < (s.avg + 1) * ts.length)

end Am.Spec
