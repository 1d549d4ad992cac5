import Verif.Spec.Basic
import Verif.Spec.Stats
/-! # What printed times and statistics say -/
namespace Am.Spec
open Am

/-- `t` is a decimal numeral for `n`. -/
def Numeral (t : Str) (n : Nat) : Prop := t ≠ [] ∧ (∀ c ∈ t, isDigit c = true) ∧ decimal t = n

/-- The units of time and their size in nanoseconds, as a power of ten. -/
inductive TimeUnit : Str → Nat → Prop
  | s : TimeUnit c!"s" 9
  | ms : TimeUnit c!"ms" 6
  | us : TimeUnit c!"µs" 3
  | ns : TimeUnit c!"ns" 0

/-- The text denotes the time `n` in nanoseconds: a number of units, possibly with digits after a point, the first of which counts tenths. -/
inductive DurationText : Str → Nat → Prop
  | whole {ds u : Str} {n e : Nat} : Numeral ds n → TimeUnit u e → DurationText (ds ++ u) (n * 10 ^ e)
  | point {ds fs u : Str} {n m e : Nat} : Numeral ds n → Numeral fs m → TimeUnit u e → fs.length ≤ e →
      DurationText (ds ++ '.' :: (fs ++ u)) (n * 10 ^ e + m * 10 ^ (e - fs.length))

/-- The line shown for the timings `ts` of `name`. -/
def StatLine (name : Str) (ts : List Nat) (line : Str) : Prop :=
  ∃ s a b c d e, IsStat ts s ∧ Numeral a s.count ∧ Numeral b s.sum ∧ Numeral c s.avg ∧ Numeral d s.max ∧ Numeral e s.min ∧
    line = name ++ c!" count=" ++ a ++ c!"  sum=" ++ b ++ c!"  avg=" ++ c ++ c!"  max=" ++ d ++ c!"  min=" ++ e

end Am.Spec
