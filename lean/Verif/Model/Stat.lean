import Verif.Model.Value
/-! # lib/src/stat.rs -/
namespace Am

/-- stat.rs:6-12 `struct Stat` (`u128` fields as natural numbers). -/
structure Stat where
  count : Nat
  sum : Nat
  avg : Nat
  max : Nat
  min : Nat
  deriving DecidableEq, Repr

/-- stat.rs:15-23 `Stat::new`. -/
def Stat.new (millis : Nat) : Stat := ⟨1, millis, millis, millis, millis⟩

/-- stat.rs:24-34 `Stat::add`. -/
def Stat.add (s : Stat) (millis : Nat) : Stat :=
  let count := s.count + 1
  let sum := s.sum + millis
  ⟨count, sum, sum / count, if millis > s.max then millis else s.max, if millis < s.min then millis else s.min⟩

/-- stat.rs:37-45 `Display for Stat`. -/
def Stat.text (s : Stat) : Str :=
  c!"count=" ++ natStr s.count ++ c!"  sum=" ++ natStr s.sum ++ c!"  avg=" ++ natStr s.avg ++ c!"  max=" ++
  natStr s.max ++ c!"  min=" ++ natStr s.min

/-- stat.rs:48-50 `struct Stats`. -/
abbrev Stats := List (Str × Stat)

/-- stat.rs:53-62 `Stats::add`. -/
def Stats.add (s : Stats) (name : Str) (millis : Nat) : Stats :=
  match amGet name s with
  | some st => amInsert name (st.add millis) s
  | none => amInsert name (Stat.new millis) s

/-- stat.rs:65-72 `Display for Stats`: one line per entry in the map's iteration order. -/
def Stats.text (F : Type) [Rt F] (s : Stats) : Str :=
  (Rt.order F (s.map fun p => (p.1, p.2.text))).flatMap fun p => p.1 ++ c!" " ++ p.2 ++ c!"\n"

end Am
