import Verif.Model.Http
/-! # lib/src/context.rs -/
namespace Am

/-- context.rs:83-89 `struct Assert`. -/
structure Assert where
  expr : Str
  left : Str
  compare : Str
  right : Str
  result : Bool
  deriving DecidableEq, Repr

/-- context.rs:74-81 `struct Record`. -/
structure Record where
  name : Str
  time : Time
  request : Request
  response : Response
  asserts : List Assert
  error : Str
  deriving DecidableEq, Repr

/-- context.rs:12-16 `struct Context`. -/
structure Context (F : Type) where
  inner : List (Str × Value F)
  requests : List (Str × (Str × List (Expr F)))
  records : List Record

namespace Context
variable {F : Type}

/-- context.rs:19-25 `Context::new`. -/
def new : Context F := ⟨[], [], []⟩

/-- context.rs:27-33 `Context::from`. -/
def ofMap (inner : List (Str × Value F)) : Context F := ⟨inner, [], []⟩

/-- context.rs:35-37 `extend`. -/
def extend (c : Context F) (rs : List (Str × (Str × List (Expr F)))) : Context F :=
  { c with requests := amExtend c.requests rs }

/-- context.rs:39-41 `get`. -/
def get (c : Context F) (k : Str) : Option (Value F) := amGet k c.inner

/-- context.rs:43-45 `set`. -/
def set (c : Context F) (k : Str) (v : Value F) : Context F := { c with inner := amInsert k v c.inner }

/-- context.rs:47-49 `request`. -/
def request (c : Context F) (name : Str) : Option (Str × List (Expr F)) := amGet name c.requests

/-- context.rs:51-53 `push`. -/
def push (c : Context F) (r : Record) : Context F := { c with records := c.records ++ [r] }

/-- context.rs:59-61 `records`: takes the records out. -/
def takeRecords (c : Context F) : List Record × Context F := (c.records, { c with records := [] })

/-- context.rs:64-72 `Clone for Context`: without the records. -/
def clone (c : Context F) : Context F := { c with records := [] }

end Context

/-- context.rs:91-99 `Display for Assert`. -/
def Assert.text (a : Assert) : Str :=
  a.expr ++ c!" => (" ++ a.left ++ c!" " ++ a.compare ++ c!" " ++ a.right ++ c!") => " ++ boolStr a.result

/-- Digits of the fractional part `frac` of `width` digits, without trailing zeros (std `Duration` Debug without precision). -/
def fracStr : Nat → Nat → Str
  | 0, _ => []
  | w + 1, frac =>
    if frac = 0 then []
    else digitChar (frac / 10 ^ w) :: fracStr w (frac % 10 ^ w)

/-- std `impl Debug for Duration` (no precision): seconds, milli-, micro- or nanoseconds. -/
def durText (nanos : Nat) : Str :=
  let fmt (int frac width : Nat) (unit : Str) : Str :=
    natStr int ++ (if frac = 0 then [] else '.' :: fracStr width frac) ++ unit
  if 1000000000 ≤ nanos then fmt (nanos / 1000000000) (nanos % 1000000000) 9 c!"s"
  else if 1000000 ≤ nanos then fmt (nanos / 1000000) (nanos % 1000000) 6 c!"ms"
  else if 1000 ≤ nanos then fmt (nanos / 1000) (nanos % 1000) 3 c!"µs"
  else fmt nanos 0 0 c!"ns"

/-- context.rs:107-111: one assert line of a record's report. -/
def Assert.reportLine (a : Assert) : Str :=
  a.expr ++ c!" => " ++ a.left ++ c!" " ++ a.compare ++ c!" " ++ a.right ++ c!" => " ++ boolStr a.result ++ c!"\n"

/-- context.rs:104-106: the PASS/FAIL flag. -/
def Record.flag (r : Record) : Bool := r.asserts.foldl (fun f a => f && a.result) true

/-- context.rs:101-124 `Display for Record`. -/
def Record.text (r : Record) : Str :=
  c!"=== TEST  " ++ r.name ++ c!"\n" ++ r.asserts.flatMap Assert.reportLine ++
  c!"--- " ++ (if r.flag then c!"PASS" else c!"FAIL") ++ c!"  " ++ r.name ++ c!" (" ++ durText r.time.total ++ c!")"

end Am
