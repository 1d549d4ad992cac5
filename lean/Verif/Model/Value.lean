import Verif.Model.Basic
/-! # lib/src/value.rs -/
namespace Am

/-- What the model does not fix: `f64` (type `F` and its operations), whether integer overflow checks are
compiled in, how `{:?}` escapes non-ASCII characters, and the iteration order of `HashMap`s. -/
class Rt (F : Type) where
  fadd : F → F → F
  fsub : F → F → F
  fmul : F → F → F
  fdiv : F → F → F
  frem : F → F → F
  fneg : F → F
  /-- `i64 as f64` -/
  fofInt : Int64 → F
  /-- `f64::partial_cmp` -/
  fcmp : F → F → Option Ordering
  /-- `f64 == f64` -/
  feq : F → F → Bool
  /-- `str::parse::<f64>` -/
  fparse : Str → Option F
  /-- `Display for f64` -/
  fdisp : F → Str
  /-- `Debug for f64` -/
  fdebug : F → Str
  /-- `true` in debug builds (overflow checks on), `false` in release builds (wrap-around) -/
  checks : Bool
  /-- `char::escape_debug` for a non-ASCII character -/
  escape : Char → Str
  /-- iteration order of a `HashMap` with the given rendered entries -/
  order : List (Str × Str) → List (Str × Str)

/-- value.rs:16-25 `enum Value`. -/
inductive Value (F : Type) where
  | null
  | int (i : Int64)
  | float (f : F)
  | bool (b : Bool)
  | str (s : Str)
  | arr (items : List (Value F))
  | map (pairs : List (Str × Value F))

/-- Joins texts with a separator (`[String]::join`). -/
def joinStr (sep : Str) : List Str → Str
  | [] => []
  | [x] => x
  | x :: y :: l => x ++ sep ++ joinStr sep (y :: l)

/-- `Display for bool`. -/
def boolStr (b : Bool) : Str := if b then c!"true" else c!"false"

/-- Hexadecimal digits of `n < 256` without leading zeros (used by `\u{..}` escapes of ASCII control characters). -/
def hexLow (n : Nat) : Str :=
  let d (k : Nat) : Char := if k < 10 then Char.ofNat (48 + k) else Char.ofNat (87 + k)
  if n < 16 then [d n] else [d (n / 16), d (n % 16)]

/-- `Debug for str`: one character. ASCII is written out (std `char::escape_debug_ext`, with `'` unescaped);
non-ASCII is a parameter. -/
def escapeChar {F : Type} [Rt F] (c : Char) : Str :=
  if c = '"' then c!"\\\""
  else if c = '\\' then c!"\\\\"
  else if c = '\n' then c!"\\n"
  else if c = '\r' then c!"\\r"
  else if c = '\t' then c!"\\t"
  else if c = '\x00' then c!"\\0"
  else if c.toNat < 32 || c.toNat = 127 then c!"\\u{" ++ hexLow c.toNat ++ c!"}"
  else if c.toNat < 127 then [c]
  else Rt.escape F c

/-- `Debug for str`. -/
def debugStr (F : Type) [Rt F] (s : Str) : Str := c!"\"" ++ s.flatMap (escapeChar (F := F)) ++ c!"\""

variable {F : Type} [Rt F]

mutual
/-- value.rs:16 `#[derive(Debug)]`. -/
def Value.debug : Value F → Str
  | .null => c!"Null"
  | .int i => c!"Integer(" ++ intStr i.toInt ++ c!")"
  | .float f => c!"Float(" ++ Rt.fdebug f ++ c!")"
  | .bool b => c!"Boolean(" ++ boolStr b ++ c!")"
  | .str s => c!"String(" ++ debugStr F s ++ c!")"
  | .arr items => c!"Array([" ++ joinStr c!", " (Value.debugList items) ++ c!"])"
  | .map pairs =>
    c!"Map({" ++ joinStr c!", " ((Rt.order F (Value.debugPairs pairs)).map fun p => p.1 ++ c!": " ++ p.2) ++ c!"})"
termination_by structural v => v
/-- `Debug` of the items of a `Vec<Value>`. -/
def Value.debugList : List (Value F) → List Str
  | [] => []
  | v :: l => v.debug :: Value.debugList l
termination_by structural l => l
/-- `Debug` of the entries of a `HashMap<String, Value>`. -/
def Value.debugPairs : List (Str × Value F) → List (Str × Str)
  | [] => []
  | (k, v) :: l => (debugStr F k, v.debug) :: Value.debugPairs l
termination_by structural l => l
end

/-- value.rs:27-39 `Display for Value`. -/
def Value.display : Value F → Str
  | .null => c!"null"
  | .int i => intStr i.toInt
  | .float f => Rt.fdisp f
  | .bool b => boolStr b
  | .str s => s
  | .arr items => c!"[" ++ joinStr c!", " (Value.debugList items) ++ c!"]"
  | .map pairs =>
    c!"{" ++ joinStr c!", " ((Rt.order F (Value.debugPairs pairs)).map fun p => p.1 ++ c!": " ++ p.2) ++ c!"}"

/-! ## Arithmetic. Integer overflow: panic in checked builds, wrap-around otherwise. -/

/-- Smallest `i64`. -/
def i64Min : Int := -9223372036854775808
/-- Largest `i64`. -/
def i64Max : Int := 9223372036854775807

/-- The result of an `i64` operation whose mathematical result is `e`. -/
def checked (F : Type) [Rt F] (e : Int) : Res Int64 :=
  if i64Min ≤ e ∧ e ≤ i64Max then .ok (Int64.ofInt e)
  else if Rt.checks F then .panic else .ok (Int64.ofInt e)

/-- The `Err` of a type mismatch: `"type mismatch: {} op {}"`. -/
def mismatch (op : Str) (l r : Value F) : Res (Value F) :=
  .err (c!"type mismatch: " ++ l.display ++ c!" " ++ op ++ c!" " ++ r.display)

/-- value.rs:41-53 `Add for Value`. -/
def Value.add : Value F → Value F → Res (Value F)
  | .int l, .int r => do let i ← checked F (l.toInt + r.toInt); pure (.int i)
  | .float l, .float r => .ok (.float (Rt.fadd l r))
  | .int l, .float r => .ok (.float (Rt.fadd (Rt.fofInt l) r))
  | .float l, .int r => .ok (.float (Rt.fadd l (Rt.fofInt r)))
  | .str l, .str r => .ok (.str (l ++ r))
  | l, r => mismatch c!"+" l r

/-- value.rs:55-66 `Sub for Value`. -/
def Value.sub : Value F → Value F → Res (Value F)
  | .int l, .int r => do let i ← checked F (l.toInt - r.toInt); pure (.int i)
  | .float l, .float r => .ok (.float (Rt.fsub l r))
  | .int l, .float r => .ok (.float (Rt.fsub (Rt.fofInt l) r))
  | .float l, .int r => .ok (.float (Rt.fsub l (Rt.fofInt r)))
  | l, r => mismatch c!"-" l r

/-- value.rs:68-79 `Mul for Value`. -/
def Value.mul : Value F → Value F → Res (Value F)
  | .int l, .int r => do let i ← checked F (l.toInt * r.toInt); pure (.int i)
  | .float l, .float r => .ok (.float (Rt.fmul l r))
  | .int l, .float r => .ok (.float (Rt.fmul (Rt.fofInt l) r))
  | .float l, .int r => .ok (.float (Rt.fmul l (Rt.fofInt r)))
  | l, r => mismatch c!"*" l r

/-- `i64 / i64`: panics on a zero divisor and on `i64::MIN / -1`, in every build profile. -/
def i64Div (l r : Int64) : Res Int64 :=
  if r.toInt = 0 then .panic
  else if l.toInt = i64Min ∧ r.toInt = -1 then .panic
  else .ok (Int64.ofInt (l.toInt.tdiv r.toInt))

/-- `i64 % i64`: panics like `/`. -/
def i64Rem (l r : Int64) : Res Int64 :=
  if r.toInt = 0 then .panic
  else if l.toInt = i64Min ∧ r.toInt = -1 then .panic
  else .ok (Int64.ofInt (l.toInt.tmod r.toInt))

/-- value.rs:81-92 `Div for Value`. -/
def Value.div : Value F → Value F → Res (Value F)
  | .int l, .int r => do let i ← i64Div l r; pure (.int i)
  | .float l, .float r => .ok (.float (Rt.fdiv l r))
  | .int l, .float r => .ok (.float (Rt.fdiv (Rt.fofInt l) r))
  | .float l, .int r => .ok (.float (Rt.fdiv l (Rt.fofInt r)))
  | l, r => mismatch c!"/" l r

/-- value.rs:94-105 `Rem for Value`. -/
def Value.rem : Value F → Value F → Res (Value F)
  | .int l, .int r => do let i ← i64Rem l r; pure (.int i)
  | .float l, .float r => .ok (.float (Rt.frem l r))
  | .int l, .float r => .ok (.float (Rt.frem (Rt.fofInt l) r))
  | .float l, .int r => .ok (.float (Rt.frem l (Rt.fofInt r)))
  | l, r => mismatch c!"%" l r

/-- value.rs:107-115 `BitXor for Value`. -/
def Value.bitxor : Value F → Value F → Res (Value F)
  | .int l, .int r => .ok (.int (l ^^^ r))
  | l, r => mismatch c!"^" l r

/-- value.rs:117-125 `BitOr for Value`. -/
def Value.bitor : Value F → Value F → Res (Value F)
  | .int l, .int r => .ok (.int (l ||| r))
  | l, r => mismatch c!"|" l r

/-- value.rs:127-135 `BitAnd for Value`. -/
def Value.bitand : Value F → Value F → Res (Value F)
  | .int l, .int r => .ok (.int (l &&& r))
  | l, r => mismatch c!"&" l r

/-- The shift amount of `<<`/`>>` on `i64` with an `i64` right operand: amounts outside `0..64` panic in
checked builds and are taken modulo 64 otherwise. -/
def shiftAmount (F : Type) [Rt F] (r : Int64) : Res Nat :=
  if 0 ≤ r.toInt ∧ r.toInt < 64 then .ok r.toInt.toNat
  else if Rt.checks F then .panic else .ok (r.toInt % 64).toNat

/-- value.rs:137-145 `Shl for Value`: bits shifted out are lost. -/
def Value.shl : Value F → Value F → Res (Value F)
  | .int l, .int r => do let k ← shiftAmount F r; pure (.int (Int64.ofInt (l.toInt * 2 ^ k)))
  | l, r => mismatch c!"<<" l r

/-- value.rs:147-155 `Shr for Value`: arithmetic shift (rounds toward minus infinity). -/
def Value.shr : Value F → Value F → Res (Value F)
  | .int l, .int r => do let k ← shiftAmount F r; pure (.int (Int64.ofInt (l.toInt / 2 ^ k)))
  | l, r => mismatch c!">>" l r

/-! ## Equality and order -/

mutual
/-- value.rs:16 `#[derive(PartialEq)]`; `HashMap::eq` compares sizes and looks every key up in the other map. -/
def Value.eq : Value F → Value F → Bool
  | .null, .null => true
  | .int l, .int r => l == r
  | .float l, .float r => Rt.feq l r
  | .bool l, .bool r => l == r
  | .str l, .str r => l == r
  | .arr l, .arr r => Value.eqList l r
  | .map l, .map r => l.length == r.length && Value.eqPairs l r
  | _, _ => false
termination_by structural v => v
/-- `Vec<Value>` equality. -/
def Value.eqList : List (Value F) → List (Value F) → Bool
  | [], [] => true
  | a :: l, b :: r => a.eq b && Value.eqList l r
  | _, _ => false
termination_by structural l => l
/-- `self.iter().all(|(k, v)| other.get(k).map_or(false, |w| *v == *w))`. -/
def Value.eqPairs : List (Str × Value F) → List (Str × Value F) → Bool
  | [], _ => true
  | (k, v) :: l, r => (match amGet k r with | some w => v.eq w | none => false) && Value.eqPairs l r
termination_by structural l => l
end

/-- `str::cmp`: lexicographic by UTF-8 bytes, which is the order of the scalar values. -/
def strCmp : Str → Str → Ordering
  | [], [] => .eq
  | [], _ :: _ => .lt
  | _ :: _, [] => .gt
  | a :: l, b :: r => if a.toNat < b.toNat then .lt else if b.toNat < a.toNat then .gt else strCmp l r

/-- `i64::cmp`. -/
def i64Cmp (l r : Int64) : Ordering :=
  if l.toInt < r.toInt then .lt else if r.toInt < l.toInt then .gt else .eq

/-- value.rs:157-168 `PartialOrd for Value`. -/
def Value.cmp : Value F → Value F → Option Ordering
  | .int l, .int r => some (i64Cmp l r)
  | .float l, .float r => Rt.fcmp l r
  | .int l, .float r => Rt.fcmp (Rt.fofInt l) r
  | .float l, .int r => Rt.fcmp l (Rt.fofInt r)
  | .str l, .str r => some (strCmp l r)
  | _, _ => none

/-- `<` as derived from `partial_cmp` (std `PartialOrd::lt`). -/
def Value.lt (a b : Value F) : Bool := a.cmp b == some .lt
/-- `>` (std `PartialOrd::gt`). -/
def Value.gt (a b : Value F) : Bool := a.cmp b == some .gt
/-- `<=` (std `PartialOrd::le`). -/
def Value.le (a b : Value F) : Bool := a.cmp b == some .lt || a.cmp b == some .eq
/-- `>=` (std `PartialOrd::ge`). -/
def Value.ge (a b : Value F) : Bool := a.cmp b == some .gt || a.cmp b == some .eq

end Am
