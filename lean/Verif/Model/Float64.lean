import Verif.Model.Value
/-! # `f64`

Everywhere else the float type is a parameter (`Rt F`). Here it is what Rust uses: IEEE 754 binary64 with rounding to the nearest, ties to even, the syntax
of `str::parse::<f64>` and the shortest texts of `Display` and `Debug` as documented by the standard library. The code that uses them is value.rs:13-230,
parser.rs:167-173, syntax.rs:12 and 76. All NaNs are one (Rust does not fix the bits and prints none of them). -/
namespace Am

/-- `m * 2 ^ e` is the normal form of a finite float, in units of 2^-1074: 53 binary digits, fewer only for the smallest exponent. -/
def Canon (m e : Nat) : Prop := m < 2 ^ 53 ∧ e ≤ 2045 ∧ (e = 0 ∨ 2 ^ 52 ≤ m)

instance (m e : Nat) : Decidable (Canon m e) := by unfold Canon; infer_instance

/-- `f64`. A finite float is `± m * 2 ^ (e - 1074)`. -/
inductive F64 where
  | nan
  | inf (neg : Bool)
  | fin (neg : Bool) (m e : Nat) (h : Canon m e)
  deriving DecidableEq

namespace F64

/-- The number 1.0 in units of 2^-1074. -/
@[irreducible] def one : Nat := 2 ^ 1074

/-- `± 0.0`. -/
def zero (neg : Bool) : F64 := .fin neg 0 0 ⟨by decide, by decide, .inl rfl⟩

/-- `p / q` rounded to an integer, ties to even. -/
def halfEven (p q : Nat) : Nat :=
  let d := p / q
  let r := p % q
  if 2 * r < q then d else if q < 2 * r then d + 1 else if d % 2 = 0 then d else d + 1

/-- The float `± m * 2 ^ (e - 1074)` for `m ≤ 2 ^ 53`; infinity when it is too large. -/
def make (neg : Bool) (m e : Nat) : F64 :=
  if h : Canon m e then .fin neg m e h
  else if h : Canon (m / 2) (e + 1) then .fin neg (m / 2) (e + 1) h
  else .inf neg

/-- `± p / q` units of 2^-1074, rounded to the nearest float, ties to even (IEEE 754, roundTiesToEven). -/
def round (neg : Bool) (p q : Nat) : F64 :=
  let e := Nat.log2 (p / q) - 52
  make neg (halfEven p (q * 2 ^ e)) e

/-- `-x`. -/
def neg : F64 → F64
  | .nan => .nan
  | .inf s => .inf (!s)
  | .fin s m e h => .fin (!s) m e h

/-- A finite float in units of 2^-1074. -/
def signed (neg : Bool) (n : Nat) : Int := if neg then -(n : Int) else n

/-- `x + y`; an exact zero is `-0.0` only if both are. -/
def add : F64 → F64 → F64
  | .nan, _ => .nan
  | _, .nan => .nan
  | .inf s, .inf t => if s = t then .inf s else .nan
  | .inf s, .fin .. => .inf s
  | .fin .., .inf t => .inf t
  | .fin s m e _, .fin t n d _ =>
    let sum := signed s (m * 2 ^ e) + signed t (n * 2 ^ d)
    if sum = 0 then zero (s && t) else round (decide (sum < 0)) sum.natAbs 1

/-- `x - y`. -/
def sub (a b : F64) : F64 := add a (neg b)

/-- `x * y`. -/
def mul : F64 → F64 → F64
  | .nan, _ => .nan
  | _, .nan => .nan
  | .inf s, .inf t => .inf (s != t)
  | .inf s, .fin t n _ _ => if n = 0 then .nan else .inf (s != t)
  | .fin s m _ _, .inf t => if m = 0 then .nan else .inf (s != t)
  | .fin s m e _, .fin t n d _ => round (s != t) (m * 2 ^ e * (n * 2 ^ d)) (one)

/-- `x / y`. -/
def div : F64 → F64 → F64
  | .nan, _ => .nan
  | _, .nan => .nan
  | .inf _, .inf _ => .nan
  | .inf s, .fin t _ _ _ => .inf (s != t)
  | .fin s _ _ _, .inf t => zero (s != t)
  | .fin s m e _, .fin t n d _ =>
    if n = 0 then (if m = 0 then .nan else .inf (s != t)) else round (s != t) (m * 2 ^ e * one) (n * 2 ^ d)

/-- `x % y`: what is left after subtracting `y` as often as possible, with the sign of `x`. -/
def rem : F64 → F64 → F64
  | .nan, _ => .nan
  | _, .nan => .nan
  | .inf _, _ => .nan
  | .fin s m e h, .inf _ => .fin s m e h
  | .fin s m e _, .fin _ n d _ => if n = 0 then .nan else round s (m * 2 ^ e % (n * 2 ^ d)) 1

/-- `i64 as f64`. -/
def ofInt (i : Int64) : F64 := round (decide (i.toInt < 0)) (i.toInt.natAbs * one) 1

/-- `f64::partial_cmp`. -/
def cmp : F64 → F64 → Option Ordering
  | .nan, _ => none
  | _, .nan => none
  | .inf s, .inf t => some (if s = t then .eq else if s then .lt else .gt)
  | .inf s, .fin .. => some (if s then .lt else .gt)
  | .fin .., .inf t => some (if t then .gt else .lt)
  | .fin s m e _, .fin t n d _ => some (compare (signed s (m * 2 ^ e)) (signed t (n * 2 ^ d)))

/-- `==` on `f64`: nothing is equal to a NaN, and the two zeros are equal. -/
def eq : F64 → F64 → Bool
  | .inf s, .inf t => s == t
  | .fin s m e _, .fin t n d _ => signed s (m * 2 ^ e) == signed t (n * 2 ^ d)
  | _, _ => false

/-! ## From text -/

/-- `± d * 10 ^ k`, rounded. -/
def ofDecimal (neg : Bool) (d : Nat) (k : Int) : F64 := round neg (d * 10 ^ k.toNat * one) (10 ^ (-k).toNat)

/-- ASCII letters in lower case (`core::num::dec2flt` compares the special names without regard to case). -/
def lower (c : Char) : Char := if 'A' ≤ c ∧ c ≤ 'Z' then Char.ofNat (c.toNat + 32) else c

/-- An optional sign. -/
def sign : Str → Bool × Str
  | '-' :: s => (true, s)
  | '+' :: s => (false, s)
  | s => (false, s)

/-- The exponent after `e`: an optional sign and at least one digit. (std stops counting at 65536, which makes no difference to the value of a text with
fewer than that many digits.) -/
def exponent (s : Str) : Option Int :=
  let (neg, ds) := sign s
  if ds ≠ [] ∧ ds.all isDigit then some (if neg then -(digitsVal ds : Int) else digitsVal ds) else none

/-- The digits behind a point, if there is one, and what follows. -/
def fraction : Str → Str × Str
  | '.' :: t => (t.takeWhile isDigit, t.dropWhile isDigit)
  | t => ([], t)

/-- The power of ten behind the digits: 0 without exponent. -/
def suffix : Str → Option Int
  | [] => some 0
  | c :: t => if c = 'e' ∨ c = 'E' then exponent t else none

/-- A number without sign: digits with an optional point, at least one digit, an optional exponent. -/
def number (neg : Bool) (s : Str) : Option F64 :=
  let whole := s.takeWhile isDigit
  let (frac, rest) := fraction (s.dropWhile isDigit)
  if whole = [] ∧ frac = [] then none else (suffix rest).map fun x => ofDecimal neg (digitsVal (whole ++ frac)) (x - frac.length)

/-- `str::parse::<f64>`. -/
def parse (s : Str) : Option F64 :=
  let (neg, t) := sign s
  let l := t.map lower
  if l = c!"inf" ∨ l = c!"infinity" then some (.inf neg)
  else if l = c!"nan" then some .nan
  else number neg t

/-! ## To text -/

/-- An integer next to `p / q` that, times 10 ^ k, reads back as `f`; the nearer one first. -/
def pick (f : F64) (k : Int) (p q : Nat) : Option Nat :=
  let d := p / q
  if 2 * (p % q) < q then
    if ofDecimal false d k = f then some d else if ofDecimal false (d + 1) k = f then some (d + 1) else none
  else
    if ofDecimal false (d + 1) k = f then some (d + 1) else if ofDecimal false d k = f then some d else none

/-- A multiple of 10 ^ k next to `u` units that reads back as `f`. -/
def nearby (f : F64) (u : Nat) (k : Int) : Option Nat := pick f k (u * 10 ^ (-k).toNat) (one * 10 ^ k.toNat)

/-- The first `k` (from `low + n` down to `low`) for which there is such a multiple, with the multiple. -/
def search (f : F64) (u : Nat) (low : Int) : Nat → Nat × Int
  | 0 => ((nearby f u low).getD 0, low)
  | n + 1 =>
    match nearby f u (low + (n + 1 : Nat)) with
    | some d => (d, low + (n + 1 : Nat))
    | none => search f u low n

/-- The shortest decimal `d * 10 ^ k` that reads back as the positive float `m * 2 ^ (e - 1074)`, the nearest one of them
(`core::num::flt2dec::strategy::grisu::format_shortest`). No float needs more than 1074 decimals, and none is as large as 10 ^ 309. -/
def shortest (m e : Nat) (h : Canon m e) : Nat × Int := search (.fin false m e h) (m * 2 ^ e) (-1074) 1382

/-- `d * 10 ^ k` without exponent; with `point` also for integers with a fractional digit (`digits_to_dec_str`). -/
def plain (point : Bool) (d : Nat) (k : Int) : Str :=
  let s := natStr d
  if 0 ≤ k then s ++ List.replicate k.toNat '0' ++ (if point then c!".0" else [])
  else
    let n := (-k).toNat
    if n < s.length then s.take (s.length - n) ++ '.' :: s.drop (s.length - n)
    else c!"0." ++ List.replicate (n - s.length) '0' ++ s

/-- `d * 10 ^ k` with exponent (`digits_to_exp_str`). -/
def scientific (d : Nat) (k : Int) : Str :=
  let s := natStr d
  let x := k + s.length - 1
  s.take 1 ++ (if s.length = 1 then [] else '.' :: s.drop 1) ++ c!"e" ++ intStr x

/-- The sign before a text. -/
def minus (neg : Bool) : Str := if neg then c!"-" else []

/-- `Display for f64`: the shortest text that reads back, never with exponent. -/
def disp : F64 → Str
  | .nan => c!"NaN"
  | .inf neg => minus neg ++ c!"inf"
  | .fin neg m e h => minus neg ++ if m = 0 then c!"0" else plain false (shortest m e h).1 (shortest m e h).2

/-- `Debug for f64`: with a point, or with exponent below 1e-4 and from 1e16 on (`float_to_general_debug`). -/
def debug : F64 → Str
  | .nan => c!"NaN"
  | .inf neg => minus neg ++ c!"inf"
  | .fin neg m e h => minus neg ++
    if m = 0 then c!"0.0"
    else if m * 2 ^ e * 10 ^ 4 < one ∨ 10 ^ 16 * one ≤ m * 2 ^ e then scientific (shortest m e h).1 (shortest m e h).2
    else plain true (shortest m e h).1 (shortest m e h).2

end F64

/-- What is left open of a build: overflow checks, the escapes of characters outside ASCII, the order of `HashMap`s. -/
structure Build where
  checks : Bool
  escape : Char → Str
  order : List (Str × Str) → List (Str × Str)

/-- The model with `f64` as it is in Rust. -/
@[reducible] def rt64 (b : Build) : Rt F64 where
  fadd := F64.add
  fsub := F64.sub
  fmul := F64.mul
  fdiv := F64.div
  frem := F64.rem
  fneg := F64.neg
  fofInt := F64.ofInt
  fcmp := F64.cmp
  feq := F64.eq
  fparse := F64.parse
  fdisp := F64.disp
  fdebug := F64.debug
  checks := b.checks
  escape := b.escape
  order := b.order

end Am
