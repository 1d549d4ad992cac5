import Verif.Model.Float64
import Verif.Spec.Written
/-! # What `f64` arithmetic should give -/
namespace Am.Spec
open Am

/-- The value of a finite float, in units of 2^-1074. -/
def value : F64 → Option Int
  | .fin neg m e _ => some (if neg then -((m * 2 ^ e : Nat) : Int) else (m * 2 ^ e : Nat))
  | _ => none

/-- The float has a minus sign. -/
def negative : F64 → Bool
  | .nan => false
  | .inf neg => neg
  | .fin neg _ _ _ => neg

/-- The last binary digit of the float is 0. -/
def evenDigit : F64 → Prop
  | .fin _ m _ _ => m % 2 = 0
  | _ => False

/-- How far `u` is from `p / q`, times `q`. -/
def off (u p : Int) (q : Nat) : Nat := (u * q - p).natAbs

/-- `p / q` is at least half-way between the largest float and the next power of two. -/
def TooLarge (p : Int) (q : Nat) : Prop := (2 ^ 54 - 1) * 2 ^ 2044 * q ≤ p.natAbs

/-- `f` is what IEEE 754 gives for the exact result of `p / q` units: the nearest float, the one with an even last digit if two are equally near, or
infinity if the result is too large. -/
inductive Rounds (p : Int) (q : Nat) : F64 → Prop
  | near (f : F64) (u : Int) : ¬ TooLarge p q → value f = some u → (∀ g v, value g = some v → off u p q ≤ off v p q) →
      (∀ g v, value g = some v → off v p q = off u p q → v = u ∨ evenDigit f) → Rounds p q f
  | far (neg : Bool) : TooLarge p q → (neg = true ↔ p < 0) → Rounds p q (.inf neg)

/-- The exact result `p / q` units, rounded, with the given sign (which matters for zeros). -/
def Nearest (p : Int) (q : Nat) (neg : Bool) (f : F64) : Prop := Rounds p q f ∧ negative f = neg

/-! ## The operations of IEEE 754 -/

/-- `f` is the sum of `a` and `b`. -/
inductive Sum : F64 → F64 → F64 → Prop
  | finite (a b f : F64) (u v : Int) : value a = some u → value b = some v →
      Nearest (u + v) 1 (if u + v = 0 then negative a && negative b else decide (u + v < 0)) f → Sum a b f
  | left (s : Bool) (b : F64) : b ≠ .nan → b ≠ .inf (!s) → Sum (.inf s) b (.inf s)
  | right (a : F64) (t : Bool) : a ≠ .nan → a ≠ .inf (!t) → Sum a (.inf t) (.inf t)
  | clash (s : Bool) : Sum (.inf s) (.inf (!s)) .nan
  | nanLeft (b : F64) : Sum .nan b .nan
  | nanRight (a : F64) : Sum a .nan .nan

/-- `f` is the difference of `a` and `b`. -/
inductive Difference : F64 → F64 → F64 → Prop
  | finite (a b f : F64) (u v : Int) : value a = some u → value b = some v →
      Nearest (u - v) 1 (if u - v = 0 then negative a && !negative b else decide (u - v < 0)) f → Difference a b f
  | left (s : Bool) (b : F64) : b ≠ .nan → b ≠ .inf s → Difference (.inf s) b (.inf s)
  | right (a : F64) (t : Bool) : a ≠ .nan → a ≠ .inf t → Difference a (.inf t) (.inf (!t))
  | clash (s : Bool) : Difference (.inf s) (.inf s) .nan
  | nanLeft (b : F64) : Difference .nan b .nan
  | nanRight (a : F64) : Difference a .nan .nan

/-- `f` is the product of `a` and `b`. -/
inductive Product : F64 → F64 → F64 → Prop
  | finite (a b f : F64) (u v : Int) : value a = some u → value b = some v → Nearest (u * v) (2 ^ 1074) (negative a != negative b) f → Product a b f
  | left (s : Bool) (b : F64) : b ≠ .nan → value b ≠ some 0 → Product (.inf s) b (.inf (s != negative b))
  | right (a : F64) (t : Bool) : a ≠ .nan → value a ≠ some 0 → Product a (.inf t) (.inf (negative a != t))
  | zeroRight (s : Bool) (b : F64) : value b = some 0 → Product (.inf s) b .nan
  | zeroLeft (a : F64) (t : Bool) : value a = some 0 → Product a (.inf t) .nan
  | nanLeft (b : F64) : Product .nan b .nan
  | nanRight (a : F64) : Product a .nan .nan

/-- `f` is the quotient of `a` and `b`. -/
inductive Ratio : F64 → F64 → F64 → Prop
  | finite (a b f : F64) (u v : Int) : value a = some u → value b = some v → v ≠ 0 →
      Nearest (u * 2 ^ 1074 * v.sign) v.natAbs (negative a != negative b) f → Ratio a b f
  | byZero (a b : F64) (u : Int) : value a = some u → u ≠ 0 → value b = some 0 → Ratio a b (.inf (negative a != negative b))
  | zeros (a b : F64) : value a = some 0 → value b = some 0 → Ratio a b .nan
  | left (s : Bool) (b : F64) (v : Int) : value b = some v → Ratio (.inf s) b (.inf (s != negative b))
  | right (a f : F64) (t : Bool) (u : Int) : value a = some u → value f = some 0 → negative f = (negative a != t) → Ratio a (.inf t) f
  | infinities (s t : Bool) : Ratio (.inf s) (.inf t) .nan
  | nanLeft (b : F64) : Ratio .nan b .nan
  | nanRight (a : F64) : Ratio a .nan .nan

/-- `f` is what is left of `a` when `b` is subtracted as often as it fits, exactly and with the sign of `a`. -/
inductive Remainder : F64 → F64 → F64 → Prop
  | finite (a b f : F64) (u v : Int) : value a = some u → value b = some v → v ≠ 0 → value f = some (u.tmod v) → negative f = negative a → Remainder a b f
  | byZero (a b : F64) : value b = some 0 → Remainder a b .nan
  | byInf (a : F64) (u : Int) (t : Bool) : value a = some u → Remainder a (.inf t) a
  | left (s : Bool) (b : F64) : Remainder (.inf s) b .nan
  | nanLeft (b : F64) : Remainder .nan b .nan
  | nanRight (a : F64) : Remainder a .nan .nan

/-- `f` stands for the number `v` in an operation with a float: `v` itself, or the float nearest to an integer. -/
inductive Stands : Value F64 → F64 → Prop
  | float (f : F64) : Stands (.float f) f
  | int (i : Int64) (f : F64) : Nearest (i.toInt * 2 ^ 1074) 1 (decide (i.toInt < 0)) f → Stands (.int i) f

/-- The exact value of a finite number, in units of 2^-1074. -/
def exactly : Value F64 → Option Int
  | .int i => some (i.toInt * 2 ^ 1074)
  | .float f => value f
  | _ => none

/-- One of the two numbers is a float. -/
def OneFloat (l r : Value F64) : Prop := (∃ f, l = .float f) ∨ ∃ f, r = .float f

/-! ## Texts -/

/-- Digits, possibly with a point before, between or behind them: the digits as a number, and how many stand behind the point. -/
inductive Mantissa : Str → Nat → Nat → Prop
  | whole (a : Str) : a ≠ [] → (∀ c ∈ a, isDigit c = true) → Mantissa a (decimal a) 0
  | point (a b : Str) : a ++ b ≠ [] → (∀ c ∈ a ++ b, isDigit c = true) → Mantissa (a ++ '.' :: b) (decimal (a ++ b)) b.length

/-- An exponent, if there is one. -/
inductive Exponent : Str → Int → Prop
  | none : Exponent [] 0
  | plain (e : Char) (a : Str) : e = 'e' ∨ e = 'E' → a ≠ [] → (∀ c ∈ a, isDigit c = true) → Exponent (e :: a) (decimal a)
  | plus (e : Char) (a : Str) : e = 'e' ∨ e = 'E' → a ≠ [] → (∀ c ∈ a, isDigit c = true) → Exponent (e :: '+' :: a) (decimal a)
  | minus (e : Char) (a : Str) : e = 'e' ∨ e = 'E' → a ≠ [] → (∀ c ∈ a, isDigit c = true) → Exponent (e :: '-' :: a) (-(decimal a : Int))

/-- A sign, if there is one. -/
inductive Sign : Str → Bool → Prop
  | none : Sign [] false
  | plus : Sign ['+'] false
  | minus : Sign ['-'] true

/-- The text says `± d * 10 ^ k`. -/
inductive NumberText : Str → Bool → Nat → Int → Prop
  | mk (s a x : Str) (neg : Bool) (d n : Nat) (k : Int) : Sign s neg → Mantissa a d n → Exponent x k → NumberText (s ++ (a ++ x)) neg d (k - n)

/-- The texts that name infinity and NaN: in any case, after an optional sign. -/
inductive NameText : Str → F64 → Prop
  | inf (s w : Str) (neg : Bool) : Sign s neg → w.map Char.toLower = c!"inf" ∨ w.map Char.toLower = c!"infinity" → NameText (s ++ w) (.inf neg)
  | nan (s w : Str) (neg : Bool) : Sign s neg → w.map Char.toLower = c!"nan" → NameText (s ++ w) .nan

/-- `f` is the float for the number `± d * 10 ^ k`: the nearest one, with that sign. -/
def IsFloat (neg : Bool) (d : Nat) (k : Int) (f : F64) : Prop :=
  Rounds ((if neg then -1 else 1) * (d * 10 ^ k.toNat * 2 ^ 1074)) (10 ^ (-k).toNat) f ∧ negative f = neg

/-- What a text says as a float, if it says one: a number, rounded, or a name. -/
inductive FloatText : Str → F64 → Prop
  | number (t : Str) (neg : Bool) (d : Nat) (k : Int) (f : F64) : NumberText t neg d k → IsFloat neg d k f → FloatText t f
  | name (t : Str) (f : F64) : NameText t f → FloatText t f

/-- `d * 10 ^ k` is a text of the positive float of `u` units with as few digits as possible, and with that power of ten the nearest. -/
structure Shortest (d : Nat) (k : Int) (u : Nat) (f : F64) : Prop where
  reads : IsFloat false d k f
  digits : ∀ d' k', IsFloat false d' k' f → ∀ n, d' < 10 ^ n → d < 10 ^ n
  near : ∀ d', IsFloat false d' k f → ((d * 10 ^ k.toNat * 2 ^ 1074 - u * 10 ^ (-k).toNat : Int)).natAbs ≤ ((d' * 10 ^ k.toNat * 2 ^ 1074 - u * 10 ^ (-k).toNat : Int)).natAbs

/-- The text is `d * 10 ^ k`, without exponent and without needless zeros; with `point` there are digits on both sides of a point in any case. -/
inductive Plain (point : Bool) : Nat → Int → Str → Prop
  | whole (s : Str) (d k : Nat) : Decimal s d → Plain point d k (s ++ List.replicate k '0' ++ if point then c!".0" else [])
  | point (a b : Str) (d : Nat) : a ≠ [] → b ≠ [] → Decimal (a ++ b) d → Plain point d (-(b.length : Int)) (a ++ '.' :: b)
  | small (s : Str) (d n : Nat) : Decimal s d → Plain point d (-((n + s.length : Nat) : Int)) (c!"0." ++ List.replicate n '0' ++ s)

/-- The text is `d * 10 ^ k` with exponent: one digit before the point. -/
inductive Scientific : Nat → Int → Str → Prop
  | one (c : Char) (d : Nat) (k : Int) (x : Str) : Decimal [c] d → Decimal x k → Scientific d k (c :: 'e' :: x)
  | more (c : Char) (b : Str) (d : Nat) (k : Int) (x : Str) : b ≠ [] → Decimal (c :: b) d → Decimal x (k + b.length) → Scientific d k (c :: '.' :: b ++ 'e' :: x)

end Am.Spec
