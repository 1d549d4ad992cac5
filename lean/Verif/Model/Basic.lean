/-!
# Shared vocabulary of the model: text, characters, results, finite maps, decimal numbers.

Rust `String`/`&str` is a list of Unicode scalar values (`Char`); Rust `HashMap<String, _>` is an
association list whose keys are kept distinct by `amInsert`.
-/
namespace Am

/-- A Rust `String`/`&str` as its list of Unicode scalar values. -/
abbrev Str := List Char

open Lean in
/-- `c!"abc"` is the list `['a','b','c']` (a `Str` literal that computes in the kernel). -/
macro:max "c!" s:str : term => do
  let cs := s.getString.toList.map (fun c => Syntax.mkCharLit c)
  `(([$(cs.toArray),*] : Str))

/-- Outcome of a Rust call that may return `Err`, panic, or never return. -/
inductive Res (α : Type) where
  | ok (a : α)
  | err (msg : Str)
  | panic
  | hang
  deriving DecidableEq, Repr

namespace Res

/-- The `?` operator. -/
def bind {α β : Type} : Res α → (α → Res β) → Res β
  | ok a, f => f a
  | err m, _ => err m
  | panic, _ => panic
  | hang, _ => hang

instance : Monad Res where
  pure := ok
  bind := bind

end Res

/-! ## Characters -/

/-- Rust `char::is_whitespace`: the Unicode `White_Space` set (std documentation). The `regex` crate's
`\s` and `str::trim`, `str::split_whitespace` use the same set. -/
def isWs (c : Char) : Bool :=
  let n := c.toNat
  (9 ≤ n && n ≤ 13) || n == 32 || n == 0x85 || n == 0xA0 || n == 0x1680 ||
  (0x2000 ≤ n && n ≤ 0x200A) || n == 0x2028 || n == 0x2029 || n == 0x202F || n == 0x205F || n == 0x3000

/-- Rust `char::is_ascii_digit`. -/
def isDigit (c : Char) : Bool := '0' ≤ c && c ≤ '9'

/-- `'A'..='Z' | 'a'..='z'`. -/
def isAlpha (c : Char) : Bool := ('A' ≤ c && c ≤ 'Z') || ('a' ≤ c && c ≤ 'z')

/-- `'A'..='Z' | 'a'..='z' | '_'` (lexer.rs:134): a character that starts a word. -/
def isWordStart (c : Char) : Bool := isAlpha c || c == '_'

/-- `is_ascii_alphanumeric() || '_'` (lexer.rs:137): a character that continues a word. -/
def isWordChar (c : Char) : Bool := isAlpha c || isDigit c || c == '_'

/-! ## `str` methods -/

/-- Rust `str::trim_start`. -/
def trimStart (s : Str) : Str := s.dropWhile isWs

/-- Rust `str::trim_end`. -/
def trimEnd (s : Str) : Str := (s.reverse.dropWhile isWs).reverse

/-- Rust `str::trim`. -/
def trim (s : Str) : Str := trimEnd (trimStart s)

/-- Rust `str::split_once(c)` for a character separator: the parts before and after the first `c`. -/
def splitOnce (c : Char) : Str → Option (Str × Str)
  | [] => none
  | x :: xs => if x = c then some ([], xs) else (splitOnce c xs).map fun p => (x :: p.1, p.2)

/-- Rust `str::split_whitespace`, collected: `acc` is the current word, reversed. -/
def splitWsAux : Str → Str → List Str
  | acc, [] => if acc.isEmpty then [] else [acc.reverse]
  | acc, c :: cs =>
    if isWs c then (if acc.isEmpty then splitWsAux [] cs else acc.reverse :: splitWsAux [] cs)
    else splitWsAux (c :: acc) cs

/-- Rust `str::split_whitespace`: the maximal runs of non-whitespace characters. -/
def splitWs (s : Str) : List Str := splitWsAux [] s

/-- One step of Rust `str::lines`: drop one trailing `'\r'`. -/
def stripCr (s : Str) : Str := if s.getLast? = some '\r' then s.dropLast else s

/-- Rust `str::split_inclusive('\n')` without the newlines; `acc` is the current line, reversed. A last
line is produced only when it is non-empty; only lines ended by `'\n'` lose their `'\r'` (std: `lines`). -/
def linesAux : Str → Str → List Str
  | acc, [] => if acc.isEmpty then [] else [acc.reverse]
  | acc, c :: cs => if c = '\n' then stripCr acc.reverse :: linesAux [] cs else linesAux (c :: acc) cs

/-- Rust `str::lines`. -/
def lines (s : Str) : List Str := linesAux [] s

/-! ## Finite maps (`HashMap<String, V>`) -/

/-- `HashMap::get`. -/
def amGet {V : Type} (k : Str) : List (Str × V) → Option V
  | [] => none
  | (k', v) :: l => if k' = k then some v else amGet k l

/-- `HashMap::insert`: replaces the value of an existing key, otherwise adds the pair. -/
def amInsert {V : Type} (k : Str) (v : V) : List (Str × V) → List (Str × V)
  | [] => [(k, v)]
  | (k', v') :: l => if k' = k then (k, v) :: l else (k', v') :: amInsert k v l

/-- `HashMap::remove` (the map afterwards). -/
def amErase {V : Type} (k : Str) : List (Str × V) → List (Str × V)
  | [] => []
  | (k', v') :: l => if k' = k then l else (k', v') :: amErase k l

/-- `HashMap::extend`: insert every pair in turn. -/
def amExtend {V : Type} (m : List (Str × V)) (l : List (Str × V)) : List (Str × V) :=
  l.foldl (fun m p => amInsert p.1 p.2 m) m

/-! ## Decimal numbers -/

/-- The digit character of `d < 10`. -/
def digitChar (d : Nat) : Char := Char.ofNat (48 + d)

/-- The value of a digit character. -/
def digitVal (c : Char) : Nat := c.toNat - 48

/-- Decimal digits of `n`; the first argument is fuel (`n + 1` always suffices). -/
def natStrAux : Nat → Nat → Str
  | 0, _ => []
  | f + 1, n => if n < 10 then [digitChar n] else natStrAux f (n / 10) ++ [digitChar (n % 10)]

/-- `Display` of an unsigned integer. -/
def natStr (n : Nat) : Str := natStrAux (n + 1) n

/-- `Display` of a signed integer. -/
def intStr (i : Int) : Str := if i < 0 then '-' :: natStr i.natAbs else natStr i.natAbs

/-- Value of a digit string read left to right. -/
def digitsVal (s : Str) : Nat := s.foldl (fun a c => a * 10 + digitVal c) 0

/-- Rust `str::parse` for an unsigned integer type with maximum `max`: an optional leading `+`, then one or
more ASCII digits whose value does not exceed `max`. -/
def parseUnsigned (max : Nat) (s : Str) : Option Nat :=
  let ds := match s with
    | '+' :: r => r
    | _ => s
  if ds.isEmpty || !ds.all isDigit then none
  else if digitsVal ds ≤ max then some (digitsVal ds) else none

/-! ## UTF-8 -/

/-- UTF-8 encoding of a text (`str::as_bytes`). -/
def utf8 (s : Str) : List UInt8 := s.flatMap String.utf8EncodeChar

/-- `String::from_utf8`: the text whose UTF-8 encoding is the given byte sequence, if there is one. -/
def fromUtf8 (bs : List UInt8) : Option Str :=
  (ByteArray.utf8Decode? ⟨bs.toArray⟩).map Array.toList

end Am
