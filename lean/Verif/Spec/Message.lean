import Verif.Spec.Text
import Verif.Model.Http
/-! # Request messages, requests on the wire, form bodies -/
namespace Am.Spec
open Am

/-- The lines after the request line: headers `name: value` (trimmed) in order up to the first blank line or the end, lines without a colon
ignored; the last list is what follows the blank line. -/
inductive HeaderBlock : List Str → List Header → List Str → Prop
  | ends : HeaderBlock [] [] []
  | blank (l : Str) (r : List Str) : (∀ c ∈ l, isWs c = true) → HeaderBlock (l :: r) [] r
  | skip (l : Str) (r : List Str) (hs : List Header) (left : List Str) : (∃ c ∈ l, isWs c = false) → ':' ∉ l → HeaderBlock r hs left →
      HeaderBlock (l :: r) hs left
  | field (n v name value : Str) (r : List Str) (hs : List Header) (left : List Str) : ':' ∉ n → Trims n name → Trims v value → HeaderBlock r hs left →
      HeaderBlock ((n ++ ':' :: v) :: r) (⟨name, value⟩ :: hs) left

/-- The name/value pairs of the lines of a form body: the texts before and after the first colon of the trimmed line; lines without a colon
are ignored. -/
inductive PairLines : List Str → List (Str × Str) → Prop
  | nil : PairLines [] []
  | skip (l : Str) (r : List Str) (ps : List (Str × Str)) : ':' ∉ l → PairLines r ps → PairLines (l :: r) ps
  | pair (l n v : Str) (r : List Str) (ps : List (Str × Str)) : Trims l (n ++ ':' :: v) → ':' ∉ n → PairLines r ps → PairLines (l :: r) ((n, v) :: ps)

/-! ## Reading a request from its bytes -/

/-- A line ended by carriage return and line feed. -/
def wireLine (bs : List UInt8) : Option (Str × List UInt8) :=
  let l := bs.takeWhile (· ≠ 10)
  match bs.dropWhile (· ≠ 10) with
  | [] => none
  | _ :: r => if l.getLast? = some 13 then (fromUtf8 l.dropLast).map fun s => (s, r) else none

/-- A blank or tab. -/
def ows (c : Char) : Bool := c = ' ' || c = '\t'

/-- A text without blanks and tabs at its ends. -/
def stripOws (s : Str) : Str := ((s.dropWhile ows).reverse.dropWhile ows).reverse

/-- Header lines up to the empty line; the first argument is fuel. -/
def wireHeaders : Nat → List UInt8 → Option (List (Str × Str) × List UInt8)
  | 0, _ => none
  | n + 1, bs =>
    match wireLine bs with
    | none => none
    | some ([], r) => some ([], r)
    | some (l, r) =>
      if l.contains ':' then
        (wireHeaders n r).map fun p => ((l.takeWhile (· ≠ ':'), stripOws ((l.dropWhile (· ≠ ':')).drop 1)) :: p.1, p.2)
      else none

/-- The parts of a text separated by single blanks. -/
def splitBlank : Str → List Str
  | [] => [[]]
  | c :: s =>
    if c = ' ' then [] :: splitBlank s
    else
      match splitBlank s with
      | w :: ws => (c :: w) :: ws
      | [] => [[c]]

/-- A request read from the wire: method, target, version, headers, and the bytes after the empty line. -/
def readWire (bs : List UInt8) : Option (Str × Str × Str × List (Str × Str) × List UInt8) :=
  match wireLine bs with
  | none => none
  | some (l, r) =>
    match splitBlank l with
    | [m, t, v] => (wireHeaders (r.length + 1) r).map fun p => (m, t, v, p.1, p.2)
    | _ => none

/-! ## Form decoding (the `application/x-www-form-urlencoded` parser) -/

/-- The value of a hexadecimal digit. -/
def unhex (b : UInt8) : Option Nat :=
  let n := b.toNat
  if 48 ≤ n ∧ n ≤ 57 then some (n - 48) else if 65 ≤ n ∧ n ≤ 70 then some (n - 55) else if 97 ≤ n ∧ n ≤ 102 then some (n - 87) else none

/-- Percent-decoding, with `+` for a blank. A percent sign not followed by two hexadecimal digits stands for itself. -/
def unescape : List UInt8 → List UInt8
  | [] => []
  | 37 :: a :: b :: r =>
    match unhex a, unhex b with
    | some x, some y => UInt8.ofNat (16 * x + y) :: unescape r
    | _, _ => 37 :: unescape (a :: b :: r)
  | c :: r => (if c = 43 then 32 else c) :: unescape r

/-- The parts of a byte sequence separated by a byte. -/
def splitByte (b : UInt8) : List UInt8 → List (List UInt8)
  | [] => [[]]
  | c :: s =>
    if c = b then [] :: splitByte b s
    else
      match splitByte b s with
      | w :: ws => (c :: w) :: ws
      | [] => [[c]]

/-- One `name=value`; without `=` the value is empty. -/
def formPair (bs : List UInt8) : Option (Str × Str) :=
  match fromUtf8 (unescape (bs.takeWhile (· ≠ 61))), fromUtf8 (unescape ((bs.dropWhile (· ≠ 61)).drop 1)) with
  | some n, some v => some (n, v)
  | _, _ => none

/-- Decode a list with a partial decoder. -/
def decodeAll {α β : Type} (f : α → Option β) : List α → Option (List β)
  | [] => some []
  | a :: l =>
    match f a, decodeAll f l with
    | some b, some bs => some (b :: bs)
    | _, _ => none

/-- The pairs of a form body: the non-empty parts between `&`. -/
def formDecode (bs : List UInt8) : Option (List (Str × Str)) :=
  decodeAll formPair ((splitByte 38 bs).filter fun p => !p.isEmpty)

/-! ## The form encoding itself (URL Standard, section 5.2) -/

/-- The bytes that stand for themselves: letters, digits and `*`, `-`, `.`, `_`. -/
def KeptByte (b : UInt8) : Prop :=
  b ∈ utf8 c!"*-._0123456789ABCDEFGHIJKLMNOPQRSTUVWXYZabcdefghijklmnopqrstuvwxyz"

/-- How one byte is written. -/
inductive WritesByte : UInt8 → List UInt8 → Prop
  | kept (b : UInt8) : KeptByte b → WritesByte b [b]
  /-- a space is a plus sign -/
  | space : WritesByte 32 [43]
  /-- anything else is `%` and two upper case digits -/
  | escaped (b h l : UInt8) (x y : Nat) : ¬ KeptByte b → b ≠ 32 → b.toNat = 16 * x + y → (utf8 c!"0123456789ABCDEF")[x]? = some h →
      (utf8 c!"0123456789ABCDEF")[y]? = some l → WritesByte b [37, h, l]

/-- How several bytes are written. -/
inductive WritesBytes : List UInt8 → List UInt8 → Prop
  | nil : WritesBytes [] []
  | cons (b : UInt8) (bs t ts : List UInt8) : WritesByte b t → WritesBytes bs ts → WritesBytes (b :: bs) (t ++ ts)

/-- How a list of names and values is written: `name=value`, with `&` between. -/
inductive WritesForm : List (Str × Str) → List UInt8 → Prop
  | nil : WritesForm [] []
  | one (n v : Str) (tn tv : List UInt8) : WritesBytes (utf8 n) tn → WritesBytes (utf8 v) tv → WritesForm [(n, v)] (tn ++ 61 :: tv)
  | cons (n v : Str) (ps : List (Str × Str)) (tn tv ts : List UInt8) : ps ≠ [] → WritesBytes (utf8 n) tn → WritesBytes (utf8 v) tv → WritesForm ps ts →
      WritesForm ((n, v) :: ps) (tn ++ 61 :: tv ++ 38 :: ts)

/-! ## Which content type a message declares -/

/-- The value of the first header called `content-type`, in any capitalisation. -/
inductive Declares : List Header → Str → Prop
  | here (h : Header) (hs : List Header) : lower h.name = c!"content-type" → Declares (h :: hs) h.value
  | there (h : Header) (hs : List Header) (v : Str) : lower h.name ≠ c!"content-type" → Declares hs v → Declares (h :: hs) v

end Am.Spec
