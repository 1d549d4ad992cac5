import Verif.Spec.Basic
import Verif.Model.Value
import Verif.Proofs.Maps
/-!
# JSON documents (RFC 8259)

Independent of the program: the syntax of documents, their texts in every whitespace layout, and the value a document denotes.
-/
namespace Am.Spec
open Am
variable {F : Type} [Rt F]

/-- A character of a JSON string as written. -/
inductive JChar where
  /-- itself -/
  | plain (c : Char)
  /-- a backslash and one of `"\/bfnrt` -/
  | short (c : Char)
  /-- a backslash, `u` and four hexadecimal digits -/
  | unicode (a b c d : Char)
  deriving DecidableEq, Repr

/-- A JSON number as written. -/
structure JNum where
  neg : Bool
  int : Str
  frac : Option Str
  /-- `e` or `E`, an optional sign, the digits -/
  exp : Option (Char × Option Char × Str)
  deriving DecidableEq, Repr

/-- A JSON document as written, without the layout. -/
inductive JsonDoc where
  | null
  | bool (b : Bool)
  | num (n : JNum)
  | str (s : List JChar)
  | arr (items : List JsonDoc)
  | obj (members : List (List JChar × JsonDoc))

/-- Value of a hexadecimal digit. -/
def hexDigit (c : Char) : Option Nat :=
  if isDigit c then some (c.toNat - 48)
  else if 'a' ≤ c && c ≤ 'f' then some (c.toNat - 87)
  else if 'A' ≤ c && c ≤ 'F' then some (c.toNat - 55)
  else none

/-- A well-formed string character. -/
def JChar.Ok : JChar → Prop
  | .plain c => c ≠ '"' ∧ c ≠ '\\' ∧ 32 ≤ c.toNat
  | .short c => c ∈ c!"\"\\/bfnrt"
  | .unicode a b c d => (hexDigit a).isSome ∧ (hexDigit b).isSome ∧ (hexDigit c).isSome ∧ (hexDigit d).isSome

/-- The text of a string character. -/
def JChar.text : JChar → Str
  | .plain c => [c]
  | .short c => ['\\', c]
  | .unicode a b c d => ['\\', 'u', a, b, c, d]

/-- The text of a string. -/
def jstrText (s : List JChar) : Str := ['"'] ++ s.flatMap JChar.text ++ ['"']

/-- What a short escape stands for. -/
def shortChar : Char → Char
  | 'b' => Char.ofNat 8 | 'f' => Char.ofNat 12 | 'n' => '\n' | 'r' => '\r' | 't' => '\t' | c => c

/-- The code unit of a unicode escape. -/
def codeUnit (a b c d : Char) : Nat :=
  (((hexDigit a).getD 0 * 16 + (hexDigit b).getD 0) * 16 + (hexDigit c).getD 0) * 16 + (hexDigit d).getD 0

/-- The text a string denotes. -/
inductive JStrVal : List JChar → Str → Prop
  | nil : JStrVal [] []
  | plain (c : Char) (l : List JChar) (s : Str) : JStrVal l s → JStrVal (.plain c :: l) (c :: s)
  | short (c : Char) (l : List JChar) (s : Str) : JStrVal l s → JStrVal (.short c :: l) (shortChar c :: s)
  | unicode (a b c d x : Char) (l : List JChar) (s : Str) : x.toNat = codeUnit a b c d → JStrVal l s → JStrVal (.unicode a b c d :: l) (x :: s)
  | pair (a b c d a' b' c' d' x : Char) (l : List JChar) (s : Str) :
      0xD800 ≤ codeUnit a b c d → codeUnit a b c d < 0xDC00 → 0xDC00 ≤ codeUnit a' b' c' d' → codeUnit a' b' c' d' < 0xE000 →
      x.toNat = 0x10000 + (codeUnit a b c d - 0xD800) * 0x400 + (codeUnit a' b' c' d' - 0xDC00) → JStrVal l s →
      JStrVal (.unicode a b c d :: .unicode a' b' c' d' :: l) (x :: s)

/-- One or more decimal digits. -/
def Digits (s : Str) : Prop := s ≠ [] ∧ ∀ c ∈ s, isDigit c = true

/-- A well-formed number: no superfluous leading zero. -/
def JNum.Ok (n : JNum) : Prop :=
  Digits n.int ∧ (n.int = ['0'] ∨ n.int.head? ≠ some '0') ∧ (∀ f, n.frac = some f → Digits f) ∧
  ∀ e s d, n.exp = some (e, s, d) → (e = 'e' ∨ e = 'E') ∧ (∀ x, s = some x → x = '+' ∨ x = '-') ∧ Digits d

/-- The text of a number. -/
def JNum.text (n : JNum) : Str :=
  (if n.neg then ['-'] else []) ++ n.int ++ (match n.frac with | some f => '.' :: f | none => []) ++
    (match n.exp with | some (e, s, d) => e :: (s.toList ++ d) | none => [])

/-- JSON whitespace. -/
def JWs (s : Str) : Prop := ∀ c ∈ s, c = ' ' ∨ c = '\t' ∨ c = '\n' ∨ c = '\r'

mutual
/-- The text is one of the texts of the document, without whitespace around it. -/
inductive JsonText : JsonDoc → Str → Prop
  | null : JsonText .null c!"null"
  | bool (b : Bool) : JsonText (.bool b) (if b then c!"true" else c!"false")
  | num (n : JNum) : n.Ok → JsonText (.num n) n.text
  | str (s : List JChar) : (∀ c ∈ s, c.Ok) → JsonText (.str s) (jstrText s)
  | noItems (w : Str) : JWs w → JsonText (.arr []) (['['] ++ w ++ [']'])
  | arr (j : JsonDoc) (js : List JsonDoc) (s : Str) : JsonItems (j :: js) s → JsonText (.arr (j :: js)) (['['] ++ s ++ [']'])
  | noMembers (w : Str) : JWs w → JsonText (.obj []) (['{'] ++ w ++ ['}'])
  | obj (m : List JChar × JsonDoc) (ms : List (List JChar × JsonDoc)) (s : Str) : JsonMembers (m :: ms) s →
      JsonText (.obj (m :: ms)) (['{'] ++ s ++ ['}'])
/-- The items of an array with the commas and whitespace. -/
inductive JsonItems : List JsonDoc → Str → Prop
  | last (j : JsonDoc) (w s w' : Str) : JWs w → JWs w' → JsonText j s → JsonItems [j] (w ++ s ++ w')
  | cons (j : JsonDoc) (js : List JsonDoc) (w s w' r : Str) : JWs w → JWs w' → JsonText j s → JsonItems js r →
      JsonItems (j :: js) (w ++ s ++ w' ++ [','] ++ r)
/-- The members of an object with the colons, commas and whitespace. -/
inductive JsonMembers : List (List JChar × JsonDoc) → Str → Prop
  | last (k : List JChar) (j : JsonDoc) (w w1 w2 s w3 : Str) : JWs w → JWs w1 → JWs w2 → JWs w3 → (∀ c ∈ k, c.Ok) → JsonText j s →
      JsonMembers [(k, j)] (w ++ jstrText k ++ w1 ++ [':'] ++ w2 ++ s ++ w3)
  | cons (k : List JChar) (j : JsonDoc) (ms : List (List JChar × JsonDoc)) (w w1 w2 s w3 r : Str) : JWs w → JWs w1 → JWs w2 → JWs w3 →
      (∀ c ∈ k, c.Ok) → JsonText j s → JsonMembers ms r →
      JsonMembers ((k, j) :: ms) (w ++ jstrText k ++ w1 ++ [':'] ++ w2 ++ s ++ w3 ++ [','] ++ r)
end

/-- A document with whitespace around it. -/
def JsonBody (j : JsonDoc) (body : Str) : Prop := ∃ w s w', JWs w ∧ JWs w' ∧ JsonText j s ∧ body = w ++ s ++ w'

/-- The last value given for a name. -/
def lastValue (k : Str) : List (Str × Value F) → Option (Value F)
  | [] => none
  | (n, v) :: l => (lastValue k l).or (if n = k then some v else none)

mutual
/-- The value a document denotes. Integers are 64-bit integers; numbers with a fraction or an exponent are floats; an object maps each
name to the last value given for it. -/
inductive Denotes : JsonDoc → Value F → Prop
  | null : Denotes .null .null
  | bool (b : Bool) : Denotes (.bool b) (.bool b)
  | int (n : JNum) (i : Int64) : n.frac = none → n.exp = none → i.toInt = (if n.neg then -(decimal n.int : Int) else decimal n.int) →
      Denotes (.num n) (.int i)
  | float (n : JNum) (f : F) : ¬ (n.frac = none ∧ n.exp = none) → Rt.fparse n.text = some f → Denotes (.num n) (.float f)
  | str (s : List JChar) (x : Str) : JStrVal s x → Denotes (.str s) (.str x)
  | arr (js : List JsonDoc) (vs : List (Value F)) : DenotesAll js vs → Denotes (.arr js) (.arr vs)
  | obj (ms : List (List JChar × JsonDoc)) (vs m : List (Str × Value F)) : DenotesMembers ms vs → KeysNodup m →
      (∀ k, amGet k m = lastValue k vs) → Denotes (.obj ms) (.map m)
/-- The values of the items. -/
inductive DenotesAll : List JsonDoc → List (Value F) → Prop
  | nil : DenotesAll [] []
  | cons (j : JsonDoc) (js : List JsonDoc) (v : Value F) (vs : List (Value F)) : Denotes j v → DenotesAll js vs → DenotesAll (j :: js) (v :: vs)
/-- The names and values of the members. -/
inductive DenotesMembers : List (List JChar × JsonDoc) → List (Str × Value F) → Prop
  | nil : DenotesMembers [] []
  | cons (k : List JChar) (j : JsonDoc) (ms : List (List JChar × JsonDoc)) (n : Str) (v : Value F) (vs : List (Str × Value F)) :
      JStrVal k n → Denotes j v → DenotesMembers ms vs → DenotesMembers ((k, j) :: ms) ((n, v) :: vs)
end

/-- A string written without escapes. -/
def PlainStr (s : List JChar) : Prop := ∀ c ∈ s, ∃ x, c = .plain x

/-- A number written without sign and exponent that is representable. -/
def PlainNum (F : Type) [Rt F] (n : JNum) : Prop :=
  n.neg = false ∧ n.exp = none ∧ (n.frac = none → decimal n.int ≤ 9223372036854775807) ∧
  (∀ f, n.frac = some f → ∃ x : F, Rt.fparse n.text = some x)

mutual
/-- The document has no escapes, negative numbers or exponents, and its numbers are representable. -/
def PlainJson (F : Type) [Rt F] : JsonDoc → Prop
  | .null | .bool _ => True
  | .num n => PlainNum F n
  | .str s => PlainStr s
  | .arr js => PlainAll F js
  | .obj ms => PlainMembers F ms
termination_by structural j => j
/-- All items. -/
def PlainAll (F : Type) [Rt F] : List JsonDoc → Prop
  | [] => True
  | j :: js => PlainJson F j ∧ PlainAll F js
termination_by structural l => l
/-- All members. -/
def PlainMembers (F : Type) [Rt F] : List (List JChar × JsonDoc) → Prop
  | [] => True
  | (k, j) :: ms => PlainStr k ∧ PlainJson F j ∧ PlainMembers F ms
termination_by structural l => l
end

/-- A string without an escaped quote. -/
def NoQuoteStr (s : List JChar) : Prop := .short '"' ∉ s

/-- A number written without exponent whose digits are representable. -/
def RawNum (F : Type) [Rt F] (n : JNum) : Prop :=
  n.exp = none ∧ (n.frac = none → decimal n.int ≤ 9223372036854775807) ∧
  (∀ f, n.frac = some f → ∃ x : F, Rt.fparse (n.int ++ '.' :: f) = some x)

mutual
/-- The document has no escaped quotes and no exponents, and the digits of its numbers are representable. -/
def RawJson (F : Type) [Rt F] : JsonDoc → Prop
  | .null | .bool _ => True
  | .num n => RawNum F n
  | .str s => NoQuoteStr s
  | .arr js => RawAll F js
  | .obj ms => RawMembers F ms
termination_by structural j => j
/-- All items. -/
def RawAll (F : Type) [Rt F] : List JsonDoc → Prop
  | [] => True
  | j :: js => RawJson F j ∧ RawAll F js
termination_by structural l => l
/-- All members. -/
def RawMembers (F : Type) [Rt F] : List (List JChar × JsonDoc) → Prop
  | [] => True
  | (k, j) :: ms => NoQuoteStr k ∧ RawJson F j ∧ RawMembers F ms
termination_by structural l => l
end

/-- The names of the members. -/
inductive NamesOf : List (List JChar × JsonDoc) → List Str → Prop
  | nil : NamesOf [] []
  | cons (k : List JChar) (j : JsonDoc) (ms : List (List JChar × JsonDoc)) (n : Str) (ns : List Str) : JStrVal k n → NamesOf ms ns →
      NamesOf ((k, j) :: ms) (n :: ns)

mutual
/-- No object of the document gives two values for one name. -/
def DistinctJson : JsonDoc → Prop
  | .arr js => DistinctAll js
  | .obj ms => (∀ ns, NamesOf ms ns → ns.Nodup) ∧ DistinctMembers ms
  | _ => True
termination_by structural j => j
/-- All items. -/
def DistinctAll : List JsonDoc → Prop
  | [] => True
  | j :: js => DistinctJson j ∧ DistinctAll js
termination_by structural l => l
/-- All members. -/
def DistinctMembers : List (List JChar × JsonDoc) → Prop
  | [] => True
  | (_, j) :: ms => DistinctJson j ∧ DistinctMembers ms
termination_by structural l => l
end

mutual
/-- No string of the document, name or value, has an escaped quote. -/
def NoQuoteJson : JsonDoc → Prop
  | .str s => NoQuoteStr s
  | .arr js => NoQuoteAll js
  | .obj ms => NoQuoteMembers ms
  | _ => True
termination_by structural j => j
/-- All items. -/
def NoQuoteAll : List JsonDoc → Prop
  | [] => True
  | j :: js => NoQuoteJson j ∧ NoQuoteAll js
termination_by structural l => l
/-- All members. -/
def NoQuoteMembers : List (List JChar × JsonDoc) → Prop
  | [] => True
  | (k, j) :: ms => NoQuoteStr k ∧ NoQuoteJson j ∧ NoQuoteMembers ms
termination_by structural l => l
end

mutual
/-- No name of the document has an escaped quote. -/
def NamesJson : JsonDoc → Prop
  | .arr js => NamesAll js
  | .obj ms => NamesMembers ms
  | _ => True
termination_by structural j => j
/-- All items. -/
def NamesAll : List JsonDoc → Prop
  | [] => True
  | j :: js => NamesJson j ∧ NamesAll js
termination_by structural l => l
/-- All members. -/
def NamesMembers : List (List JChar × JsonDoc) → Prop
  | [] => True
  | (k, j) :: ms => NoQuoteStr k ∧ NamesJson j ∧ NamesMembers ms
termination_by structural l => l
end

/-- A number with a fraction and an exponent that does not matter: without it the number is the same float. If the exponent has a sign, its
digits are a 64-bit integer. -/
def IdleExponent (F : Type) [Rt F] (n : JNum) : Prop :=
  n.neg = false ∧ ∃ f e s d, n.frac = some f ∧ n.exp = some (e, s, d) ∧ (s = none ∨ decimal d ≤ 9223372036854775807) ∧
    ∃ x : F, Rt.fparse (n.int ++ '.' :: f) = some x ∧ Rt.fparse n.text = some x

end Am.Spec
