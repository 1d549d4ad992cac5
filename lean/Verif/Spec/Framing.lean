import Verif.Spec.Message
/-!
# Where the body of an HTTP/1.1 message ends (RFC 9112, sections 6.1-6.3 and 7.1)

Written from the RFC, independently of the program.
-/
namespace Am.Spec
open Am

/-- ASCII lower case. -/
def asciiLower (c : Char) : Char := if 'A' ≤ c ∧ c ≤ 'Z' then Char.ofNat (c.toNat + 32) else c

/-- The values of the fields of this (lower case) name, in order. -/
def fieldValues (name : Str) (hs : List (Str × Str)) : List Str := (hs.filter fun h => h.1.map asciiLower = name).map (·.2)

/-- The parts of a text between commas, without blanks and tabs around them. -/
def listItems : Str → List Str
  | s => ((s.foldr (fun c acc => if c = ',' then [] :: acc else match acc with | w :: ws => (c :: w) :: ws | [] => [[c]]) [[]]).map stripOws)

/-- How the end of a body is found. -/
inductive Framing where
  /-- this many bytes -/
  | length (n : Nat)
  /-- chunks -/
  | chunked
  /-- up to the end of the connection -/
  | close
  /-- the message is not acceptable -/
  | bad
  deriving DecidableEq, Repr

/-- The length written in the Content-Length fields: all of them a decimal number, all the same. -/
def contentLength (vs : List Str) : Framing :=
  match vs with
  | [] => .length 0
  | v :: ws => if v ≠ [] ∧ (∀ c ∈ v, isDigit c = true) ∧ (∀ w ∈ ws, w = v) then .length (decimal v) else .bad

/-- The final transfer coding is `chunked`. -/
def endsChunked (vs : List Str) : Bool := ((vs.flatMap listItems).getLast?.map fun c => c.map asciiLower) = some c!"chunked"

/-- Section 6.3, for requests. -/
def requestFraming (hs : List (Str × Str)) : Framing :=
  let te := fieldValues c!"transfer-encoding" hs
  if te ≠ [] then (if endsChunked te then .chunked else .bad) else contentLength (fieldValues c!"content-length" hs)

/-- Section 6.3, for responses to requests other than HEAD and CONNECT. -/
def responseFraming (status : Nat) (hs : List (Str × Str)) : Framing :=
  let te := fieldValues c!"transfer-encoding" hs
  let cl := fieldValues c!"content-length" hs
  if status < 200 ∨ status = 204 ∨ status = 304 then .length 0
  else if te ≠ [] then (if endsChunked te then .chunked else .close)
  else if cl = [] then .close else contentLength cl

/-- A line ended by carriage return and line feed. -/
def byteLine : List UInt8 → Option (List UInt8 × List UInt8)
  | 13 :: 10 :: r => some ([], r)
  | b :: r => (byteLine r).map fun p => (b :: p.1, p.2)
  | [] => none

/-- The value of a hexadecimal digit. -/
def hexByte (b : UInt8) : Option Nat :=
  if 48 ≤ b ∧ b ≤ 57 then some (b.toNat - 48) else if 65 ≤ b ∧ b ≤ 70 then some (b.toNat - 55) else if 97 ≤ b ∧ b ≤ 102 then some (b.toNat - 87) else none

/-- The size in a chunk line: hexadecimal digits, optionally followed by extensions. -/
def chunkSize (l : List UInt8) : Option Nat :=
  let ds := l.takeWhile fun b => (hexByte b).isSome
  let r := l.dropWhile fun b => (hexByte b).isSome
  if ds ≠ [] ∧ (r = [] ∨ r.head? = some 59 ∨ r.head? = some 32 ∨ r.head? = some 9) then some (ds.foldl (fun n b => n * 16 + (hexByte b).getD 0) 0) else none

/-- The trailer section: lines up to an empty one. -/
def trailers : Nat → List UInt8 → Option (List UInt8)
  | 0, _ => none
  | n + 1, bs =>
    match byteLine bs with
    | none => none
    | some ([], r) => some r
    | some (_, r) => trailers n r

/-- The body in chunks, and what follows. -/
def dechunk : Nat → List UInt8 → Option (List UInt8 × List UInt8)
  | 0, _ => none
  | k + 1, bs =>
    match byteLine bs with
    | none => none
    | some (l, r) =>
      match chunkSize l with
      | none => none
      | some 0 => (trailers (r.length + 1) r).map fun r => ([], r)
      | some n => if (r.drop n).take 2 = [13, 10] then (dechunk k (r.drop (n + 2))).map fun p => (r.take n ++ p.1, p.2) else none

/-- The body of a message and what follows it, from the bytes after the empty line up to the end of the connection. -/
def bodyBy (f : Framing) (bytes : List UInt8) : Option (List UInt8 × List UInt8) :=
  match f with
  | .length n => if n ≤ bytes.length then some (bytes.take n, bytes.drop n) else none
  | .chunked => dechunk (bytes.length + 1) bytes
  | .close => some (bytes, [])
  | .bad => none

/-- What a server gets from the bytes of a request: the body and what is left on the connection. -/
def serverBody (bytes : List UInt8) : Option (List UInt8 × List UInt8) :=
  match readWire bytes with
  | none => none
  | some (_, _, _, hs, r) => bodyBy (requestFraming hs) r

end Am.Spec
