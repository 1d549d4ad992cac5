import Verif.Model.Basic
/-!
# Reading Avro (Apache Avro 1.11 specification, "Binary Encoding" and "Object Container Files")

Written from the specification of the format, not from the writer.
-/
namespace Am.Spec
open Am

/-! ## Primitive types -/

/-- An unsigned variable-length integer: seven bits per byte, least significant first, the top bit set on all bytes but the last.
The first argument bounds the number of bytes. -/
def readVar : Nat → List UInt8 → Option (Nat × List UInt8)
  | 0, _ => none
  | _, [] => none
  | n + 1, b :: rest =>
    if b.toNat < 128 then some (b.toNat, rest)
    else (readVar n rest).map fun p => (b.toNat - 128 + 128 * p.1, p.2)

/-- The zigzag code: 0, -1, 1, -2, 2, ... -/
def unzigzag (n : Nat) : Int := if n % 2 = 0 then (n / 2 : Nat) else -((n / 2 : Nat) : Int) - 1

/-- A `long`: at most 10 bytes. -/
def readLong (bs : List UInt8) : Option (Int × List UInt8) := (readVar 10 bs).map fun p => (unzigzag p.1, p.2)

/-- `n` raw bytes. -/
def readRaw (n : Nat) (bs : List UInt8) : Option (List UInt8 × List UInt8) :=
  if n ≤ bs.length then some (bs.take n, bs.drop n) else none

/-- `bytes`: a long and that many bytes. -/
def readBytes (bs : List UInt8) : Option (List UInt8 × List UInt8) :=
  match readLong bs with
  | some (n, r) => if 0 ≤ n then readRaw n.toNat r else none
  | none => none

/-- `string`: bytes that are UTF-8. -/
def readStr (bs : List UInt8) : Option (Str × List UInt8) :=
  match readBytes bs with
  | some (b, r) => (fromUtf8 b).map fun s => (s, r)
  | none => none

/-- `boolean`: one byte, 0 or 1. -/
def readBool : List UInt8 → Option (Bool × List UInt8)
  | b :: r => if b = 0 then some (false, r) else if b = 1 then some (true, r) else none
  | [] => none

/-! ## Schemas and data -/

/-- The schemas used. -/
inductive Schema where
  | long
  | int
  | string
  | boolean
  | array (items : Schema)
  | record (fields : List (Str × Schema))
  deriving Repr

/-- Data. -/
inductive Datum where
  | int (i : Int)
  | string (s : Str)
  | boolean (b : Bool)
  | array (items : List Datum)
  | record (fields : List (Str × Datum))
  deriving Repr

/-- `n` items. -/
def readItems {α : Type} (item : List UInt8 → Option (α × List UInt8)) : Nat → List UInt8 → Option (List α × List UInt8)
  | 0, bs => some ([], bs)
  | n + 1, bs =>
    match item bs with
    | some (d, r) => (readItems item n r).map fun p => (d :: p.1, p.2)
    | none => none

/-- Blocks of items, ended by an empty block. A negative count is followed by the size of the block in bytes. The first argument is fuel:
each block takes at least one byte. -/
def readBlocks {α : Type} (item : List UInt8 → Option (α × List UInt8)) : Nat → List UInt8 → Option (List α × List UInt8)
  | 0, _ => none
  | n + 1, bs =>
    match readLong bs with
    | none => none
    | some (count, r) =>
      if count = 0 then some ([], r)
      else
        let body := if 0 < count then some (count.toNat, r) else (readLong r).map fun p => (count.natAbs, p.2)
        match body with
        | none => none
        | some (k, r) =>
          match readItems item k r with
          | none => none
          | some (ds, r) => (readBlocks item n r).map fun p => (ds ++ p.1, p.2)

/-- How the end of an array is marked: as Avro prescribes, or not at all — a count followed by that many items — which is not Avro. -/
inductive Arrays where
  | avro
  | counted
  deriving DecidableEq

/-- An array, given how to read an item. -/
def readArray {α : Type} (arrays : Arrays) (item : List UInt8 → Option (α × List UInt8)) (bs : List UInt8) : Option (List α × List UInt8) :=
  match arrays with
  | .avro => readBlocks item (bs.length + 1) bs
  | .counted =>
    match readLong bs with
    | some (n, r) => if 0 ≤ n then readItems item n.toNat r else none
    | none => none

mutual
/-- Read a datum of the given schema. -/
def readDatum (arrays : Arrays) : Schema → List UInt8 → Option (Datum × List UInt8)
  | .long, bs => (readLong bs).map fun p => (.int p.1, p.2)
  | .int, bs => (readLong bs).bind fun p => if -2147483648 ≤ p.1 ∧ p.1 ≤ 2147483647 then some (.int p.1, p.2) else none
  | .string, bs => (readStr bs).map fun p => (.string p.1, p.2)
  | .boolean, bs => (readBool bs).map fun p => (.boolean p.1, p.2)
  | .array s, bs => (readArray arrays (readDatum arrays s) bs).map fun p => (.array p.1, p.2)
  | .record fs, bs => (readFields arrays fs bs).map fun p => (.record p.1, p.2)
termination_by structural s => s
/-- Read the fields of a record in order. -/
def readFields (arrays : Arrays) : List (Str × Schema) → List UInt8 → Option (List (Str × Datum) × List UInt8)
  | [], bs => some ([], bs)
  | (name, s) :: fs, bs =>
    match readDatum arrays s bs with
    | some (d, r) => (readFields arrays fs r).map fun p => ((name, d) :: p.1, p.2)
    | none => none
termination_by structural fs => fs
end

/-! ## JSON, for the schema stored in a file -/

/-- JSON without numbers, literals and string escapes, which the schemas used do not contain. -/
inductive Json where
  | str (s : Str)
  | arr (items : List Json)
  | obj (fields : List (Str × Json))
  deriving Repr

/-- JSON white space. -/
def jsonWs (c : Char) : Bool := c = ' ' || c = '\n' || c = '\r' || c = '\t'

mutual
/-- A value; the first argument is fuel. -/
def readJson : Nat → Str → Option (Json × Str)
  | 0, _ => none
  | n + 1, s =>
    match s.dropWhile jsonWs with
    | '"' :: r =>
      match r.dropWhile (fun c => c ≠ '"' && c ≠ '\\') with
      | '"' :: r' => some (.str (r.takeWhile (fun c => c ≠ '"' && c ≠ '\\')), r')
      | _ => none
    | '[' :: r => (readJsonItems n r).map fun p => (.arr p.1, p.2)
    | '{' :: r => (readJsonFields n r).map fun p => (.obj p.1, p.2)
    | _ => none
/-- The items of a non-empty array up to and including `]`. -/
def readJsonItems : Nat → Str → Option (List Json × Str)
  | 0, _ => none
  | n + 1, s =>
    match readJson n s with
    | none => none
    | some (j, r) =>
      match r.dropWhile jsonWs with
      | ',' :: r' => (readJsonItems n r').map fun p => (j :: p.1, p.2)
      | ']' :: r' => some ([j], r')
      | _ => none
/-- The fields of a non-empty object up to and including `}`. -/
def readJsonFields : Nat → Str → Option (List (Str × Json) × Str)
  | 0, _ => none
  | n + 1, s =>
    match readJson n s with
    | some (.str k, r) =>
      match r.dropWhile jsonWs with
      | ':' :: r' =>
        match readJson n r' with
        | none => none
        | some (j, r'') =>
          match r''.dropWhile jsonWs with
          | ',' :: r3 => (readJsonFields n r3).map fun p => ((k, j) :: p.1, p.2)
          | '}' :: r3 => some ([(k, j)], r3)
          | _ => none
      | _ => none
    | _ => none
end

/-- A whole text as one value. -/
def parseJson (s : Str) : Option Json :=
  match readJson (2 * s.length + 2) s with
  | some (j, r) => if r.all jsonWs then some j else none
  | none => none

/-- The value of a field. -/
def jsonGet (k : Str) : List (Str × Json) → Option Json
  | [] => none
  | (k', j) :: l => if k' = k then some j else jsonGet k l

mutual
/-- The schema a JSON value denotes: a type name, or an object with a `type`; the first argument is fuel. -/
def schemaOf : Nat → Json → Option Schema
  | 0, _ => none
  | _ + 1, .str t =>
    if t = c!"long" then some .long else if t = c!"int" then some .int
    else if t = c!"string" then some .string else if t = c!"boolean" then some .boolean else none
  | n + 1, .obj fields =>
    match jsonGet c!"type" fields with
    | some (.str t) =>
      if t = c!"array" then
        match jsonGet c!"items" fields with
        | some j => (schemaOf n j).map .array
        | none => none
      else if t = c!"record" then
        match jsonGet c!"fields" fields with
        | some (.arr fs) => (schemaFields n fs).map .record
        | _ => none
      else schemaOf n (.str t)
    | some j => schemaOf n j
    | none => none
  | _, _ => none
/-- The fields of a record schema. -/
def schemaFields : Nat → List Json → Option (List (Str × Schema))
  | _, [] => some []
  | 0, _ => none
  | n + 1, .obj f :: l =>
    match jsonGet c!"name" f, jsonGet c!"type" f with
    | some (.str name), some t =>
      match schemaOf n t with
      | some s => (schemaFields n l).map fun r => (name, s) :: r
      | none => none
    | _, _ => none
  | _, _ => none
end

/-- The schema written as the given text. -/
def parseSchema (s : Str) : Option Schema := (parseJson s).bind (schemaOf 100)

/-! ## Object container files -/

/-- One entry of the file metadata: a string and bytes. -/
def readMetaEntry (bs : List UInt8) : Option ((Str × List UInt8) × List UInt8) :=
  match readStr bs with
  | some (k, r) => (readBytes r).map fun p => ((k, p.1), p.2)
  | none => none

/-- The value of a metadata key. -/
def metaGet (k : Str) : List (Str × List UInt8) → Option (List UInt8)
  | [] => none
  | (k', v) :: l => if k' = k then some v else metaGet k l

/-- One block: the number of objects, their size in bytes, the objects, and the sync marker of the file. -/
def readBlock {α : Type} (item : List UInt8 → Option (α × List UInt8)) (sync : List UInt8) (bs : List UInt8) : Option (List α × List UInt8) :=
  match readLong bs with
  | none => none
  | some (count, r) =>
    match readBytes r with
    | none => none
    | some (data, r) =>
      if count < 0 then none
      else
        match readItems item count.toNat data with
        | some (ds, []) =>
          match readRaw 16 r with
          | some (m, r) => if m = sync then some (ds, r) else none
          | none => none
        | _ => none

/-- Blocks up to the end of the file; the first argument is fuel. -/
def readFileBlocks {α : Type} (item : List UInt8 → Option (α × List UInt8)) (sync : List UInt8) : Nat → List UInt8 → Option (List α)
  | _, [] => some []
  | 0, _ => none
  | n + 1, bs =>
    match readBlock item sync bs with
    | some (ds, r) => (readFileBlocks item sync n r).map fun l => ds ++ l
    | none => none

/-- The header of a file: its schema and sync marker. Only the codec `null` is understood. -/
def readHeader (bs : List UInt8) : Option (Schema × List UInt8 × List UInt8) :=
  match readRaw 4 bs with
  | none => none
  | some (magic, r) =>
    if magic = [79, 98, 106, 1] then
      match readBlocks readMetaEntry (r.length + 1) r with
      | none => none
      | some (table, r) =>
        match readRaw 16 r with
        | none => none
        | some (sync, r) =>
          if metaGet c!"avro.codec" table = none ∨ metaGet c!"avro.codec" table = some (utf8 c!"null") then
            match (metaGet c!"avro.schema" table).bind fromUtf8 with
            | none => none
            | some text => (parseSchema text).map fun s => (s, sync, r)
          else none
    else none

/-- A whole file, decoded with the schema stored in it. -/
def readFile (arrays : Arrays) (bs : List UInt8) : Option (List Datum) :=
  match readHeader bs with
  | none => none
  | some (schema, sync, r) => readFileBlocks (readDatum arrays schema) sync r.length r

end Am.Spec
