import Verif.Model.Context
/-! # lib/src/writer.rs -/
namespace Am

/-- writer.rs:153-163 `encode_variable`; fuel 10 always suffices for a `u64` (`Proofs/Varint.lean`). -/
def encVarAux : Nat → Nat → List UInt8
  | 0, _ => []
  | n + 1, z =>
    if z ≤ 0x7F then [UInt8.ofNat z]
    else UInt8.ofNat (0x80 ||| (z &&& 0x7F)) :: encVarAux n (z >>> 7)

/-- writer.rs:153 `encode_variable(z: u64)`. -/
def encVar (z : UInt64) : List UInt8 := encVarAux 10 z.toNat

/-- writer.rs:150: the zigzag transform `((i << 1) ^ (i >> 63)) as u64`. -/
def zigzag (i : Int64) : UInt64 := ((i <<< 1) ^^^ (i >>> 63)).toUInt64

/-- writer.rs:149-151 `encode_long`. -/
def encLong (i : Int64) : List UInt8 := encVar (zigzag i)

/-- writer.rs:143-147 `encode_bytes`. -/
def encBytes (bs : List UInt8) : List UInt8 := encLong (Int64.ofNat bs.length) ++ bs

/-- `encode_bytes(s.as_bytes(), ..)`. -/
def encStr (s : Str) : List UInt8 := encBytes (utf8 s)

/-- writer.rs:139-141 `encode_bool`. -/
def encBool (b : Bool) : List UInt8 := [if b then 1 else 0]

/-- writer.rs:90-95 and 100-105: the headers of a request or response. -/
def encHeaders (hs : List Header) : List UInt8 :=
  encLong (Int64.ofNat hs.length) ++ hs.flatMap fun h => encLong 2 ++ encStr h.name ++ encStr h.value

/-- writer.rs:108-114: one assert. -/
def encAssert (a : Assert) : List UInt8 :=
  encStr a.expr ++ encStr a.left ++ encStr a.compare ++ encStr a.right ++ encBool a.result

/-- writer.rs:74-115: one record; `order` is its position in the batch. -/
def encRecord (name : Str) (thread number : Nat) (order : Nat) (r : Record) : List UInt8 :=
  encStr name ++ encLong (Int64.ofNat thread) ++ encLong (Int64.ofNat number) ++ encLong (Int64.ofNat order) ++
  encLong (Int64.ofNat r.time.start) ++ encLong (Int64.ofNat r.time.fin) ++ encLong (Int64.ofNat r.time.total) ++
  encLong (Int64.ofNat r.time.resolve) ++ encLong (Int64.ofNat r.time.connect) ++ encLong (Int64.ofNat r.time.write) ++
  encLong (Int64.ofNat r.time.delay) ++ encLong (Int64.ofNat r.time.read) ++
  encStr r.name ++ encStr r.request.method.text ++ encStr r.request.url.text ++ encStr r.request.version.text ++
  encHeaders r.request.headers ++ encStr r.request.body ++
  encStr r.response.version ++ encLong (Int64.ofNat r.response.status) ++ encStr r.response.reason ++
  encHeaders r.response.headers ++ encStr r.response.body ++
  encLong (Int64.ofNat r.asserts.length) ++ r.asserts.flatMap encAssert ++
  encStr r.error

/-- writer.rs:73-116: the records of a batch, numbered from `order`. -/
def encRecords (name : Str) (thread number : Nat) : Nat → List Record → List UInt8
  | _, [] => []
  | order, r :: rs => encRecord name thread number order r ++ encRecords name thread number (order + 1) rs

/-- writer.rs:58 `MAGIC`. -/
def avroMagic : List UInt8 := [79, 98, 106, 1]

/-- writer.rs:59 `MARKER`: `b"afilesyncmarker\x02"`. -/
def avroMarker : List UInt8 := [97, 102, 105, 108, 101, 115, 121, 110, 99, 109, 97, 114, 107, 101, 114, 2]

/-- writer.rs:71-123 `Writer::write`: the buffer handed to the sink. -/
def encBlock (records : List Record) (name : Str) (thread number : Nat) : List UInt8 :=
  let data := encRecords name thread number 0 records
  encLong (Int64.ofNat records.length) ++ encLong (Int64.ofNat data.length) ++ data ++ avroMarker

/-- writer.rs:126-137 `header()`; `meta` is the table `META` (writer.rs:4-57). -/
def encHeader (metaTable : List (Str × Str)) : List UInt8 :=
  avroMagic ++ encLong (Int64.ofNat metaTable.length) ++ metaTable.flatMap (fun p => encStr p.1 ++ encStr p.2) ++ [0] ++ avroMarker

/-- writer.rs:7-54: the schema text. -/
def avroSchema : Str := c!"
{
    \"name\": \"record\",
    \"type\": \"record\",
    \"fields\": [
        {\"name\": \"name\", \"type\": \"string\"},
        {\"name\": \"thread\", \"type\": \"long\"},
        {\"name\": \"number\", \"type\": \"long\"},
        {\"name\": \"order\", \"type\": \"long\"},
        {\"name\": \"time_start\", \"type\": \"long\"},
        {\"name\": \"time_end\", \"type\": \"long\"},
        {\"name\": \"time_total\", \"type\": \"long\"},
        {\"name\": \"time_resolve\", \"type\": \"long\"},
        {\"name\": \"time_connect\", \"type\": \"long\"},
        {\"name\": \"time_write\", \"type\": \"long\"},
        {\"name\": \"time_delay\", \"type\": \"long\"},
        {\"name\": \"time_read\", \"type\": \"long\"},
        {\"name\": \"request_name\", \"type\": \"string\"},
        {\"name\": \"request_method\", \"type\": \"string\"},
        {\"name\": \"request_url\", \"type\": \"string\"},
        {\"name\": \"request_version\", \"type\": \"string\"},
        {\"name\": \"request_headers\", \"type\": {\"type\": \"array\", \"items\": {\"type\": \"array\", \"items\": \"string\"}}},
        {\"name\": \"request_body\", \"type\": \"string\"},
        {\"name\": \"response_version\", \"type\": \"string\"},
        {\"name\": \"response_status\", \"type\": \"int\"},
        {\"name\": \"response_reason\", \"type\": \"string\"},
        {\"name\": \"response_headers\", \"type\": {\"type\": \"array\", \"items\": {\"type\": \"array\", \"items\": \"string\"}}},
        {\"name\": \"response_body\", \"type\": \"string\"},
        {\"name\": \"asserts\", \"type\":
            {
                \"type\": \"array\",
                \"items\": {
                    \"name\": \"assert\",
                    \"type\": \"record\",
                    \"fields\": [
                        {\"name\": \"expr\", \"type\": \"string\"},
                        {\"name\": \"left\", \"type\": \"string\"},
                        {\"name\": \"compare\", \"type\": \"string\"},
                        {\"name\": \"right\", \"type\": \"string\"},
                        {\"name\": \"result\", \"type\": \"boolean\"}
                    ]
                }
            }
        },
        {\"name\": \"error\", \"type\": \"string\"}
    ]
    }
"

/-- writer.rs:4-57 `META`. -/
def avroMeta : List (Str × Str) := [(c!"avro.schema", avroSchema), (c!"avro.codec", c!"null")]

/-- One call `w.write(&buffer)` on a sink that accepts `n` bytes of the buffer (the result is ignored, writer.rs:67, 122). -/
def sinkWrite (file : List UInt8) (n : Nat) (buffer : List UInt8) : List UInt8 := file ++ buffer.take n

/-- A batch handed to `Writer::write`. -/
structure Batch where
  records : List Record
  name : Str
  thread : Nat
  number : Nat

/-- writer.rs:71 `Writer::write` of one batch. -/
def Batch.bytes (b : Batch) : List UInt8 := encBlock b.records b.name b.thread b.number

/-- The file after `Writer::new` and a sequence of writes, when every `write` call accepts the whole buffer. -/
def writerFile (bs : List Batch) : List UInt8 := encHeader avroMeta ++ bs.flatMap Batch.bytes

/-- The file after `Writer::new` and a sequence of writes, where the sink accepts `accepts[i]` bytes of the `i`-th buffer. -/
def writerSink (accepts : List Nat) (bs : List Batch) : List UInt8 :=
  ((encHeader avroMeta :: bs.map Batch.bytes).zip accepts).foldl (fun f p => sinkWrite f p.2 p.1) []

end Am
