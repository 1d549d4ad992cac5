import Verif.Spec.Avro
import Verif.Model.Writer
/-! # What a record file should say -/
namespace Am.Spec
open Am

/-- The headers as data. -/
def headersDatum (hs : List Header) : Datum := .array (hs.map fun h => .array [.string h.name, .string h.value])

/-- An assert as data. -/
def assertDatum (a : Assert) : Datum :=
  .record [(c!"expr", .string a.expr), (c!"left", .string a.left), (c!"compare", .string a.compare), (c!"right", .string a.right),
    (c!"result", .boolean a.result)]

/-- A record as data: the test name, thread, iteration, position in the batch, and every field of the record, under the field names of
the schema. -/
def recordDatum (name : Str) (thread number order : Nat) (r : Record) : Datum :=
  .record [(c!"name", .string name), (c!"thread", .int thread), (c!"number", .int number), (c!"order", .int order),
    (c!"time_start", .int r.time.start), (c!"time_end", .int r.time.fin), (c!"time_total", .int r.time.total),
    (c!"time_resolve", .int r.time.resolve), (c!"time_connect", .int r.time.connect), (c!"time_write", .int r.time.write),
    (c!"time_delay", .int r.time.delay), (c!"time_read", .int r.time.read),
    (c!"request_name", .string r.name), (c!"request_method", .string r.request.method.text), (c!"request_url", .string r.request.url.text),
    (c!"request_version", .string r.request.version.text), (c!"request_headers", headersDatum r.request.headers),
    (c!"request_body", .string r.request.body),
    (c!"response_version", .string r.response.version), (c!"response_status", .int r.response.status),
    (c!"response_reason", .string r.response.reason), (c!"response_headers", headersDatum r.response.headers),
    (c!"response_body", .string r.response.body),
    (c!"asserts", .array (r.asserts.map assertDatum)), (c!"error", .string r.error)]

/-- The data of a batch, numbered from `order`. -/
def batchData (name : Str) (thread number : Nat) : Nat → List Record → List Datum
  | _, [] => []
  | order, r :: rs => recordDatum name thread number order r :: batchData name thread number (order + 1) rs

/-- What holds of records by their Rust types and the clock: the status is 16 bits, and times in nanoseconds fit `i64`
(292 years; `as_nanos() as i64` drops the upper bits otherwise). -/
def RecordFits (r : Record) : Prop :=
  r.response.status < 65536 ∧ r.time.start < 2 ^ 63 ∧ r.time.fin < 2 ^ 63 ∧ r.time.total < 2 ^ 63 ∧ r.time.resolve < 2 ^ 63 ∧
  r.time.connect < 2 ^ 63 ∧ r.time.write < 2 ^ 63 ∧ r.time.delay < 2 ^ 63 ∧ r.time.read < 2 ^ 63

/-- The same for a batch: thread and iteration are 32 bits, and the encoded data, being a `Vec`, is shorter than 2^63 bytes. -/
def BatchFits (b : Batch) : Prop :=
  (∀ r ∈ b.records, RecordFits r) ∧ b.thread < 2 ^ 32 ∧ b.number < 2 ^ 32 ∧ b.records.length < 2 ^ 63 ∧ b.bytes.length < 2 ^ 63

/-- No arrays with items in the batch: no headers and no asserts. -/
def NoItems (b : Batch) : Prop := ∀ r ∈ b.records, r.request.headers = [] ∧ r.response.headers = [] ∧ r.asserts = []

end Am.Spec
