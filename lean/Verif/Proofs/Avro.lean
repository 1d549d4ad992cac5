import Verif.Proofs.Varint
import Verif.Proofs.Text
import Verif.Spec.Record
/-! # Reading back what the record writer writes -/
set_option linter.unusedSimpArgs false
namespace Am
open Spec

theorem readRaw_append (a b : List UInt8) : readRaw a.length (a ++ b) = some (a, b) := by
  simp [readRaw]

theorem readBytes_enc {bs : List UInt8} (h : bs.length < 2 ^ 63) (rest : List UInt8) : readBytes (encBytes bs ++ rest) = some (bs, rest) := by
  unfold readBytes encBytes
  rw [List.append_assoc, readLong_nat h]
  dsimp only
  rw [if_pos (by omega)]
  exact readRaw_append _ _

theorem readStr_enc {s : Str} (h : (utf8 s).length < 2 ^ 63) (rest : List UInt8) : readStr (encStr s ++ rest) = some (s, rest) := by
  unfold readStr encStr
  rw [readBytes_enc h]
  dsimp only
  rw [fromUtf8_utf8]
  rfl

theorem readBool_enc (b : Bool) (rest : List UInt8) : readBool (encBool b ++ rest) = some (b, rest) := by
  cases b <;> rfl

theorem encStr_length (s : Str) : (utf8 s).length ≤ (encStr s).length := by
  simp [encStr, encBytes]

theorem readDatum_array (arrays : Arrays) (s : Schema) (bs : List UInt8) :
    readDatum arrays (.array s) bs = (readArray arrays (readDatum arrays s) bs).map fun p => (Datum.array p.1, p.2) := by
  simp only [readDatum]

theorem readDatum_record (arrays : Arrays) (fs : List (Str × Schema)) (bs : List UInt8) :
    readDatum arrays (.record fs) bs = (readFields arrays fs bs).map fun p => (Datum.record p.1, p.2) := by
  simp only [readDatum]

theorem readFields_nil (arrays : Arrays) (bs : List UInt8) : readFields arrays [] bs = some ([], bs) := by
  simp only [readFields]

theorem readFields_cons {arrays : Arrays} {name : Str} {s : Schema} {fs : List (Str × Schema)} {bs r r' : List UInt8} {d : Datum} {ds : List (Str × Datum)}
    (h1 : readDatum arrays s bs = some (d, r)) (h2 : readFields arrays fs r = some (ds, r')) :
    readFields arrays ((name, s) :: fs) bs = some ((name, d) :: ds, r') := by
  simp only [readFields, h1, h2]
  rfl

theorem datum_string {arrays : Arrays} {s : Str} (h : (utf8 s).length < 2 ^ 63) (rest : List UInt8) :
    readDatum arrays .string (encStr s ++ rest) = some (.string s, rest) := by
  simp only [readDatum, readStr_enc h, Option.map_some]

theorem datum_long {arrays : Arrays} {n : Nat} (h : n < 2 ^ 63) (rest : List UInt8) :
    readDatum arrays .long (encLong (Int64.ofNat n) ++ rest) = some (.int n, rest) := by
  simp only [readDatum, readLong_nat h, Option.map_some]

theorem datum_int {arrays : Arrays} {n : Nat} (h : n < 65536) (rest : List UInt8) :
    readDatum arrays .int (encLong (Int64.ofNat n) ++ rest) = some (.int n, rest) := by
  simp only [readDatum, readLong_nat (show n < 2 ^ 63 by omega), Option.bind_some]
  rw [if_pos (by omega)]

theorem datum_bool {arrays : Arrays} (b : Bool) (rest : List UInt8) : readDatum arrays .boolean (encBool b ++ rest) = some (.boolean b, rest) := by
  simp only [readDatum, readBool_enc, Option.map_some]

/-- Reading items written one after the other. -/
theorem readItems_enc {α β : Type} {item : List UInt8 → Option (α × List UInt8)} {enc : β → List UInt8} {dat : β → α} :
    ∀ (l : List β), (∀ x ∈ l, ∀ rest, item (enc x ++ rest) = some (dat x, rest)) → ∀ rest,
      readItems item l.length (l.flatMap enc ++ rest) = some (l.map dat, rest) := by
  intro l
  induction l with
  | nil => intro _ rest; rfl
  | cons x l ih =>
    intro h rest
    simp only [List.flatMap_cons, List.append_assoc, List.length_cons, readItems]
    rw [h x List.mem_cons_self]
    dsimp only
    rw [ih (fun y hy => h y (List.mem_cons_of_mem _ hy)) rest]
    rfl

theorem array_counted {α β : Type} {item : List UInt8 → Option (α × List UInt8)} {enc : β → List UInt8} {dat : β → α} (l : List β) (hl : l.length < 2 ^ 63)
    (h : ∀ x ∈ l, ∀ rest, item (enc x ++ rest) = some (dat x, rest)) (rest : List UInt8) :
    readArray .counted item (encLong (Int64.ofNat l.length) ++ (l.flatMap enc ++ rest)) = some (l.map dat, rest) := by
  simp only [readArray, readLong_nat hl]
  rw [if_pos (by omega)]
  exact readItems_enc l h rest

theorem array_avro_empty {α : Type} {item : List UInt8 → Option (α × List UInt8)} (rest : List UInt8) :
    readArray .avro item (encLong (Int64.ofNat 0) ++ rest) = some ([], rest) := by
  simp only [readArray, readBlocks, readLong_nat (show 0 < 2 ^ 63 by decide)]
  rfl

/-! ## Sizes: everything that is part of a shorter text is shorter -/

theorem flatMap_length_le {β : Type} {enc : β → List UInt8} {l : List β} {x : β} (h : x ∈ l) : (enc x).length ≤ (l.flatMap enc).length := by
  induction l with
  | nil => cases h
  | cons y l ih =>
    simp only [List.flatMap_cons, List.length_append]
    rcases List.mem_cons.1 h with h | h
    · subst h; omega
    · have := ih h; omega

theorem flatMap_count_le {β : Type} {enc : β → List UInt8} {l : List β} (h : ∀ x ∈ l, 1 ≤ (enc x).length) : l.length ≤ (l.flatMap enc).length := by
  induction l with
  | nil => simp
  | cons y l ih =>
    have := ih (fun x hx => h x (List.mem_cons_of_mem _ hx))
    have := h y List.mem_cons_self
    simp only [List.flatMap_cons, List.length_append, List.length_cons]
    omega

theorem encStr_pos (s : Str) : 1 ≤ (encStr s).length := by
  have := (encLong_length (Int64.ofNat (utf8 s).length)).1
  simp only [encStr, encBytes, List.length_append]
  omega

/-! ## Arrays of a record -/

theorem headers_counted (hs : List Header) (h : (encHeaders hs).length < 2 ^ 63) (rest : List UInt8) :
    readDatum .counted (.array (.array .string)) (encHeaders hs ++ rest) = some (headersDatum hs, rest) := by
  simp only [encHeaders, List.length_append] at h
  have hitem : ∀ x ∈ hs, ∀ rest, readDatum .counted (.array .string) (encLong 2 ++ encStr x.name ++ encStr x.value ++ rest) =
      some (.array [.string x.name, .string x.value], rest) := by
    intro x hx rest
    have h1 := flatMap_length_le (enc := fun h : Header => encLong 2 ++ encStr h.name ++ encStr h.value) hx
    simp only [List.length_append] at h1
    have h2 := encStr_length x.name
    have h3 := encStr_length x.value
    have := array_counted (item := readDatum .counted .string) (enc := encStr) (dat := Datum.string) [x.name, x.value] (by simp) (by
      intro y hy rest
      simp only [List.mem_cons, List.not_mem_nil, or_false] at hy
      rcases hy with hy | hy
      · subst hy; exact datum_string (by omega) rest
      · subst hy; exact datum_string (by omega) rest) rest
    have e : encLong 2 ++ encStr x.name ++ encStr x.value ++ rest =
        encLong (Int64.ofNat [x.name, x.value].length) ++ ([x.name, x.value].flatMap encStr ++ rest) := by
      simp only [List.flatMap_cons, List.flatMap_nil, List.append_nil, List.append_assoc]
      rfl
    rw [readDatum_array, e, this]
    rfl
  have hc : hs.length ≤ (hs.flatMap fun h => encLong 2 ++ encStr h.name ++ encStr h.value).length :=
    flatMap_count_le (fun x _ => by have := encStr_pos x.name; simp only [List.length_append]; omega)
  have := array_counted (item := readDatum .counted (.array .string)) (enc := fun h : Header => encLong 2 ++ encStr h.name ++ encStr h.value)
    (dat := fun h => Datum.array [.string h.name, .string h.value]) hs (by omega) hitem rest
  unfold encHeaders
  rw [List.append_assoc]
  simp only [readDatum] at this ⊢
  rw [this]
  rfl

theorem headers_avro {hs : List Header} (h : hs = []) (rest : List UInt8) :
    readDatum .avro (.array (.array .string)) (encHeaders hs ++ rest) = some (headersDatum hs, rest) := by
  subst h
  have e : encHeaders [] ++ rest = encLong (Int64.ofNat 0) ++ rest := by simp [encHeaders]
  rw [e]
  simp only [readDatum]
  rw [array_avro_empty]
  rfl

/-- The schema of an assert. -/
def assertSchema : Schema :=
  .record [(c!"expr", .string), (c!"left", .string), (c!"compare", .string), (c!"right", .string), (c!"result", .boolean)]

theorem assert_enc (arrays : Arrays) (a : Assert) (h : (encAssert a).length < 2 ^ 63) (rest : List UInt8) :
    readDatum arrays assertSchema (encAssert a ++ rest) = some (assertDatum a, rest) := by
  simp only [encAssert, List.length_append] at h
  have h1 := encStr_length a.expr
  have h2 := encStr_length a.left
  have h3 := encStr_length a.compare
  have h4 := encStr_length a.right
  have : readFields arrays [(c!"expr", .string), (c!"left", .string), (c!"compare", .string), (c!"right", .string), (c!"result", .boolean)]
      (encAssert a ++ rest) = some ([(c!"expr", .string a.expr), (c!"left", .string a.left), (c!"compare", .string a.compare), (c!"right", .string a.right),
    (c!"result", .boolean a.result)], rest) := by
    simp only [encAssert, List.append_assoc]
    exact readFields_cons (datum_string (by omega) _) (readFields_cons (datum_string (by omega) _) (readFields_cons (datum_string (by omega) _)
      (readFields_cons (datum_string (by omega) _) (readFields_cons (datum_bool _ _) rfl))))
  simp only [assertSchema, readDatum, this]
  rfl

theorem asserts_counted (as : List Assert) (h : (as.flatMap encAssert).length < 2 ^ 63) (rest : List UInt8) :
    readDatum .counted (.array assertSchema) (encLong (Int64.ofNat as.length) ++ (as.flatMap encAssert ++ rest)) = some (.array (as.map assertDatum), rest) := by
  have hc : as.length ≤ (as.flatMap encAssert).length :=
    flatMap_count_le (fun x _ => by have := encStr_pos x.expr; simp only [encAssert, List.length_append]; omega)
  have := array_counted (item := readDatum .counted assertSchema) (enc := encAssert) (dat := assertDatum) as (by omega)
    (fun x hx rest => assert_enc .counted x (by have := flatMap_length_le (enc := encAssert) hx; omega) rest) rest
  simp only [readDatum] at this ⊢
  rw [this]
  rfl

theorem asserts_avro {as : List Assert} (h : as = []) (rest : List UInt8) :
    readDatum .avro (.array assertSchema) (encLong (Int64.ofNat as.length) ++ (as.flatMap encAssert ++ rest)) = some (.array (as.map assertDatum), rest) := by
  subst h
  simp only [readDatum, List.flatMap_nil, List.nil_append, List.length_nil]
  rw [array_avro_empty]
  rfl

/-- The schema of a record, as a value. -/
def recordSchema : Schema :=
  .record [(c!"name", .string), (c!"thread", .long), (c!"number", .long), (c!"order", .long),
    (c!"time_start", .long), (c!"time_end", .long), (c!"time_total", .long), (c!"time_resolve", .long), (c!"time_connect", .long),
    (c!"time_write", .long), (c!"time_delay", .long), (c!"time_read", .long),
    (c!"request_name", .string), (c!"request_method", .string), (c!"request_url", .string), (c!"request_version", .string),
    (c!"request_headers", .array (.array .string)), (c!"request_body", .string),
    (c!"response_version", .string), (c!"response_status", .int), (c!"response_reason", .string),
    (c!"response_headers", .array (.array .string)), (c!"response_body", .string),
    (c!"asserts", .array assertSchema), (c!"error", .string)]

set_option maxRecDepth 100000 in
/-- The schema text written into the header denotes that schema. -/
theorem parseSchema_avro : parseSchema avroSchema = some recordSchema := by rfl




theorem readDatum_fields {arrays : Arrays} {fs : List (Str × Schema)} {bs r : List UInt8} {ds : List (Str × Datum)}
    (h : readFields arrays fs bs = some (ds, r)) : readDatum arrays (.record fs) bs = some (.record ds, r) := by
  rw [readDatum_record, h]
  rfl

theorem record_fields (arrays : Arrays) (name : Str) (thread number order : Nat) (r : Record)
    (hf : RecordFits r) (ht : thread < 2 ^ 32) (hn : number < 2 ^ 32) (ho : order < 2 ^ 63)
    (hs : ∀ s ∈ [name, r.name, r.request.method.text, r.request.url.text, r.request.version.text, r.request.body, r.response.version, r.response.reason,
      r.response.body, r.error], (utf8 s).length < 2 ^ 63)
    (hq : ∀ rest, readDatum arrays (.array (.array .string)) (encHeaders r.request.headers ++ rest) = some (headersDatum r.request.headers, rest))
    (hp : ∀ rest, readDatum arrays (.array (.array .string)) (encHeaders r.response.headers ++ rest) = some (headersDatum r.response.headers, rest))
    (ha : ∀ rest, readDatum arrays (.array assertSchema) (encLong (Int64.ofNat r.asserts.length) ++ (r.asserts.flatMap encAssert ++ rest)) =
      some (.array (r.asserts.map assertDatum), rest))
    (rest : List UInt8) :
    readDatum arrays recordSchema (encRecord name thread number order r ++ rest) = some (recordDatum name thread number order r, rest) := by
  obtain ⟨f1, f2, f3, f4, f5, f6, f7, f8, f9⟩ := hf
  simp only [List.forall_mem_cons] at hs
  obtain ⟨s1, s2, s3, s4, s5, s6, s7, s8, s9, s10, -⟩ := hs
  have ht' : thread < 2 ^ 63 := by omega
  have hn' : number < 2 ^ 63 := by omega
  rw [recordSchema, recordDatum]
  refine readDatum_fields ?_
  unfold encRecord
  simp only [List.append_assoc]
  refine readFields_cons (datum_string s1 _) ?_
  · refine readFields_cons (datum_long ht' _) ?_
    refine readFields_cons (datum_long hn' _) ?_
    refine readFields_cons (datum_long ho _) ?_
    refine readFields_cons (datum_long f2 _) ?_
    refine readFields_cons (datum_long f3 _) ?_
    refine readFields_cons (datum_long f4 _) ?_
    refine readFields_cons (datum_long f5 _) ?_
    refine readFields_cons (datum_long f6 _) ?_
    refine readFields_cons (datum_long f7 _) ?_
    refine readFields_cons (datum_long f8 _) ?_
    refine readFields_cons (datum_long f9 _) ?_
    refine readFields_cons (datum_string s2 _) ?_
    refine readFields_cons (datum_string s3 _) ?_
    refine readFields_cons (datum_string s4 _) ?_
    refine readFields_cons (datum_string s5 _) ?_
    refine readFields_cons (hq _) ?_
    refine readFields_cons (datum_string s6 _) ?_
    refine readFields_cons (datum_string s7 _) ?_
    refine readFields_cons (datum_int f1 _) ?_
    refine readFields_cons (datum_string s8 _) ?_
    refine readFields_cons (hp _) ?_
    refine readFields_cons (datum_string s9 _) ?_
    refine readFields_cons (ha _) ?_
    refine readFields_cons (datum_string s10 _) ?_
    exact readFields_nil _ _

/-- The parts of a record are no longer than the record. -/
theorem encRecord_parts (name : Str) (thread number order : Nat) (r : Record) :
    (∀ s ∈ [name, r.name, r.request.method.text, r.request.url.text, r.request.version.text, r.request.body, r.response.version, r.response.reason,
      r.response.body, r.error], (utf8 s).length ≤ (encRecord name thread number order r).length) ∧
    (encHeaders r.request.headers).length ≤ (encRecord name thread number order r).length ∧
    (encHeaders r.response.headers).length ≤ (encRecord name thread number order r).length ∧
    (r.asserts.flatMap encAssert).length ≤ (encRecord name thread number order r).length := by
  have hmem : ∀ s, (encStr s).length ≤ (encRecord name thread number order r).length → (utf8 s).length ≤ (encRecord name thread number order r).length :=
    fun s h => Nat.le_trans (encStr_length s) h
  simp only [List.forall_mem_cons]
  refine ⟨⟨hmem _ ?_, hmem _ ?_, hmem _ ?_, hmem _ ?_, hmem _ ?_, hmem _ ?_, hmem _ ?_, hmem _ ?_, hmem _ ?_, hmem _ ?_,
    fun s h => absurd h List.not_mem_nil⟩, ?_, ?_, ?_⟩ <;> (clear hmem; unfold encRecord; simp only [List.length_append]; omega)

theorem record_enc (arrays : Arrays) (name : Str) (thread number order : Nat) (r : Record)
    (hf : RecordFits r) (ht : thread < 2 ^ 32) (hn : number < 2 ^ 32) (ho : order < 2 ^ 63)
    (hl : (encRecord name thread number order r).length < 2 ^ 63)
    (ha : arrays = .avro → r.request.headers = [] ∧ r.response.headers = [] ∧ r.asserts = [])
    (rest : List UInt8) :
    readDatum arrays recordSchema (encRecord name thread number order r ++ rest) = some (recordDatum name thread number order r, rest) := by
  obtain ⟨p1, p2, p3, p4⟩ := encRecord_parts name thread number order r
  have hs := fun s hm => Nat.lt_of_le_of_lt (p1 s hm) hl
  have l2 := Nat.lt_of_le_of_lt p2 hl
  have l3 := Nat.lt_of_le_of_lt p3 hl
  have l4 := Nat.lt_of_le_of_lt p4 hl
  cases arrays with
  | avro =>
    obtain ⟨a1, a2, a3⟩ := ha rfl
    exact record_fields .avro name thread number order r hf ht hn ho hs (headers_avro a1) (headers_avro a2) (asserts_avro a3) rest
  | counted =>
    exact record_fields .counted name thread number order r hf ht hn ho hs (headers_counted _ l2) (headers_counted _ l3) (asserts_counted _ l4) rest

theorem encRecord_pos (name : Str) (thread number order : Nat) (r : Record) : 1 ≤ (encRecord name thread number order r).length := by
  have := encStr_pos name
  unfold encRecord
  simp only [List.length_append]
  omega

/-- A batch, item by item, for either convention: it suffices that every record's arrays read back. -/
theorem records_enc (arrays : Arrays) (name : Str) (thread number : Nat) (ht : thread < 2 ^ 32) (hn : number < 2 ^ 32) :
    ∀ (rs : List Record) (order : Nat), (∀ r ∈ rs, RecordFits r) → order + rs.length < 2 ^ 63 → (encRecords name thread number order rs).length < 2 ^ 63 →
      (arrays = .avro → ∀ r ∈ rs, r.request.headers = [] ∧ r.response.headers = [] ∧ r.asserts = []) → ∀ rest,
      readItems (readDatum arrays recordSchema) rs.length (encRecords name thread number order rs ++ rest) = some (batchData name thread number order rs, rest) := by
  intro rs
  induction rs with
  | nil => intro order _ _ _ _ rest; rfl
  | cons r rs ih =>
    intro order hf ho hl ha rest
    simp only [encRecords, List.length_append, List.length_cons] at hl ho
    have hr := record_enc arrays name thread number order r (hf r List.mem_cons_self) ht hn (by omega) (by omega)
      (fun h => ha h r List.mem_cons_self)
    simp only [encRecords, List.length_cons, readItems, List.append_assoc]
    rw [hr]
    dsimp only
    rw [ih (order + 1) (fun r h => hf r (List.mem_cons_of_mem _ h)) (by omega) (by omega) (fun h r hr => ha h r (List.mem_cons_of_mem _ hr)) rest]
    rfl

theorem readRaw_marker (rest : List UInt8) : readRaw 16 (avroMarker ++ rest) = some (avroMarker, rest) := readRaw_append avroMarker rest

theorem block_enc (arrays : Arrays) (b : Batch) (hf : BatchFits b) (ha : arrays = .avro → NoItems b) (rest : List UInt8) :
    readBlock (readDatum arrays recordSchema) avroMarker (b.bytes ++ rest) = some (batchData b.name b.thread b.number 0 b.records, rest) := by
  obtain ⟨h1, h2, h3, h4, h5⟩ := hf
  have e : b.bytes = encLong (Int64.ofNat b.records.length) ++ (encBytes (encRecords b.name b.thread b.number 0 b.records) ++ avroMarker) := by
    simp only [Batch.bytes, encBlock, encBytes, List.append_assoc]
  have h6 : (encRecords b.name b.thread b.number 0 b.records).length < 2 ^ 63 := by
    rw [e] at h5
    simp only [encBytes, List.length_append] at h5
    omega
  unfold readBlock
  rw [e, List.append_assoc, List.append_assoc, readLong_nat h4]
  dsimp only
  rw [readBytes_enc h6]
  dsimp only
  rw [if_neg (by omega)]
  have := records_enc arrays b.name b.thread b.number h2 h3 b.records 0 h1 (by omega) h6 ha []
  rw [List.append_nil] at this
  rw [Int.toNat_natCast, this]
  dsimp only
  rw [readRaw_marker]
  rfl

theorem bytes_pos (b : Batch) : 16 ≤ b.bytes.length := by
  simp only [Batch.bytes, encBlock, List.length_append]
  have : avroMarker.length = 16 := rfl
  omega

theorem fileBlocks_enc (arrays : Arrays) : ∀ (bs : List Batch), (∀ b ∈ bs, BatchFits b) → (arrays = .avro → ∀ b ∈ bs, NoItems b) →
    ∀ n, bs.length ≤ n → readFileBlocks (readDatum arrays recordSchema) avroMarker n (bs.flatMap Batch.bytes) =
      some (bs.flatMap fun b => batchData b.name b.thread b.number 0 b.records) := by
  intro bs
  induction bs with
  | nil => intro _ _ n _; cases n <;> rfl
  | cons b bs ih =>
    intro hf ha n hn
    cases n with
    | zero => simp at hn
    | succ n =>
      have h16 := bytes_pos b
      simp only [List.flatMap_cons]
      generalize hx : b.bytes ++ bs.flatMap Batch.bytes = x
      cases x with
      | nil =>
        have := congrArg List.length hx
        simp only [List.length_append, List.length_nil] at this
        omega
      | cons y ys =>
        simp only [readFileBlocks]
        rw [← hx, block_enc arrays b (hf b List.mem_cons_self) (fun h => ha h b List.mem_cons_self)]
        dsimp only
        rw [ih (fun b hb => hf b (List.mem_cons_of_mem _ hb)) (fun h b hb => ha h b (List.mem_cons_of_mem _ hb)) n (by simpa using hn)]
        rfl

theorem meta_entry {k v : Str} (hk : (utf8 k).length < 2 ^ 63) (hv : (utf8 v).length < 2 ^ 63) (rest : List UInt8) :
    readMetaEntry (encStr k ++ encStr v ++ rest) = some ((k, utf8 v), rest) := by
  unfold readMetaEntry
  rw [List.append_assoc, readStr_enc hk]
  dsimp only
  unfold encStr
  rw [readBytes_enc hv]
  rfl

theorem utf8_ascii_length {s : Str} (h : s.all (fun c => decide (c.toNat < 128)) = true) : (utf8 s).length = s.length := by
  induction s with
  | nil => rfl
  | cons c s ih =>
    simp only [List.all_cons, Bool.and_eq_true, decide_eq_true_eq] at h
    simp only [utf8, List.flatMap_cons, List.length_append, List.length_cons] at ih ⊢
    rw [ih h.2, String.length_utf8EncodeChar]
    have : c.utf8Size = 1 := by
      unfold Char.utf8Size
      rw [if_pos]
      simp only [UInt32.le_iff_toNat_le]
      have : c.val.toNat < 128 := h.1
      show c.val.toNat ≤ 127
      omega
    omega

set_option maxRecDepth 100000 in
theorem avroSchema_length : (utf8 avroSchema).length < 2 ^ 63 := by
  have h : avroSchema.all (fun c => decide (c.toNat < 128)) = true := by rfl
  have h2 : avroSchema.length < 2 ^ 63 := by decide
  rw [utf8_ascii_length h]
  exact h2

/-- The header of a file written by the writer, read back. -/
theorem header_enc (rest : List UInt8) : readHeader (encHeader avroMeta ++ rest) = some (recordSchema, avroMarker, rest) := by
  have e : encHeader avroMeta ++ rest = avroMagic ++ (encLong (Int64.ofNat avroMeta.length) ++
      (avroMeta.flatMap (fun p => encStr p.1 ++ encStr p.2) ++ ([0] ++ (avroMarker ++ rest)))) := by
    simp only [encHeader, List.append_assoc]
  have hitems := readItems_enc (item := readMetaEntry) (enc := fun p : Str × Str => encStr p.1 ++ encStr p.2) (dat := fun p => (p.1, utf8 p.2)) avroMeta
    (by
      intro x hx rest
      simp only [avroMeta, List.mem_cons, List.not_mem_nil, or_false] at hx
      rcases hx with rfl | rfl
      · exact meta_entry (by decide) avroSchema_length rest
      · exact meta_entry (by decide) (by decide) rest) ([0] ++ (avroMarker ++ rest))
  have hend : ∀ n, readBlocks readMetaEntry (n + 1) ([0] ++ (avroMarker ++ rest)) = some ([], avroMarker ++ rest) := by
    intro n
    have : ([0] : List UInt8) = encLong (Int64.ofNat 0) := by decide
    rw [this]
    simp only [readBlocks, readLong_nat (show 0 < 2 ^ 63 by decide)]
    rfl
  have hblocks : ∀ n, readBlocks readMetaEntry (n + 2) (encLong (Int64.ofNat avroMeta.length) ++
      (avroMeta.flatMap (fun p => encStr p.1 ++ encStr p.2) ++ ([0] ++ (avroMarker ++ rest)))) =
      some (avroMeta.map (fun p => (p.1, utf8 p.2)), avroMarker ++ rest) := by
    intro n
    rw [readBlocks, readLong_nat (show avroMeta.length < 2 ^ 63 by decide)]
    have h2 : avroMeta.length = 2 := rfl
    dsimp only
    rw [if_neg (by omega), if_pos (by omega)]
    dsimp only
    rw [Int.toNat_natCast, hitems]
    dsimp only
    rw [hend]
    simp
  unfold readHeader
  rw [e, show readRaw 4 (avroMagic ++ (encLong (Int64.ofNat avroMeta.length) ++
      (avroMeta.flatMap (fun p => encStr p.1 ++ encStr p.2) ++ ([0] ++ (avroMarker ++ rest))))) = some (avroMagic, _) from readRaw_append avroMagic _]
  dsimp only
  rw [if_pos (show avroMagic = [79, 98, 106, 1] from rfl)]
  have hm : ∃ k, (encLong (Int64.ofNat avroMeta.length) ++
      (avroMeta.flatMap (fun p : Str × Str => encStr p.1 ++ encStr p.2) ++ ([0] ++ (avroMarker ++ rest)))).length + 1 = k + 2 := by
    have h1 := (encLong_length (Int64.ofNat avroMeta.length)).1
    refine ⟨(encLong (Int64.ofNat avroMeta.length) ++
      (avroMeta.flatMap (fun p : Str × Str => encStr p.1 ++ encStr p.2) ++ ([0] ++ (avroMarker ++ rest)))).length - 1, ?_⟩
    rw [List.length_append]
    omega
  obtain ⟨k, hk⟩ := hm
  rw [hk, hblocks k]
  dsimp only
  rw [readRaw_marker]
  dsimp only
  have hcodec : metaGet c!"avro.codec" (avroMeta.map (fun p => (p.1, utf8 p.2))) = some (utf8 c!"null") := by
    simp only [avroMeta, List.map_cons, List.map_nil, metaGet]
    rfl
  have hschema : metaGet c!"avro.schema" (avroMeta.map (fun p => (p.1, utf8 p.2))) = some (utf8 avroSchema) := by
    simp only [avroMeta, List.map_cons, List.map_nil, metaGet]
    rfl
  rw [if_pos (Or.inr hcodec), hschema, Option.bind_some, fromUtf8_utf8]
  dsimp only
  rw [parseSchema_avro]
  rfl

end Am
