import Verif.Proofs.Avro
import Verif.Proofs.AvroSize
/-! # C30-C33: record files -/
set_option linter.unusedSimpArgs false
namespace Am
open Spec

/-! ## C30 -/

/-- C30: every 64-bit integer takes 1 to 10 bytes, and a reader at the front recovers it and leaves exactly the bytes that follow. -/
theorem c30_roundtrip (i : Int64) (rest : List UInt8) :
    1 ≤ (encLong i).length ∧ (encLong i).length ≤ 10 ∧ readLong (encLong i ++ rest) = some (i.toInt, rest) :=
  ⟨(encLong_length i).1, (encLong_length i).2, readLong_enc i rest⟩

/-- C30: distinct integers have distinct encodings, and no encoding is a prefix of another one. -/
theorem c30_prefix_free (i j : Int64) (r r' : List UInt8) (h : encLong i ++ r = encLong j ++ r') : i = j ∧ r = r' := by
  have h1 := readLong_enc i r
  rw [h, readLong_enc j r'] at h1
  simp only [Option.some.injEq, Prod.mk.injEq] at h1
  exact ⟨(Int64.toInt_inj.1 h1.1).symm, h1.2.symm⟩

/-- Concrete case: the extreme values take 10 bytes, small ones 1. -/
example : encLong (-1) = [1] ∧ encLong 64 = [128, 1] ∧ (encLong (-9223372036854775808)).length = 10 ∧
    encLong (-9223372036854775808) = [255, 255, 255, 255, 255, 255, 255, 255, 255, 1] := by decide

/-! ## C31, C32 -/

/-- What the file should say after writing the batches. -/
def filesData (bs : List Batch) : List Datum := bs.flatMap fun b => batchData b.name b.thread b.number 0 b.records

theorem readFile_of_header {arrays : Arrays} {bs r sync : List UInt8} {schema : Schema} {o : Option (List Datum)} (h1 : readHeader bs = some (schema, sync, r))
    (h2 : readFileBlocks (readDatum arrays schema) sync r.length r = o) : readFile arrays bs = o := by
  unfold readFile
  rw [h1]
  exact h2

theorem readFile_writer (arrays : Arrays) (bs : List Batch) (hf : ∀ b ∈ bs, BatchFits b) (ha : arrays = .avro → ∀ b ∈ bs, NoItems b) :
    readFile arrays (writerFile bs) = some (filesData bs) := by
  have h1 := header_enc (bs.flatMap Batch.bytes)
  have h2 := fileBlocks_enc arrays bs hf ha (bs.flatMap Batch.bytes).length (flatMap_count_le fun b _ => Nat.le_trans (by decide) (bytes_pos b))
  exact readFile_of_header h1 h2

/-- C31, the part that holds: the Avro reader, using the schema stored in the file, decodes the file to exactly the records written, in order,
provided no record has headers or asserts. Missing: records with headers or asserts, for which the claim is false (`c31_false`): the writer
does not end the blocks of a non-empty array with a count of 0. -/
theorem c31_avro_partial (bs : List Batch) (hf : ∀ b ∈ bs, BatchFits b) (hn : ∀ b ∈ bs, NoItems b) :
    readFile .avro (writerFile bs) = some (filesData bs) :=
  readFile_writer .avro bs hf fun _ => hn

/-- C31: the header itself conforms for every file: magic bytes, metadata with the codec `null`, a schema text that denotes the record
type with the 25 fields, and the sync marker. -/
theorem c31_header (rest : List UInt8) : readHeader (encHeader avroMeta ++ rest) = some (recordSchema, avroMarker, rest) := header_enc rest

/-- A record with the given request headers and body and nothing else of interest. -/
def plainRecord (hs : List Header) (body : Str) (port : Nat) : Record :=
  ⟨c!"r", ⟨1, 2, 1, 0, 0, 0, 0, 0⟩, ⟨.Get, ⟨.Http, c!"a", port, c!"/"⟩, .Http11, hs, body⟩, ⟨c!"HTTP/1.1", 200, c!"OK", [], []⟩, [], []⟩

theorem readFields_skip {arrays : Arrays} {name : Str} {s : Schema} {fs : List (Str × Schema)} {bs r : List UInt8} {d : Datum}
    (h1 : readDatum arrays s bs = some (d, r)) (h2 : readFields arrays fs r = none) :
    readFields arrays ((name, s) :: fs) bs = none := by
  simp only [readFields, h1, h2]
  rfl

theorem readFields_stop {arrays : Arrays} {name : Str} {s : Schema} {fs : List (Str × Schema)} {bs : List UInt8}
    (h1 : readDatum arrays s bs = none) : readFields arrays ((name, s) :: fs) bs = none := by
  simp only [readFields, h1]

theorem readLong_byte (b : UInt8) (i : Int) (rest : List UInt8) (h : b.toNat < 128) (hi : unzigzag b.toNat = i) : readLong (b :: rest) = some (i, rest) := by
  simp only [readLong, readVar, h, if_true, Option.map_some, hi]

/-- Where the Avro reader fails: after the header it takes the length of the body for another block of header strings. -/
theorem headers_avro_fails (rest : List UInt8) :
    readDatum .avro (.array (.array .string)) (encHeaders [⟨[], []⟩] ++ (encStr c!"a" ++ rest)) = none := by
  have e : encHeaders [⟨[], []⟩] ++ (encStr c!"a" ++ rest) = [2, 4, 0, 0, 2, 97] ++ rest := by
    rw [show encHeaders [⟨[], []⟩] = [2, 4, 0, 0] by decide, show encStr c!"a" = [2, 97] by decide]
    rfl
  have hstr0 : ∀ r, readStr (0 :: r) = some ([], r) := fun r => readStr_enc (s := []) (by decide) r
  have hneg : readStr (97 :: rest) = none := by
    have : readLong (97 :: rest) = some (-49, rest) := readLong_byte _ _ _ (by decide) (by decide)
    simp only [readStr, readBytes, this]
    rfl
  have hinner : ∀ n, readBlocks (readDatum .avro .string) (n + 3) ([4, 0, 0, 2, 97] ++ rest) = none := by
    intro n
    have h1 : ∀ r, readDatum .avro .string (0 :: r) = some (.string [], r) := by intro r; simp only [readDatum, hstr0]; rfl
    have h2 : readDatum .avro .string (97 :: rest) = none := by simp only [readDatum, hneg]; rfl
    have h3 : readBlocks (readDatum .avro .string) (n + 2) (2 :: 97 :: rest) = none := by
      rw [readBlocks, show readLong (2 :: 97 :: rest) = some (1, 97 :: rest) from readLong_byte _ _ _ (by decide) (by decide)]
      simp only [show ((1 : Int) = 0) = False by decide, show ((0 : Int) < 1) = True by decide, show (1 : Int).toNat = 1 by rfl,
        if_false, if_true, readItems, h2]
    rw [readBlocks, show readLong ([4, 0, 0, 2, 97] ++ rest) = some (2, 0 :: 0 :: 2 :: 97 :: rest) from readLong_byte _ _ _ (by decide) (by decide)]
    simp only [show ((2 : Int) = 0) = False by decide, show ((0 : Int) < 2) = True by decide, show (2 : Int).toNat = 2 by rfl,
      if_false, if_true, readItems, h1, Option.map_some]
    rw [h3]
    rfl
  rw [e, readDatum_array]
  have h0 : readDatum .avro (.array .string) ([4, 0, 0, 2, 97] ++ rest) = none := by
    rw [readDatum_array]
    unfold readArray
    dsimp only
    have hl : ([4, 0, 0, 2, 97] ++ rest).length + 1 = (rest.length + 3) + 3 := by simp
    rw [hl, hinner]
    rfl
  unfold readArray
  dsimp only
  rw [readBlocks, show readLong ([2, 4, 0, 0, 2, 97] ++ rest) = some (1, [4, 0, 0, 2, 97] ++ rest) from readLong_byte _ _ _ (by decide) (by decide)]
  simp only [show ((1 : Int) = 0) = False by decide, show ((0 : Int) < 1) = True by decide, show (1 : Int).toNat = 1 by rfl,
      if_false, if_true, readItems, h0]
  rfl

/-- The batch used as a counterexample: one record with one request header. -/
def headerBatch : Batch := ⟨[plainRecord [⟨[], []⟩] c!"a" 80], c!"t", 0, 0⟩

theorem headerBatch_fits : BatchFits headerBatch := by
  refine ⟨?_, by decide, by decide, by decide, by decide⟩
  intro r hr
  simp only [headerBatch, List.mem_cons, List.not_mem_nil, or_false] at hr
  subst hr
  simp only [RecordFits, plainRecord]
  decide

/-- C31 is false: the file with one record that has one request header cannot be read by an Avro reader. -/
theorem c31_false : ¬ ∀ bs : List Batch, (∀ b ∈ bs, BatchFits b) → readFile .avro (writerFile bs) = some (filesData bs) := by
  intro hall
  have h := hall [headerBatch] (by intro b hb; simp only [List.mem_cons, List.not_mem_nil, or_false] at hb; subst hb; exact headerBatch_fits)
  have hd : ∀ rest, readDatum .avro recordSchema (encRecord c!"t" 0 0 0 (plainRecord [⟨[], []⟩] c!"a" 80) ++ rest) = none := by
    intro rest
    rw [recordSchema, readDatum_record]
    unfold encRecord
    simp only [List.append_assoc]
    rw [readFields_skip (datum_string (s := c!"t") (by decide) _) ?_]
    · rfl
    refine readFields_skip (datum_long (by decide) _) ?_
    refine readFields_skip (datum_long (by decide) _) ?_
    refine readFields_skip (datum_long (by decide) _) ?_
    refine readFields_skip (datum_long (by decide) _) ?_
    refine readFields_skip (datum_long (by decide) _) ?_
    refine readFields_skip (datum_long (by decide) _) ?_
    refine readFields_skip (datum_long (by decide) _) ?_
    refine readFields_skip (datum_long (by decide) _) ?_
    refine readFields_skip (datum_long (by decide) _) ?_
    refine readFields_skip (datum_long (by decide) _) ?_
    refine readFields_skip (datum_long (by decide) _) ?_
    refine readFields_skip (datum_string (by decide) _) ?_
    refine readFields_skip (datum_string (by decide) _) ?_
    refine readFields_skip (datum_string (by decide) _) ?_
    refine readFields_skip (datum_string (by decide) _) ?_
    exact readFields_stop (headers_avro_fails _)
  have hb : readBlock (readDatum .avro recordSchema) avroMarker (headerBatch.bytes ++ []) = none := by
    have e : headerBatch.bytes = encLong (Int64.ofNat 1) ++ (encBytes (encRecords c!"t" 0 0 0 [plainRecord [⟨[], []⟩] c!"a" 80]) ++ avroMarker) := by
      simp only [Batch.bytes, encBlock, encBytes, List.append_assoc]
      rfl
    unfold readBlock
    rw [e, List.append_assoc, List.append_assoc, readLong_nat (by decide)]
    dsimp only
    rw [readBytes_enc (by decide)]
    dsimp only
    rw [if_neg (by decide)]
    have : readItems (readDatum .avro recordSchema) (Int.toNat ((1 : Nat) : Int)) (encRecords c!"t" 0 0 0 [plainRecord [⟨[], []⟩] c!"a" 80]) = none := by
      rw [Int.toNat_natCast, readItems, encRecords, hd]
    rw [this]
  unfold writerFile at h
  rw [readFile_of_header (header_enc _) rfl] at h
  rw [show [headerBatch].flatMap Batch.bytes = headerBatch.bytes ++ [] by simp] at h
  generalize hx : headerBatch.bytes ++ [] = x at h hb
  cases x with
  | nil =>
    have h1 := congrArg List.length hx
    have h2 := bytes_pos headerBatch
    rw [List.append_nil, List.length_nil] at h1
    omega
  | cons y ys =>
    simp only [List.length_cons, readFileBlocks, hb] at h
    cases h

theorem readFile_header {arrays : Arrays} {bs r sync : List UInt8} {schema : Schema} {o : Option (List Datum)} (h1 : readHeader bs = some (schema, sync, r))
    (h2 : readFile arrays bs = o) : readFileBlocks (readDatum arrays schema) sync r.length r = o := by
  rw [← h2]
  exact (readFile_of_header h1 rfl).symm

/-- C31: exactly which files an Avro reader decodes to the written records: those without a single header or assert in any record. Every other
file is either rejected or decoded to something else, because the missing ends of the arrays leave it too short. -/
theorem c31_exact (bs : List Batch) (hf : ∀ b ∈ bs, BatchFits b) :
    readFile .avro (writerFile bs) = some (filesData bs) ↔ ∀ b ∈ bs, NoItems b :=
  ⟨fun h => fileBlocks_size bs hf _ (readFile_header (header_enc (bs.flatMap Batch.bytes)) h), fun h => readFile_writer .avro bs hf fun _ => h⟩

set_option maxRecDepth 10000 in
/-- Concrete case for `c31_avro_partial`: two batches of records without headers. -/
example : (∀ b ∈ [(⟨[plainRecord [] c!"x" 80, plainRecord [] c!"é" 81], c!"t", 1, 2⟩ : Batch), ⟨[plainRecord [] [] 80], c!"u", 0, 3⟩],
    BatchFits b ∧ NoItems b) := by
  intro b hb
  simp only [List.mem_cons, List.not_mem_nil, or_false] at hb
  rcases hb with rfl | rfl
  · refine ⟨⟨?_, by decide, by decide, by decide, by decide⟩, ?_⟩ <;> intro r hr <;> simp only [List.mem_cons, List.not_mem_nil, or_false] at hr <;>
      rcases hr with rfl | rfl <;> simp only [RecordFits, plainRecord] <;> decide
  · refine ⟨⟨?_, by decide, by decide, by decide, by decide⟩, ?_⟩ <;> intro r hr <;> simp only [List.mem_cons, List.not_mem_nil, or_false] at hr <;>
      subst hr <;> simp only [RecordFits, plainRecord] <;> decide

/-- C32: a reader that takes arrays as a count followed by the items recovers from the bytes of a block the test name, thread, iteration,
position and every stored field of every record, and leaves exactly the bytes that follow. -/
theorem c32_recover_block (b : Batch) (hf : BatchFits b) (rest : List UInt8) :
    readBlock (readDatum .counted recordSchema) avroMarker (b.bytes ++ rest) = some (batchData b.name b.thread b.number 0 b.records, rest) :=
  block_enc .counted b hf (fun h => by cases h) rest

/-- C32: the same for the whole file, the schema being taken from its header. -/
theorem c32_recover_file (bs : List Batch) (hf : ∀ b ∈ bs, BatchFits b) : readFile .counted (writerFile bs) = some (filesData bs) :=
  readFile_writer .counted bs hf fun h => by cases h

/-- Two records agree on everything but the port of the request's URL. -/
def AgreeButPort (r r' : Record) : Prop :=
  r.name = r'.name ∧ r.time = r'.time ∧ r.request.method = r'.request.method ∧ r.request.url.text = r'.request.url.text ∧
  r.request.version = r'.request.version ∧ r.request.headers = r'.request.headers ∧ r.request.body = r'.request.body ∧
  r.response = r'.response ∧ r.asserts = r'.asserts ∧ r.error = r'.error

theorem headersDatum_inj {hs hs' : List Header} (h : headersDatum hs = headersDatum hs') : hs = hs' := by
  simp only [headersDatum, Datum.array.injEq] at h
  induction hs generalizing hs' with
  | nil => cases hs' with
    | nil => rfl
    | cons => simp at h
  | cons x hs ih => cases hs' with
    | nil => simp at h
    | cons y hs' =>
      simp only [List.map_cons, List.cons.injEq, Datum.array.injEq, Datum.string.injEq, and_true] at h
      obtain ⟨⟨h1, h2⟩, h3⟩ := h
      rw [ih h3]
      cases x; cases y
      simp_all

theorem assertsDatum_inj {as as' : List Assert} (h : as.map assertDatum = as'.map assertDatum) : as = as' := by
  induction as generalizing as' with
  | nil => cases as' with
    | nil => rfl
    | cons => simp at h
  | cons x as ih => cases as' with
    | nil => simp at h
    | cons y as' =>
      simp only [List.map_cons, List.cons.injEq] at h
      obtain ⟨h1, h3⟩ := h
      rw [ih h3]
      cases x; cases y
      simp only [assertDatum, Datum.record.injEq, List.cons.injEq, Prod.mk.injEq, Datum.string.injEq, Datum.boolean.injEq, true_and, and_true] at h1
      simp_all

theorem method_text_inj {m m' : Method} (h : m.text = m'.text) : m = m' := by cases m <;> cases m' <;> first | rfl | cases h
theorem version_text_inj {m m' : Version} (h : m.text = m'.text) : m = m' := by cases m <;> cases m' <;> first | rfl | cases h

theorem recordDatum_inj {name name' : Str} {t t' n n' o o' : Nat} {r r' : Record}
    (h : recordDatum name t n o r = recordDatum name' t' n' o' r') : name = name' ∧ t = t' ∧ n = n' ∧ o = o' ∧ AgreeButPort r r' := by
  simp only [recordDatum, Datum.record.injEq, List.cons.injEq, Prod.mk.injEq, Datum.string.injEq, Datum.int.injEq, Datum.array.injEq, true_and, and_true,
    Int.natCast_inj, Int.ofNat_inj] at h
  obtain ⟨h1, h2, h3, h4, h5, h6, h7, h8, h9, h10, h11, h12, h13, h14, h15, h16, h17, h18, h19, h20, h21, h22, h23, h24, h25⟩ := h
  refine ⟨h1, h2, h3, h4, h13, ?_, method_text_inj h14, h15, version_text_inj h16, headersDatum_inj h17, h18, ?_, assertsDatum_inj h24, h25⟩
  · generalize r.time = a at *
    generalize r'.time = b at *
    cases a; cases b; simp_all
  · have h22 := headersDatum_inj h22
    generalize r.response = a at *
    generalize r'.response = b at *
    cases a; cases b; simp_all

theorem batchData_inj {name name' : Str} {t t' n n' : Nat} : ∀ {rs rs' : List Record} {o : Nat},
    batchData name t n o rs = batchData name' t' n' o rs' →
    rs.length = rs'.length ∧ (∀ i (h : i < rs.length) (h' : i < rs'.length), AgreeButPort rs[i] rs'[i]) ∧ (rs ≠ [] → name = name' ∧ t = t' ∧ n = n') := by
  intro rs
  induction rs with
  | nil =>
    intro rs' o h
    cases rs' with
    | nil => exact ⟨rfl, fun i h => absurd h (by simp), fun h => absurd rfl h⟩
    | cons => simp [batchData] at h
  | cons r rs ih =>
    intro rs' o h
    cases rs' with
    | nil => simp [batchData] at h
    | cons r' rs' =>
      simp only [batchData, List.cons.injEq] at h
      obtain ⟨a1, a2, a3, _, a5⟩ := recordDatum_inj h.1
      obtain ⟨b1, b2, b3⟩ := ih h.2
      refine ⟨by simp [b1], ?_, fun _ => ⟨a1, a2, a3⟩⟩
      intro i hi hi'
      cases i with
      | zero => exact a5
      | succ i => exact b2 i (by simpa using hi) (by simpa using hi')

/-- C32, the part that holds: two batches with the same bytes have equally many records that agree field by field on everything but the
port of the URL; and if they have any record, the test name, thread and iteration agree too. Missing (and false, `c32_false_port`,
`c32_false_empty`): the port, which is not stored, and the name, thread and iteration of a batch without records. -/
theorem c32_unambiguous_partial (b b' : Batch) (hf : BatchFits b) (hf' : BatchFits b') (h : b.bytes = b'.bytes) :
    b.records.length = b'.records.length ∧ (∀ i (h : i < b.records.length) (h' : i < b'.records.length), AgreeButPort b.records[i] b'.records[i]) ∧
      (b.records ≠ [] → b.name = b'.name ∧ b.thread = b'.thread ∧ b.number = b'.number) := by
  have h1 := c32_recover_block b hf []
  rw [h, c32_recover_block b' hf' []] at h1
  simp only [Option.some.injEq, Prod.mk.injEq, and_true] at h1
  exact batchData_inj h1.symm

/-- C32: blocks can be told apart in a row: two sequences of batches with the same file have the same data. -/
theorem c32_file_unambiguous (bs bs' : List Batch) (hf : ∀ b ∈ bs, BatchFits b) (hf' : ∀ b ∈ bs', BatchFits b) (h : writerFile bs = writerFile bs') :
    filesData bs = filesData bs' := by
  have h1 := c32_recover_file bs hf
  rw [h, c32_recover_file bs' hf'] at h1
  exact (Option.some.inj h1).symm

/-- C32 is false: requests to different ports give the same bytes. -/
theorem c32_false_port : ∃ b b' : Batch, BatchFits b ∧ BatchFits b' ∧ b.records ≠ b'.records ∧ b.bytes = b'.bytes := by
  refine ⟨⟨[plainRecord [] [] 80], c!"t", 0, 0⟩, ⟨[plainRecord [] [] 8080], c!"t", 0, 0⟩, ?_, ?_, ?_, rfl⟩
  · refine ⟨?_, by decide, by decide, by decide, by decide⟩
    intro r hr
    simp only [List.mem_cons, List.not_mem_nil, or_false] at hr
    subst hr
    simp only [RecordFits, plainRecord]
    decide
  · refine ⟨?_, by decide, by decide, by decide, by decide⟩
    intro r hr
    simp only [List.mem_cons, List.not_mem_nil, or_false] at hr
    subst hr
    simp only [RecordFits, plainRecord]
    decide
  · simp [plainRecord]

/-- C32 is false: batches without records do not store what they belong to. -/
theorem c32_false_empty : ∃ b b' : Batch, BatchFits b ∧ BatchFits b' ∧ b.name ≠ b'.name ∧ b.thread ≠ b'.thread ∧ b.number ≠ b'.number ∧ b.bytes = b'.bytes :=
  ⟨⟨[], c!"a", 0, 0⟩, ⟨[], c!"b", 1, 1⟩, ⟨by simp, by decide, by decide, by decide, by decide⟩, ⟨by simp, by decide, by decide, by decide, by decide⟩,
    by decide, by decide, by decide, rfl⟩

/-- Concrete case for the C32 theorems: a batch with headers. -/
example : BatchFits headerBatch ∧ ¬ NoItems headerBatch :=
  ⟨headerBatch_fits, fun h => by have := (h (plainRecord [⟨[], []⟩] c!"a" 80) (by simp [headerBatch])).1; simp [plainRecord] at this⟩

/-! ## C33 -/

theorem sink_foldl (accepts : List Nat) : ∀ (bufs : List (List UInt8)) (f : List UInt8),
    (bufs.zip accepts).foldl (fun f p => sinkWrite f p.2 p.1) f = f ++ (bufs.zip accepts).flatMap fun p => p.1.take p.2 := by
  induction accepts with
  | nil => intro bufs f; simp
  | cons n accepts ih =>
    intro bufs f
    cases bufs with
    | nil => simp
    | cons b bufs =>
      rw [List.zip_cons_cons, List.foldl_cons, List.flatMap_cons, ih, sinkWrite, List.append_assoc]

/-- C33, the part that holds: if every call of the sink takes the whole buffer, the file after the calls is the header followed by one
complete block per call, each ended by the sync marker; so it is after every number of calls. Missing (and false, `c33_false`): sinks that
take only part of a buffer, since the count returned by `write` is ignored. -/
theorem c33_whole_partial (bs : List Batch) (accepts : List Nat)
    (hlen : accepts.length = bs.length + 1)
    (h : ∀ i (hi : i < accepts.length), ((encHeader avroMeta :: bs.map Batch.bytes)[i]'(by simp; omega)).length ≤ accepts[i]) :
    writerSink accepts bs = writerFile bs ∧
    ∀ k, k ≤ bs.length → writerSink (accepts.take (k + 1)) (bs.take k) = encHeader avroMeta ++ (bs.take k).flatMap Batch.bytes := by
  have gen : ∀ (accepts : List Nat) (bufs : List (List UInt8)) (hl : accepts.length = bufs.length),
      (∀ i (hi : i < accepts.length), (bufs[i]'(by omega)).length ≤ accepts[i]) →
      ((bufs.zip accepts).flatMap fun p => p.1.take p.2) = bufs.flatten := by
    intro accepts
    induction accepts with
    | nil =>
      intro bufs hl _
      simp only [List.length_nil] at hl
      rw [List.eq_nil_of_length_eq_zero hl.symm]
      rfl
    | cons n accepts ih =>
      intro bufs hl h
      cases bufs with
      | nil => simp at hl
      | cons b bufs =>
        have h0 := h 0 (by simp)
        have := ih bufs (by simpa using hl) (fun i hi => h (i + 1) (by simpa using hi))
        simp only [List.zip_cons_cons, List.flatMap_cons, List.flatten_cons, this]
        rw [List.take_of_length_le (show b.length ≤ n from h0)]
  have main : ∀ (bs : List Batch) (accepts : List Nat) (hlen : accepts.length = bs.length + 1),
      (∀ i (hi : i < accepts.length), ((encHeader avroMeta :: bs.map Batch.bytes)[i]'(by simp; omega)).length ≤ accepts[i]) →
      writerSink accepts bs = writerFile bs := by
    intro bs accepts hlen h
    unfold writerSink writerFile
    rw [sink_foldl, gen accepts _ (by simpa using hlen) h]
    simp [List.flatMap]
  refine ⟨main bs accepts hlen h, ?_⟩
  intro k hk
  refine main (bs.take k) (accepts.take (k + 1)) (by simp; omega) ?_
  intro i hi
  simp only [List.length_take] at hi
  have := h i (by omega)
  rw [List.getElem_take]
  refine Nat.le_trans (Nat.le_of_eq ?_) this
  congr 1
  cases i with
  | zero => rfl
  | succ i => simp

/-- C33: each block ends with the sync marker. -/
theorem c33_marker (b : Batch) : ∃ pre, b.bytes = pre ++ avroMarker := ⟨_, rfl⟩

theorem take_flatMap_cut {α : Type} (f : α → List UInt8) : ∀ (l : List α) (n : Nat), n < (l.flatMap f).length →
    ∃ k, ∃ h : k < l.length, ∃ m, m < (f l[k]).length ∧ (l.flatMap f).take n = (l.take k).flatMap f ++ (f l[k]).take m := by
  intro l
  induction l with
  | nil => intro n h; simp at h
  | cons x l ih =>
    intro n h
    by_cases hn : n < (f x).length
    · refine ⟨0, by simp, n, hn, ?_⟩
      simp only [List.flatMap_cons, List.take_zero, List.flatMap_nil, List.nil_append, List.getElem_cons_zero]
      rw [List.take_append_of_le_length (by omega)]
    · simp only [List.flatMap_cons, List.length_append] at h
      obtain ⟨k, hk, m, hm, e⟩ := ih (n - (f x).length) (by omega)
      refine ⟨k + 1, by simpa using hk, m, by simpa using hm, ?_⟩
      simp only [List.flatMap_cons, List.take_succ_cons, List.getElem_cons_succ, List.append_assoc]
      rw [← e, List.take_append, List.take_of_length_le (by omega)]

/-- C33: a crash in the middle of a write leaves the header and the earlier blocks complete and readable, followed by a proper prefix of one
block (or a proper prefix of the header). -/
theorem c33_crash (bs : List Batch) (n : Nat) (hn : n < (writerFile bs).length) :
    (n < (encHeader avroMeta).length ∧ (writerFile bs).take n = (encHeader avroMeta).take n) ∨
    ∃ k, ∃ h : k < bs.length, ∃ m, m < bs[k].bytes.length ∧ (writerFile bs).take n = writerFile (bs.take k) ++ bs[k].bytes.take m := by
  unfold writerFile at *
  by_cases h : n < (encHeader avroMeta).length
  · exact Or.inl ⟨h, List.take_append_of_le_length (by omega)⟩
  · right
    rw [List.length_append] at hn
    obtain ⟨k, hk, m, hm, e⟩ := take_flatMap_cut Batch.bytes bs (n - (encHeader avroMeta).length) (by omega)
    refine ⟨k, hk, m, hm, ?_⟩
    rw [List.take_append, List.take_of_length_le (by omega), e, List.append_assoc]

/-- C33, the exact condition: the file is the header and one complete block per call exactly when every call of the sink took the whole buffer. -/
theorem c33_exact (bs : List Batch) (accepts : List Nat) (hlen : accepts.length = bs.length + 1) :
    writerSink accepts bs = writerFile bs ↔
      ∀ i (hi : i < accepts.length), ((encHeader avroMeta :: bs.map Batch.bytes)[i]'(by simp; omega)).length ≤ accepts[i] := by
  refine ⟨fun h => ?_, fun h => (c33_whole_partial bs accepts hlen h).1⟩
  have gen : ∀ (accepts : List Nat) (bufs : List (List UInt8)) (hl : accepts.length = bufs.length),
      ((bufs.zip accepts).flatMap fun p => p.1.take p.2).length ≤ bufs.flatten.length ∧
      (bufs.flatten.length ≤ ((bufs.zip accepts).flatMap fun p => p.1.take p.2).length →
        ∀ i (hi : i < accepts.length), (bufs[i]'(by omega)).length ≤ accepts[i]) := by
    intro accepts
    induction accepts with
    | nil => intro bufs hl; exact ⟨by simp, fun _ i hi => absurd hi (by simp)⟩
    | cons n accepts ih =>
      intro bufs hl
      cases bufs with
      | nil => simp at hl
      | cons b bufs =>
        obtain ⟨h1, h2⟩ := ih bufs (by simpa using hl)
        simp only [List.zip_cons_cons, List.flatMap_cons, List.flatten_cons, List.length_append, List.length_take]
        refine ⟨by omega, fun hle i hi => ?_⟩
        cases i with
        | zero => simp only [List.getElem_cons_zero]; omega
        | succ i => simpa using h2 (by omega) i (by simpa using hi)
  unfold writerSink writerFile at h
  rw [sink_foldl] at h
  have hl : accepts.length = (encHeader avroMeta :: bs.map Batch.bytes).length := by simpa using hlen
  refine (gen accepts _ hl).2 (Nat.le_of_eq ?_)
  have := congrArg List.length h
  rw [List.nil_append] at this
  rw [this]
  simp [List.flatMap]

/-- C33 is false: when the sink takes only part of one buffer the rest of that block is lost silently, and the next block follows directly. -/
theorem c33_false : ∃ (accepts : List Nat) (bs : List Batch), accepts.length = bs.length + 1 ∧
    writerSink accepts bs = encHeader avroMeta ++ [0] ++ (⟨[], c!"t", 0, 0⟩ : Batch).bytes ∧ writerSink accepts bs ≠ writerFile bs := by
  have hz : ∀ n : Nat, writerSink [n, 1, 100] [⟨[], c!"t", 0, 0⟩, ⟨[], c!"t", 0, 0⟩] =
      (encHeader avroMeta).take n ++ [0] ++ (⟨[], c!"t", 0, 0⟩ : Batch).bytes := by
    intro n
    unfold writerSink
    rw [sink_foldl]
    simp only [List.map_cons, List.map_nil, List.zip_cons_cons, List.zip_nil_right, List.flatMap_cons, List.flatMap_nil, List.append_nil, List.nil_append,
      List.append_assoc]
    rfl
  refine ⟨[(encHeader avroMeta).length, 1, 100], [⟨[], c!"t", 0, 0⟩, ⟨[], c!"t", 0, 0⟩], rfl, ?_, ?_⟩
  · rw [hz, List.take_length]
  · rw [hz, List.take_length]
    intro h
    unfold writerFile at h
    rw [List.append_assoc] at h
    have := List.append_cancel_left h
    revert this
    decide

/-- Concrete case for `c33_whole_partial`. -/
example : ∃ accepts : List Nat, accepts.length = [headerBatch].length + 1 ∧ ∀ i (hi : i < accepts.length),
    ((encHeader avroMeta :: [headerBatch].map Batch.bytes)[i]?.getD []).length ≤ accepts[i] :=
  ⟨[(encHeader avroMeta).length, headerBatch.bytes.length], rfl, by
    intro i hi
    match i, hi with
    | 0, _ => exact Nat.le_refl _
    | 1, _ => exact Nat.le_refl _⟩

end Am
