import Verif.Proofs.Avro
/-! # How many bytes a datum takes at least, and that the record writer's arrays take fewer -/
set_option linter.unusedSimpArgs false
namespace Am
open Spec

/-! ## Variable-length integers -/

/-- The number of seven-bit groups of a number. -/
def groups (n : Nat) : Nat := if n < 128 then 1 else 1 + groups (n / 128)
termination_by n
decreasing_by omega

theorem groups_small {n : Nat} (h : n < 128) : groups n = 1 := by
  rw [groups, if_pos h]

theorem groups_big {n : Nat} (h : ¬ n < 128) : groups n = 1 + groups (n / 128) := by
  rw [groups, if_neg h]

theorem groups_pos (n : Nat) : 1 ≤ groups n := by
  rw [groups]; split <;> omega

theorem groups_le_iff : ∀ (k n : Nat), groups n ≤ k + 1 ↔ n < 128 ^ (k + 1) := by
  intro k
  induction k with
  | zero =>
    intro n
    by_cases h : n < 128
    · rw [groups_small h]; simpa using h
    · rw [groups_big h]
      have := groups_pos (n / 128)
      constructor
      · intro h1; omega
      · intro h1; simp at h1; omega
  | succ k ih =>
    intro n
    by_cases h : n < 128
    · rw [groups_small h]
      have : 128 ^ 1 ≤ 128 ^ (k + 1 + 1) := Nat.pow_le_pow_right (by decide) (by omega)
      constructor
      · intro _; omega
      · intro _; omega
    · rw [groups_big h]
      have h1 := ih (n / 128)
      rw [Nat.pow_succ 128 (k + 1), ← Nat.div_lt_iff_lt_mul (by decide), ← h1]
      omega

theorem groups_mono {a b : Nat} (h : a ≤ b) : groups a ≤ groups b := by
  obtain ⟨k, hk⟩ : ∃ k, groups b = k + 1 := ⟨groups b - 1, by have := groups_pos b; omega⟩
  rw [hk]
  exact (groups_le_iff k a).2 (Nat.lt_of_le_of_lt h ((groups_le_iff k b).1 (by omega)))

theorem groups_add (a b : Nat) : groups (a + b) ≤ groups a + groups b := by
  obtain ⟨k, hk⟩ : ∃ k, groups a = k + 1 := ⟨groups a - 1, by have := groups_pos a; omega⟩
  obtain ⟨l, hl⟩ : ∃ l, groups b = l + 1 := ⟨groups b - 1, by have := groups_pos b; omega⟩
  have ha := (groups_le_iff k a).1 (by omega)
  have hb := (groups_le_iff l b).1 (by omega)
  rw [hk, hl, show k + 1 + (l + 1) = (k + l + 1) + 1 by omega]
  refine (groups_le_iff _ _).2 ?_
  have h1 : 128 ^ (k + l + 1 + 1) = 128 ^ (k + 1) * 128 ^ (l + 1) := by rw [← Nat.pow_add]; congr 1; omega
  have h2 : 2 ≤ 128 ^ (k + 1) := Nat.le_trans (by decide) (Nat.pow_le_pow_right (n := 128) (by decide) (show 1 ≤ k + 1 by omega))
  have h3 : 2 ≤ 128 ^ (l + 1) := Nat.le_trans (by decide) (Nat.pow_le_pow_right (n := 128) (by decide) (show 1 ≤ l + 1 by omega))
  rw [h1]
  generalize 128 ^ (k + 1) = x at *
  generalize 128 ^ (l + 1) = y at *
  have h4 := Nat.mul_le_mul_left x h3
  have h5 := Nat.mul_le_mul_right y h2
  omega

theorem readVar_size : ∀ (k : Nat) (bs : List UInt8) (z : Nat) (r : List UInt8), readVar k bs = some (z, r) → r.length + groups z ≤ bs.length := by
  intro k
  induction k with
  | zero => intro bs z r h; simp [readVar] at h
  | succ k ih =>
    intro bs z r h
    cases bs with
    | nil => simp [readVar] at h
    | cons b bs =>
      simp only [readVar] at h
      split at h
      · rename_i hb
        simp only [Option.some.injEq, Prod.mk.injEq] at h
        obtain ⟨rfl, rfl⟩ := h
        rw [groups_small hb]
        simp
      · rename_i hb
        simp only [Option.map_eq_some_iff] at h
        obtain ⟨⟨z', r'⟩, h1, h2⟩ := h
        simp only [Prod.mk.injEq] at h2
        obtain ⟨rfl, rfl⟩ := h2
        have h3 := ih bs z' r' h1
        have h4 : groups (b.toNat - 128 + 128 * z') ≤ 1 + groups z' := by
          by_cases hs : b.toNat - 128 + 128 * z' < 128
          · rw [groups_small hs]; omega
          · rw [groups_big hs]
            have := b.toNat_lt
            rw [show (b.toNat - 128 + 128 * z') / 128 = z' by omega]
            omega
        simp only [List.length_cons]
        omega

theorem encVarAux_groups : ∀ (n z : Nat), z < 128 ^ n → n ≠ 0 → (encVarAux n z).length = groups z := by
  intro n
  induction n with
  | zero => intro z _ h; exact absurd rfl h
  | succ n ih =>
    intro z h _
    unfold encVarAux
    by_cases hz : z ≤ 0x7F
    · rw [if_pos hz, groups_small (by omega)]; rfl
    · rw [if_neg hz, groups_big (by omega)]
      have h2 : z >>> 7 = z / 128 := Nat.shiftRight_eq_div_pow z 7
      have h3 : z / 128 < 128 ^ n := by
        rw [Nat.pow_succ] at h
        exact Nat.div_lt_of_lt_mul (by rw [Nat.mul_comm]; exact h)
      have hn : n ≠ 0 := by
        intro hn; subst hn; simp at h; omega
      rw [List.length_cons, h2, ih _ h3 hn]
      omega

/-- The zigzag code of an integer. -/
def zig (i : Int) : Nat := if 0 ≤ i then 2 * i.toNat else 2 * i.natAbs - 1

theorem zig_unzigzag (n : Nat) : zig (unzigzag n) = n := by
  unfold zig unzigzag
  split <;> split <;> omega

theorem readLong_size {bs r : List UInt8} {i : Int} (h : readLong bs = some (i, r)) : r.length + groups (zig i) ≤ bs.length := by
  unfold readLong at h
  simp only [Option.map_eq_some_iff] at h
  obtain ⟨⟨z, r'⟩, h1, h2⟩ := h
  simp only [Prod.mk.injEq] at h2
  obtain ⟨rfl, rfl⟩ := h2
  rw [zig_unzigzag]
  exact readVar_size _ _ _ _ h1

theorem zig_nat (n : Nat) : zig (n : Int) = 2 * n := by
  unfold zig
  rw [if_pos (by omega)]
  omega

theorem encLong_size {n : Nat} (h : n < 2 ^ 63) : (encLong (Int64.ofNat n)).length = groups (2 * n) := by
  unfold encLong encVar
  rw [encVarAux_groups 10 _ (u64_lt _) (by decide)]
  have := zigzag_toNat (Int64.ofNat n)
  rw [Int64.toInt_ofNat_of_lt h, if_pos (by omega)] at this
  congr 1
  omega

/-! ## Data -/

mutual
/-- The least number of bytes a datum takes. -/
def dsize : Datum → Nat
  | .int i => groups (zig i)
  | .string s => groups (2 * (utf8 s).length) + (utf8 s).length
  | .boolean _ => 1
  | .array [] => 1
  | .array (d :: ds) => groups (2 * (ds.length + 1)) + (dsize d + dsizes ds) + 1
  | .record fs => fsizes fs
/-- The same for a list. -/
def dsizes : List Datum → Nat
  | [] => 0
  | d :: ds => dsize d + dsizes ds
/-- The same for the fields of a record. -/
def fsizes : List (Str × Datum) → Nat
  | [] => 0
  | (_, d) :: fs => dsize d + fsizes fs
end

theorem dsizes_append (a b : List Datum) : dsizes (a ++ b) = dsizes a + dsizes b := by
  induction a with
  | nil => simp [dsizes]
  | cons d a ih => simp only [List.cons_append, dsizes, ih]; omega

/-- What an array takes beside its items. -/
def counts (n : Nat) : Nat := if n = 0 then 1 else groups (2 * n) + 1

theorem dsize_array (ds : List Datum) : dsize (.array ds) = counts ds.length + dsizes ds := by
  cases ds with
  | nil => simp [dsize, counts, dsizes]
  | cons d ds => simp only [dsize, counts, dsizes, List.length_cons]; rw [if_neg (by omega)]; omega

theorem counts_add {k n : Nat} (hk : 0 < k) : counts (k + n) ≤ groups (2 * k) + counts n := by
  unfold counts
  rw [if_neg (by omega)]
  split
  · rename_i h; subst h; simp
  · have := groups_add (2 * k) (2 * n)
    rw [Nat.mul_add]
    omega

theorem readItems_size {item : List UInt8 → Option (Datum × List UInt8)} (hi : ∀ bs d r, item bs = some (d, r) → r.length + dsize d ≤ bs.length) :
    ∀ (k : Nat) (bs : List UInt8) (ds : List Datum) (r : List UInt8), readItems item k bs = some (ds, r) →
      ds.length = k ∧ r.length + dsizes ds ≤ bs.length := by
  intro k
  induction k with
  | zero =>
    intro bs ds r h
    simp only [readItems, Option.some.injEq, Prod.mk.injEq] at h
    obtain ⟨rfl, rfl⟩ := h
    simp [dsizes]
  | succ k ih =>
    intro bs ds r h
    simp only [readItems] at h
    split at h
    · rename_i d r' h1
      simp only [Option.map_eq_some_iff] at h
      obtain ⟨⟨ds', r''⟩, h2, h3⟩ := h
      simp only [Prod.mk.injEq] at h3
      obtain ⟨rfl, rfl⟩ := h3
      have h4 := hi _ _ _ h1
      have h5 := ih _ _ _ h2
      simp only [List.length_cons, dsizes]
      omega
    · cases h

theorem readBlocks_size {item : List UInt8 → Option (Datum × List UInt8)} (hi : ∀ bs d r, item bs = some (d, r) → r.length + dsize d ≤ bs.length) :
    ∀ (n : Nat) (bs : List UInt8) (ds : List Datum) (r : List UInt8), readBlocks item n bs = some (ds, r) →
      r.length + counts ds.length + dsizes ds ≤ bs.length := by
  intro n
  induction n with
  | zero => intro bs ds r h; simp [readBlocks] at h
  | succ n ih =>
    intro bs ds r h
    simp only [readBlocks] at h
    split at h
    · cases h
    · rename_i count r1 h1
      have hl := readLong_size h1
      split at h
      · rename_i hc
        subst hc
        simp only [Option.some.injEq, Prod.mk.injEq] at h
        obtain ⟨rfl, rfl⟩ := h
        have := groups_pos (zig 0)
        simp only [counts, dsizes, List.length_nil, if_true]
        omega
      · rename_i hc
        split at h
        · cases h
        · rename_i k r2 h2
          have hk : 0 < k ∧ r2.length + groups (2 * k) ≤ bs.length := by
            split at h2
            · rename_i hp
              simp only [Option.some.injEq, Prod.mk.injEq] at h2
              obtain ⟨rfl, rfl⟩ := h2
              have h3 := zig_nat count.toNat
              rw [Int.toNat_of_nonneg (by omega)] at h3
              rw [h3] at hl
              omega
            · rename_i hp
              simp only [Option.map_eq_some_iff] at h2
              obtain ⟨⟨c', r'⟩, h3, h4⟩ := h2
              simp only [Prod.mk.injEq] at h4
              obtain ⟨rfl, rfl⟩ := h4
              have h5 := readLong_size h3
              have h6 := groups_pos (zig c')
              have h7 : zig count = 2 * count.natAbs - 1 := by unfold zig; rw [if_neg (by omega)]
              rw [h7] at hl
              have h8 := groups_add (2 * count.natAbs - 1) 1
              rw [groups_small (show 1 < 128 by decide), show 2 * count.natAbs - 1 + 1 = 2 * count.natAbs by omega] at h8
              omega
          split at h
          · cases h
          · rename_i ds1 r3 h3
            have h4 := readItems_size hi _ _ _ _ h3
            simp only [Option.map_eq_some_iff] at h
            obtain ⟨⟨ds2, r4⟩, h5, h6⟩ := h
            simp only [Prod.mk.injEq] at h6
            obtain ⟨rfl, rfl⟩ := h6
            have h7 := ih _ _ _ h5
            have h8 := counts_add (k := k) (n := ds2.length) hk.1
            rw [dsizes_append, List.length_append, h4.1]
            omega

theorem readStr_size {bs r : List UInt8} {s : Str} (h : readStr bs = some (s, r)) : r.length + (groups (2 * (utf8 s).length) + (utf8 s).length) ≤ bs.length := by
  unfold readStr readBytes at h
  split at h
  · rename_i b r' h1
    simp only [Option.map_eq_some_iff] at h
    obtain ⟨s', h2, h3⟩ := h
    simp only [Prod.mk.injEq] at h3
    obtain ⟨rfl, rfl⟩ := h3
    have h4 := utf8_of_fromUtf8 h2
    rw [h4]
    split at h1
    · rename_i n r1 h5
      have h6 := readLong_size h5
      split at h1
      · rename_i hn
        unfold readRaw at h1
        split at h1
        · rename_i hle
          simp only [Option.some.injEq, Prod.mk.injEq] at h1
          obtain ⟨rfl, rfl⟩ := h1
          have h7 := zig_nat n.toNat
          rw [Int.toNat_of_nonneg hn] at h7
          rw [h7] at h6
          simp only [List.length_take, List.length_drop]
          rw [Nat.min_eq_left hle]
          omega
        · cases h1
      · cases h1
    · cases h1
  · cases h

mutual
/-- Whatever the reader takes for a datum is at least as long as the least encoding of the datum. -/
theorem readDatum_size : ∀ (s : Schema) (bs : List UInt8) (d : Datum) (r : List UInt8), readDatum .avro s bs = some (d, r) → r.length + dsize d ≤ bs.length
  | .long, bs, d, r, h => by
    simp only [readDatum, Option.map_eq_some_iff] at h
    obtain ⟨⟨i, r'⟩, h1, h2⟩ := h
    simp only [Prod.mk.injEq] at h2
    obtain ⟨rfl, rfl⟩ := h2
    exact readLong_size h1
  | .int, bs, d, r, h => by
    simp only [readDatum, Option.bind_eq_some_iff] at h
    obtain ⟨⟨i, r'⟩, h1, h2⟩ := h
    split at h2
    · simp only [Option.some.injEq, Prod.mk.injEq] at h2
      obtain ⟨rfl, rfl⟩ := h2
      exact readLong_size h1
    · cases h2
  | .string, bs, d, r, h => by
    simp only [readDatum, Option.map_eq_some_iff] at h
    obtain ⟨⟨s, r'⟩, h1, h2⟩ := h
    simp only [Prod.mk.injEq] at h2
    obtain ⟨rfl, rfl⟩ := h2
    exact readStr_size h1
  | .boolean, bs, d, r, h => by
    simp only [readDatum, Option.map_eq_some_iff] at h
    obtain ⟨⟨b, r'⟩, h1, h2⟩ := h
    simp only [Prod.mk.injEq] at h2
    obtain ⟨rfl, rfl⟩ := h2
    cases bs with
    | nil => simp [readBool] at h1
    | cons x bs =>
      simp only [readBool] at h1
      split at h1
      · simp only [Option.some.injEq, Prod.mk.injEq] at h1
        obtain ⟨rfl, rfl⟩ := h1
        simp [dsize]
      · split at h1
        · simp only [Option.some.injEq, Prod.mk.injEq] at h1
          obtain ⟨rfl, rfl⟩ := h1
          simp [dsize]
        · cases h1
  | .array s, bs, d, r, h => by
    rw [readDatum_array] at h
    simp only [Option.map_eq_some_iff, readArray] at h
    obtain ⟨⟨ds, r'⟩, h1, h2⟩ := h
    simp only [Prod.mk.injEq] at h2
    obtain ⟨rfl, rfl⟩ := h2
    have := readBlocks_size (readDatum_size s) _ _ _ _ h1
    rw [dsize_array]
    omega
  | .record fs, bs, d, r, h => by
    rw [readDatum_record] at h
    simp only [Option.map_eq_some_iff] at h
    obtain ⟨⟨ds, r'⟩, h1, h2⟩ := h
    simp only [Prod.mk.injEq] at h2
    obtain ⟨rfl, rfl⟩ := h2
    exact readFields_size fs _ _ _ h1
theorem readFields_size : ∀ (fs : List (Str × Schema)) (bs : List UInt8) (ds : List (Str × Datum)) (r : List UInt8),
    readFields .avro fs bs = some (ds, r) → r.length + fsizes ds ≤ bs.length
  | [], bs, ds, r, h => by
    rw [readFields_nil] at h
    simp only [Option.some.injEq, Prod.mk.injEq] at h
    obtain ⟨rfl, rfl⟩ := h
    simp [fsizes]
  | (name, s) :: fs, bs, ds, r, h => by
    simp only [readFields] at h
    split at h
    · rename_i d r1 h1
      simp only [Option.map_eq_some_iff] at h
      obtain ⟨⟨ds', r'⟩, h2, h3⟩ := h
      simp only [Prod.mk.injEq] at h3
      obtain ⟨rfl, rfl⟩ := h3
      have h4 := readDatum_size s _ _ _ h1
      have h5 := readFields_size fs _ _ _ h2
      simp only [fsizes]
      omega
    · cases h
end

/-! ## What the writer writes is no longer, and shorter as soon as an array has items -/

theorem encStr_size {s : Str} (h : (utf8 s).length < 2 ^ 63) : (encStr s).length = dsize (.string s) := by
  simp only [encStr, encBytes, List.length_append, encLong_size h, dsize]

theorem datum_size {n : Nat} (h : n < 2 ^ 63) : (encLong (Int64.ofNat n)).length = dsize (.int n) := by
  rw [encLong_size h]
  simp only [dsize, zig_nat]

theorem flatMap_size {β : Type} {enc : β → List UInt8} {dat : β → Datum} {l : List β} (h : ∀ x ∈ l, (enc x).length ≤ dsize (dat x)) :
    (l.flatMap enc).length ≤ dsizes (l.map dat) := by
  induction l with
  | nil => simp [dsizes]
  | cons x l ih =>
    have h1 := ih fun y hy => h y (List.mem_cons_of_mem _ hy)
    have h2 := h x List.mem_cons_self
    simp only [List.flatMap_cons, List.map_cons, List.length_append, dsizes]
    omega

/-- An array without its end is shorter by a byte, if it has items. -/
theorem counted_size {β : Type} {enc : β → List UInt8} {dat : β → Datum} {l : List β} (hl : l.length < 2 ^ 63) (h : ∀ x ∈ l, (enc x).length ≤ dsize (dat x)) :
    (encLong (Int64.ofNat l.length)).length + (l.flatMap enc).length ≤ dsize (.array (l.map dat)) ∧
    (l ≠ [] → (encLong (Int64.ofNat l.length)).length + (l.flatMap enc).length < dsize (.array (l.map dat))) := by
  have h1 := flatMap_size h
  rw [dsize_array, List.length_map, encLong_size hl]
  unfold counts
  split
  · rename_i h0
    have : l = [] := List.eq_nil_of_length_eq_zero h0
    subst this
    simp [dsizes, groups_small]
  · omega

theorem headers_size {hs : List Header} (h : (encHeaders hs).length < 2 ^ 63) :
    (encHeaders hs).length ≤ dsize (headersDatum hs) ∧ (hs ≠ [] → (encHeaders hs).length < dsize (headersDatum hs)) := by
  simp only [encHeaders, List.length_append] at h ⊢
  have hc : hs.length ≤ (hs.flatMap fun h => encLong 2 ++ encStr h.name ++ encStr h.value).length :=
    flatMap_count_le (fun x _ => by have := encStr_pos x.name; simp only [List.length_append]; omega)
  refine counted_size (enc := fun h : Header => encLong 2 ++ encStr h.name ++ encStr h.value)
    (dat := fun h => Datum.array [.string h.name, .string h.value]) (by omega) ?_
  intro x hx
  have h1 := flatMap_length_le (enc := fun h : Header => encLong 2 ++ encStr h.name ++ encStr h.value) hx
  simp only [List.length_append] at h1
  have h2 := encStr_length x.name
  have h3 := encStr_length x.value
  have h4 := encStr_size (s := x.name) (by omega)
  have h5 := encStr_size (s := x.value) (by omega)
  have h6 : (encLong 2).length = groups (2 * 2) := encLong_size (n := 2) (by decide)
  simp only [List.length_append, dsize_array, dsizes, List.length_cons, List.length_nil, counts, h4, h5, h6]
  rw [if_neg (by omega)]
  have h7 : groups (2 * (0 + 1 + 1)) = groups (2 * 2) := rfl
  omega

theorem assert_size {a : Assert} (h : (encAssert a).length < 2 ^ 63) : (encAssert a).length ≤ dsize (assertDatum a) := by
  simp only [encAssert, List.length_append] at h
  have h1 := encStr_length a.expr
  have h2 := encStr_length a.left
  have h3 := encStr_length a.compare
  have h4 := encStr_length a.right
  have e1 := encStr_size (s := a.expr) (by omega)
  have e2 := encStr_size (s := a.left) (by omega)
  have e3 := encStr_size (s := a.compare) (by omega)
  have e4 := encStr_size (s := a.right) (by omega)
  have e5 : (encBool a.result).length = 1 := rfl
  simp only [encAssert, assertDatum, List.length_append, dsize, fsizes, e1, e2, e3, e4, e5]
  omega

theorem asserts_size {l : List Assert} (h : (l.flatMap encAssert).length < 2 ^ 63) :
    (encLong (Int64.ofNat l.length)).length + (l.flatMap encAssert).length ≤ dsize (.array (l.map assertDatum)) ∧
    (l ≠ [] → (encLong (Int64.ofNat l.length)).length + (l.flatMap encAssert).length < dsize (.array (l.map assertDatum))) := by
  have hc : l.length ≤ (l.flatMap encAssert).length :=
    flatMap_count_le (fun x _ => by have := encStr_pos x.expr; simp only [encAssert, List.length_append]; omega)
  refine counted_size (by omega) fun a ha => assert_size ?_
  have := flatMap_length_le (enc := encAssert) ha
  omega

theorem record_size (name : Str) (thread number order : Nat) (r : Record)
    (hf : RecordFits r) (ht : thread < 2 ^ 32) (hn : number < 2 ^ 32) (ho : order < 2 ^ 63) (hl : (encRecord name thread number order r).length < 2 ^ 63) :
    (encRecord name thread number order r).length ≤ dsize (recordDatum name thread number order r) ∧
    (¬ (r.request.headers = [] ∧ r.response.headers = [] ∧ r.asserts = []) →
      (encRecord name thread number order r).length < dsize (recordDatum name thread number order r)) := by
  obtain ⟨p1, p2, p3, p4⟩ := encRecord_parts name thread number order r
  have hs := fun s hm => Nat.lt_of_le_of_lt (p1 s hm) hl
  obtain ⟨q1, q2⟩ := headers_size (Nat.lt_of_le_of_lt p2 hl)
  obtain ⟨q3, q4⟩ := headers_size (Nat.lt_of_le_of_lt p3 hl)
  obtain ⟨q5, q6⟩ := asserts_size (Nat.lt_of_le_of_lt p4 hl)
  obtain ⟨f1, f2, f3, f4, f5, f6, f7, f8, f9⟩ := hf
  simp only [List.forall_mem_cons] at hs
  obtain ⟨s1, s2, s3, s4, s5, s6, s7, s8, s9, s10, -⟩ := hs
  clear p1 p2 p3 p4 hl
  replace s1 := encStr_size s1
  replace s2 := encStr_size s2
  replace s3 := encStr_size s3
  replace s4 := encStr_size s4
  replace s5 := encStr_size s5
  replace s6 := encStr_size s6
  replace s7 := encStr_size s7
  replace s8 := encStr_size s8
  replace s9 := encStr_size s9
  replace s10 := encStr_size s10
  replace f1 := datum_size (show r.response.status < 2 ^ 63 by omega)
  replace f2 := datum_size f2
  replace f3 := datum_size f3
  replace f4 := datum_size f4
  replace f5 := datum_size f5
  replace f6 := datum_size f6
  replace f7 := datum_size f7
  replace f8 := datum_size f8
  replace f9 := datum_size f9
  replace ht := datum_size (show thread < 2 ^ 63 by omega)
  replace hn := datum_size (show number < 2 ^ 63 by omega)
  replace ho := datum_size ho
  have e1 : dsize (recordDatum name thread number order r) = fsizes (match recordDatum name thread number order r with | .record fs => fs | _ => []) := rfl
  rw [e1, recordDatum]
  unfold encRecord
  simp only [List.length_append, fsizes, s1, s2, s3, s4, s5, s6, s7, s8, s9, s10, f1, f2, f3, f4, f5, f6, f7, f8, f9, ht, hn, ho]
  constructor
  · omega
  · intro hne
    by_cases h1 : r.request.headers = []
    · by_cases h2 : r.response.headers = []
      · have h3 := q6 fun h3 => hne ⟨h1, h2, h3⟩
        omega
      · have h3 := q4 h2
        omega
    · have h3 := q2 h1
      omega

theorem records_size (name : Str) (thread number : Nat) (ht : thread < 2 ^ 32) (hn : number < 2 ^ 32) :
    ∀ (rs : List Record) (order : Nat), (∀ r ∈ rs, RecordFits r) → order + rs.length < 2 ^ 63 → (encRecords name thread number order rs).length < 2 ^ 63 →
      (encRecords name thread number order rs).length ≤ dsizes (batchData name thread number order rs) ∧
      (¬ (∀ r ∈ rs, r.request.headers = [] ∧ r.response.headers = [] ∧ r.asserts = []) →
        (encRecords name thread number order rs).length < dsizes (batchData name thread number order rs)) := by
  intro rs
  induction rs with
  | nil => intro order _ _ _; exact ⟨by simp [encRecords, batchData, dsizes], fun h => absurd (fun r hr => nomatch hr) h⟩
  | cons r rs ih =>
    intro order hf ho hl
    simp only [encRecords, List.length_append, List.length_cons] at hl ho
    obtain ⟨h1, h2⟩ := record_size name thread number order r (hf r List.mem_cons_self) ht hn (by omega) (by omega)
    obtain ⟨h3, h4⟩ := ih (order + 1) (fun r h => hf r (List.mem_cons_of_mem _ h)) (by omega) (by omega)
    simp only [encRecords, batchData, dsizes, List.length_append]
    refine ⟨by omega, fun hne => ?_⟩
    by_cases hr : r.request.headers = [] ∧ r.response.headers = [] ∧ r.asserts = []
    · have := h4 fun hall => hne (by
        intro x hx
        rcases List.mem_cons.1 hx with h | h
        · subst h; exact hr
        · exact hall x h)
      omega
    · have := h2 hr
      omega

theorem batchData_length (name : Str) (thread number : Nat) : ∀ (rs : List Record) (order : Nat), (batchData name thread number order rs).length = rs.length := by
  intro rs
  induction rs with
  | nil => intro _; rfl
  | cons r rs ih => intro order; simp only [batchData, List.length_cons, ih]

/-- A block that an Avro reader accepts holds as many data as the batch has records, and if they are the batch's data, no array has items. -/
theorem block_size (b : Batch) (hf : BatchFits b) {rest r : List UInt8} {ds : List Datum}
    (h : readBlock (readDatum .avro recordSchema) avroMarker (b.bytes ++ rest) = some (ds, r)) :
    r = rest ∧ ds.length = b.records.length ∧ (ds = batchData b.name b.thread b.number 0 b.records → NoItems b) := by
  obtain ⟨h1, h2, h3, h4, h5⟩ := hf
  have e : b.bytes = encLong (Int64.ofNat b.records.length) ++ (encBytes (encRecords b.name b.thread b.number 0 b.records) ++ avroMarker) := by
    simp only [Batch.bytes, encBlock, encBytes, List.append_assoc]
  have h6 : (encRecords b.name b.thread b.number 0 b.records).length < 2 ^ 63 := by
    rw [e] at h5
    simp only [encBytes, List.length_append] at h5
    omega
  unfold readBlock at h
  rw [e, List.append_assoc, List.append_assoc, readLong_nat h4] at h
  dsimp only at h
  rw [readBytes_enc h6] at h
  dsimp only at h
  rw [if_neg (by omega), Int.toNat_natCast] at h
  split at h
  · rename_i ds' h7
    rw [readRaw_marker] at h
    dsimp only at h
    rw [if_pos rfl] at h
    simp only [Option.some.injEq, Prod.mk.injEq] at h
    obtain ⟨rfl, rfl⟩ := h
    obtain ⟨h8, h9⟩ := readItems_size (readDatum_size recordSchema) _ _ _ _ h7
    refine ⟨rfl, h8, fun hd => ?_⟩
    subst hd
    obtain ⟨-, h10⟩ := records_size b.name b.thread b.number h2 h3 b.records 0 h1 (by omega) h6
    refine Classical.byContradiction fun hne => ?_
    have := h10 hne
    simp only [List.length_nil] at h9
    omega
  · cases h

theorem fileBlocks_size : ∀ (bs : List Batch), (∀ b ∈ bs, BatchFits b) → ∀ n, readFileBlocks (readDatum .avro recordSchema) avroMarker n (bs.flatMap Batch.bytes) =
      some (bs.flatMap fun b => batchData b.name b.thread b.number 0 b.records) → ∀ b ∈ bs, NoItems b := by
  intro bs
  induction bs with
  | nil => intro _ _ _ b hb; cases hb
  | cons b bs ih =>
    intro hf n h
    have h16 := bytes_pos b
    simp only [List.flatMap_cons] at h
    generalize hx : b.bytes ++ bs.flatMap Batch.bytes = x at h
    cases x with
    | nil =>
      have := congrArg List.length hx
      simp only [List.length_append, List.length_nil] at this
      omega
    | cons y ys =>
      cases n with
      | zero => simp [readFileBlocks] at h
      | succ n =>
        simp only [readFileBlocks] at h
        rw [← hx] at h
        split at h
        · rename_i ds r h1
          obtain ⟨rfl, h2, h3⟩ := block_size b (hf b List.mem_cons_self) h1
          simp only [Option.map_eq_some_iff] at h
          obtain ⟨l, h4, h5⟩ := h
          obtain ⟨rfl, rfl⟩ := List.append_inj h5 (by rw [h2, batchData_length])
          intro c hc
          rcases List.mem_cons.1 hc with h | h
          · subst h; exact h3 rfl
          · exact ih (fun b hb => hf b (List.mem_cons_of_mem _ hb)) n h4 c h
        · cases h

end Am
