import Verif.Proofs.Equality
import Verif.Props.Arithmetic
import Verif.Props.Values
import Verif.Props.Templates
/-! # The operators and built-in functions of the model mean what the rules say -/
set_option linter.unusedSimpArgs false
set_option linter.unusedSectionVars false
namespace Am
open Spec
variable {F : Type} [Rt F]

/-! ## Integers -/

theorem arith_unique {checks : Bool} {x : Int} {o o' : Res (Value F)} (h : Arith checks x o) (h' : Arith checks x o') : o = o' := by
  rcases h with ⟨hf, c, e, hc⟩ | ⟨hf, hk, e⟩ | ⟨hf, hk, c, e, hc⟩ <;> rcases h' with ⟨hf', c', e', hc'⟩ | ⟨hf', hk', e'⟩ | ⟨hf', hk', c', e', hc'⟩
  all_goals first
    | exact absurd hf hf'
    | exact absurd hf' hf
    | exact absurd (hk.symm.trans hk') (by decide)
    | (rw [e, e']; done)
    | (rw [e, e', Int64.toInt_inj.1 (hc.trans hc'.symm)])
    | (rw [e, e', Int64.toInt_inj.1 (wraps_unique hc hc')])

theorem bits_unique {a b : Int64} (h : ∀ n, bit a n = bit b n) : a = b := by
  apply Int64.toBitVec_inj.1
  apply BitVec.eq_of_getLsbD_eq
  intro i _
  exact h i

theorem floor_unique {a c d m : Int} (hm : 0 < m) (h1 : c * m ≤ a) (h2 : a < (c + 1) * m) (h3 : d * m ≤ a) (h4 : a < (d + 1) * m) : c = d := by
  have h5 : c * m < (d + 1) * m := by omega
  have h6 : d * m < (c + 1) * m := by omega
  have h5 := Int.lt_of_mul_lt_mul_right h5 (Int.le_of_lt hm)
  have h6 := Int.lt_of_mul_lt_mul_right h6 (Int.le_of_lt hm)
  omega

theorem intOp_unique {k : Kind} {a b : Int64} {o o' : Res (Value F)} (h : IntOp F k a b o) (h' : IntOp F k a b o') : o = o' := by
  cases k with
  | Add => exact arith_unique h h'
  | Sub => exact arith_unique h h'
  | Mul => exact arith_unique h h'
  | Div =>
    rcases h with ⟨h1, e⟩ | ⟨h1, q, r, e, ht⟩ <;> rcases h' with ⟨h1', e'⟩ | ⟨h1', q', r', e', ht'⟩
    · rw [e, e']
    · exact absurd h1 h1'
    · exact absurd h1' h1
    · rw [e, e', Int64.toInt_inj.1 (c15_div_rem_unique _ _ _ _ _ _ ht ht').1]
  | Rem =>
    rcases h with ⟨h1, e⟩ | ⟨h1, q, r, e, ht⟩ <;> rcases h' with ⟨h1', e'⟩ | ⟨h1', q', r', e', ht'⟩
    · rw [e, e']
    · exact absurd h1 h1'
    · exact absurd h1' h1
    · rw [e, e', Int64.toInt_inj.1 (c15_div_rem_unique _ _ _ _ _ _ ht ht').2]
  | Bx => obtain ⟨c, e, h⟩ := h; obtain ⟨c', e', h'⟩ := h'; rw [e, e', bits_unique (fun n => (h n).trans (h' n).symm)]
  | Bo => obtain ⟨c, e, h⟩ := h; obtain ⟨c', e', h'⟩ := h'; rw [e, e', bits_unique (fun n => (h n).trans (h' n).symm)]
  | Ba => obtain ⟨c, e, h⟩ := h; obtain ⟨c', e', h'⟩ := h'; rw [e, e', bits_unique (fun n => (h n).trans (h' n).symm)]
  | Sl =>
    rcases h with ⟨h1, h2, e⟩ | ⟨h1, k, j, c, hk, hj, e, hw⟩ <;> rcases h' with ⟨h1', h2', e'⟩ | ⟨h1', k', j', c', hk', hj', e', hw'⟩
    · rw [e, e']
    · rcases h1' with h1' | h1'
      · exact absurd h1' h1
      · rw [h2] at h1'; cases h1'
    · rcases h1 with h1 | h1
      · exact absurd h1 h1'
      · rw [h2'] at h1; cases h1
    · have : k = k' := by omega
      subst this
      rw [e, e', Int64.toInt_inj.1 (wraps_unique hw hw')]
  | Sr =>
    rcases h with ⟨h1, h2, e⟩ | ⟨h1, k, j, c, hk, hj, e, hw⟩ <;> rcases h' with ⟨h1', h2', e'⟩ | ⟨h1', k', j', c', hk', hj', e', hw'⟩
    · rw [e, e']
    · rcases h1' with h1' | h1'
      · exact absurd h1' h1
      · rw [h2] at h1'; cases h1'
    · rcases h1 with h1 | h1
      · exact absurd h1 h1'
      · rw [h2'] at h1; cases h1
    · have : k = k' := by omega
      subst this
      have hp : (0 : Int) < 2 ^ k := Int.pow_pos (by decide)
      rw [e, e', Int64.toInt_inj.1 (floor_unique hp hw.1 hw.2 hw'.1 hw'.2)]
  | _ => exact absurd h id

theorem shiftAmount_cases (b : Int64) :
    (¬(0 ≤ b.toInt ∧ b.toInt < 64) ∧ Rt.checks F = true ∧ shiftAmount F b = .panic) ∨
    (((0 ≤ b.toInt ∧ b.toInt < 64) ∨ Rt.checks F = false) ∧ ∃ (k : Nat) (j : Int), k < 64 ∧ (k : Int) = b.toInt + j * 64 ∧ shiftAmount F b = .ok k) := by
  by_cases h : 0 ≤ b.toInt ∧ b.toInt < 64
  · refine Or.inr ⟨Or.inl h, b.toInt.toNat, 0, by omega, by omega, ?_⟩
    simp only [shiftAmount]; rw [if_pos h]
  · cases hc : Rt.checks F with
    | true =>
      refine Or.inl ⟨h, rfl, ?_⟩
      simp only [shiftAmount]; rw [if_neg h, hc]; rfl
    | false =>
      refine Or.inr ⟨Or.inr rfl, (b.toInt % 64).toNat, -(b.toInt / 64), by omega, by omega, ?_⟩
      simp only [shiftAmount]; rw [if_neg h, hc]; rfl

theorem intOp_iff {k : Kind} {op : Value F → Value F → Res (Value F)} {text : Str} (hs : sign k = some text) (hop : binaryOp k = some op)
    (a b : Int64) (o : Res (Value F)) : IntOp F k a b o ↔ o = op (.int a) (.int b) := by
  have key : IntOp F k a b (op (.int a) (.int b)) := by
    cases k <;> first | (cases hs; done) | skip
    all_goals cases hop
    · exact c15_add a b
    · exact c15_sub a b
    · exact c15_mul a b
    · rcases c15_div_rem (F := F) a b with ⟨h, e, -⟩ | ⟨h1, h2, q, r, e, -, ht⟩
      · exact Or.inl ⟨h, e⟩
      · exact Or.inr ⟨fun h => h.elim h1 h2, q, r, e, ht⟩
    · rcases c15_div_rem (F := F) a b with ⟨h, -, e⟩ | ⟨h1, h2, q, r, -, e, ht⟩
      · exact Or.inl ⟨h, e⟩
      · exact Or.inr ⟨fun h => h.elim h1 h2, q, r, e, ht⟩
    · exact (c15_bitwise a b).1
    · exact (c15_bitwise a b).2.1
    · exact (c15_bitwise a b).2.2
    · rcases shiftAmount_cases (F := F) b with ⟨h1, h2, e⟩ | ⟨h1, k, j, hk, hj, e⟩
      · refine Or.inl ⟨h1, h2, ?_⟩
        simp only [Value.shl]; rw [e]; rfl
      · refine Or.inr ⟨h1, k, j, Int64.ofInt (a.toInt * 2 ^ k), hk, hj, ?_, toInt_ofInt_wraps _⟩
        simp only [Value.shl]; rw [e]; rfl
    · rcases shiftAmount_cases (F := F) b with ⟨h1, h2, e⟩ | ⟨h1, k, j, hk, hj, e⟩
      · refine Or.inl ⟨h1, h2, ?_⟩
        simp only [Value.shr]; rw [e]; rfl
      · refine Or.inr ⟨h1, k, j, Int64.ofInt (a.toInt / 2 ^ k), hk, hj, ?_, ?_⟩
        · simp only [Value.shr]; rw [e]; rfl
        · rw [toInt_ofInt_fits (ediv_pow_fits (i64_fits a) _)]
          have hp : (0 : Int) < 2 ^ k := Int.pow_pos (by decide)
          exact ⟨Int.ediv_mul_le _ (by omega), Int.lt_ediv_add_one_mul_self _ hp⟩
  exact ⟨fun h => intOp_unique h key, fun h => h ▸ key⟩

/-! ## Comparisons -/

theorem orders_iff (a b : Value F) (o : Ordering) : Orders a b o ↔ a.cmp b = some o := by
  constructor
  · intro h
    cases h with
    | @intLt a b h =>
      rcases i64Cmp_cases a b with ⟨_, e⟩ | ⟨h', _⟩ | ⟨h', _⟩
      · simp only [Value.cmp, e]
      · subst h'; omega
      · omega
    | intEq a =>
      rcases i64Cmp_cases a a with ⟨h', _⟩ | ⟨_, e⟩ | ⟨h', _⟩
      · omega
      · simp only [Value.cmp, e]
      · omega
    | @intGt a b h =>
      rcases i64Cmp_cases a b with ⟨h', _⟩ | ⟨h', _⟩ | ⟨_, e⟩
      · omega
      · subst h'; omega
      · simp only [Value.cmp, e]
    | float h => exact h
    | intFloat h => exact h
    | floatInt h => exact h
    | strLt h => simp only [Value.cmp, (strCmp_lt _ _).2 h]
    | strEq a => simp only [Value.cmp, (strCmp_eq a a).2 rfl]
    | strGt h => simp only [Value.cmp, (strCmp_gt _ _).2 ((strCmp_lt _ _).2 h)]
  · intro h
    cases a with
    | int i =>
      cases b with
      | int j =>
        have h : some (i64Cmp i j) = some o := h
        cases h
        rcases i64Cmp_cases i j with ⟨h, e⟩ | ⟨h, e⟩ | ⟨h, e⟩ <;> rw [e]
        · exact .intLt h
        · subst h; exact .intEq _
        · exact .intGt h
      | float g => exact .intFloat h
      | _ => cases h
    | float f =>
      cases b with
      | int j => exact .floatInt h
      | float g => exact .float h
      | _ => cases h
    | str x =>
      cases b with
      | str y =>
        have h : some (strCmp x y) = some o := h
        cases h
        cases hc : strCmp x y with
        | lt => exact .strLt ((strCmp_lt _ _).1 hc)
        | eq => rw [(strCmp_eq _ _).1 hc]; exact .strEq _
        | gt => exact .strGt ((strCmp_lt _ _).1 ((strCmp_gt _ _).1 hc))
      | _ => cases h
    | _ => cases h

/-- The comparisons of the model decide what the rules say. -/
theorem comparison_iff (k : Kind) {a b : Value F} (ha : Proper a) (hb : Proper b) :
    (comparison k a b = none ∧ compareValues k a b = none) ∨
    ∃ p r, comparison k a b = some p ∧ compareValues k a b = some r ∧ (r = true ↔ p) := by
  cases k <;> first
    | exact Or.inl ⟨rfl, rfl⟩
    | (refine Or.inr ⟨_, _, rfl, rfl, ?_⟩)
  · rw [orders_iff]; simp [Value.lt]
  · rw [orders_iff]; simp [Value.gt]
  · rw [orders_iff, orders_iff]; simp [Value.le]
  · rw [orders_iff, orders_iff]; simp [Value.ge]
  · exact eq_same a b ha hb
  · rw [← eq_same a b ha hb]; simp

/-! ## Operators -/

theorem strict_iff (k : Kind) : Strict k ↔ ∃ op, binaryOp (F := F) k = some op := by
  cases k <;> simp [Strict, binaryOp]

theorem computes_iff {k : Kind} {op : Value F → Value F → Res (Value F)} {text : Str} (hs : sign k = some text) (hop : binaryOp k = some op)
    (a b : Value F) (o : Res (Value F)) : Computes k text a b o ↔ o = op a b := by
  by_cases hi : ∃ i j, a = .int i ∧ b = .int j
  · obtain ⟨i, j, rfl, rfl⟩ := hi
    exact intOp_iff hs hop i j o
  · cases k <;> first | (cases hs; done) | skip
    all_goals (cases hs; cases hop)
    all_goals (cases a <;> cases b <;> first
      | exact Iff.rfl
      | exact absurd ⟨_, _, rfl, rfl⟩ hi
      | (simp [Computes, unfit, Value.add, Value.sub, Value.mul, Value.div, Value.rem, Value.bitxor, Value.bitor, Value.bitand, Value.shl,
          Value.shr, mismatch]))

theorem operates_iff {k : Kind} {op : Value F → Value F → Res (Value F)} (hop : binaryOp k = some op) {a b : Value F} (ha : Proper a)
    (hb : Proper b) (o : Res (Value F)) : Operates k a b o ↔ o = op a b := by
  cases hs : sign k with
  | some text =>
    constructor
    · intro h
      cases h with
      | computes h1 h2 => rw [hs] at h1; cases h1; exact (computes_iff hs hop a b o).1 h2
      | compares h1 h2 => exfalso; cases k <;> first | (cases hs; done) | cases h1
    · intro h
      exact .computes hs ((computes_iff hs hop a b o).2 h)
  | none =>
    have hc : ∃ r, compareValues k a b = some r ∧ op a b = .ok (.bool r) := by
      cases k <;> first | (cases hs; done) | (cases hop; done) | (cases hop; exact ⟨_, rfl, rfl⟩)
    obtain ⟨r, hr, e⟩ := hc
    rcases comparison_iff k ha hb with ⟨_, h⟩ | ⟨p, r', h1, h2, h3⟩
    · rw [hr] at h; cases h
    · rw [hr] at h2; cases h2
      rw [e]
      constructor
      · intro h
        cases h with
        | computes h4 h5 => rw [hs] at h4; cases h4
        | compares h4 h5 =>
          rename_i p' r'
          rw [h1] at h4; cases h4
          have : r' = r := by rw [Bool.eq_iff_iff, h5, h3]
          rw [this]
      · rintro rfl
        exact .compares h1 h3

theorem countsFalse_iff (v : Value F) : v.falsy = true ↔ CountsFalse v := falsy_iff v

theorem negates_iff (t : Token) (v : Value F) (o : Res (Value F)) : Negates t v o ↔ o = unaryValue t v := by
  obtain ⟨k, lit⟩ := t
  constructor
  · intro h
    cases h with
    | notInt h1 h2 =>
      rename_i a c
      have h1 : k = .Not := h1
      subst h1
      obtain ⟨d, e, -, h3⟩ := c15_not (F := F) ⟨.Not, lit⟩ rfl a
      rw [e]
      have : c = d := by
        apply Int64.toBitVec_inj.1
        apply BitVec.eq_of_getLsbD_eq
        intro i hi
        exact (h2 i hi).trans (h3 i hi).symm
      rw [this]
    | notFalse h1 h2 =>
      have h1 : k = .Not := h1
      subst h1
      rcases h2 with rfl | rfl <;> rfl
    | notTrue h1 h2 h3 =>
      have h1 : k = .Not := h1
      subst h1
      cases v with
      | null => exact absurd (Or.inr rfl) h2
      | bool b =>
        cases b with
        | false => exact absurd (Or.inl rfl) h2
        | true => rfl
      | int a => exact absurd rfl (h3 a)
      | _ => rfl
    | minusInt h1 h2 => exact arith_unique h2 (c15_neg _ h1 _)
    | minusFloat h1 =>
      have h1 : k = .Sub := h1
      subst h1
      rfl
    | unknown h1 h2 =>
      have h1 : k ≠ .Not := h1
      by_cases hk : k = .Sub
      · subst hk
        have h2 := h2 rfl
        cases v with
        | int a => exact absurd rfl (h2.1 a)
        | float f => exact absurd rfl (h2.2 f)
        | _ => rfl
      · cases k <;> first | exact absurd rfl h1 | exact absurd rfl hk | rfl
  · rintro rfl
    by_cases h1 : k = .Not
    · subst h1
      cases v with
      | null => exact .notFalse rfl (Or.inr rfl)
      | bool b =>
        cases b with
        | false => exact .notFalse rfl (Or.inl rfl)
        | true => exact .notTrue rfl (fun h => (by rcases h with h | h <;> cases h)) (fun a h => (by cases h))
      | int a =>
        obtain ⟨d, e, -, h3⟩ := c15_not (F := F) ⟨.Not, lit⟩ rfl a
        rw [e]
        exact .notInt rfl h3
      | _ => exact .notTrue rfl (fun h => (by rcases h with h | h <;> cases h)) (fun a h => (by cases h))
    · by_cases h2 : k = .Sub
      · subst h2
        cases v with
        | int a => exact .minusInt rfl (c15_neg _ rfl a)
        | float f => exact .minusFloat rfl
        | _ => exact .unknown (fun h => (by cases h)) (fun _ => ⟨fun a h => (by cases h), fun f h => (by cases h)⟩)
      · have : unaryValue ⟨k, lit⟩ v = .err (c!"unknown operator: " ++ lit ++ v.debug) := by
          cases k <;> first | exact absurd rfl h1 | exact absurd rfl h2 | rfl
        rw [this]
        exact .unknown h1 (fun h => absurd h h2)

/-! ## Indexing -/

theorem place_eq (i : Int64) : i.toUInt64.toNat = place i := by
  unfold place
  by_cases h : i.toInt < 0
  · rw [if_pos h]
    have h2 : i.toInt = i.toBitVec.toInt := rfl
    rw [BitVec.toInt_eq_toNat_bmod] at h2
    have hlt := i.toBitVec.isLt
    rw [h2] at h ⊢
    simp only [Int.bmod] at h ⊢
    show i.toBitVec.toNat = _
    split at h <;> split <;> omega
  · rw [if_neg h]
    exact toUInt64_toNat_nonneg i (by omega)

theorem indexes_iff (a b : Value F) (o : Res (Value F)) : Indexes a b o ↔ o = indexValue a b := by
  constructor
  · intro h
    cases h with
    | item h => simp only [indexValue]; rw [place_eq, h]; rfl
    | beyond h => simp only [indexValue]; rw [place_eq, List.getElem?_eq_none h]; rfl
    | entry h => simp only [indexValue]; rw [h]; rfl
    | absent h => simp only [indexValue]; rw [h]; rfl
    | unfit h1 h2 =>
      cases a with
      | map m => exact absurd rfl (h1 m)
      | arr items =>
        cases b with
        | int i => exact absurd ⟨rfl, rfl⟩ (h2 items i)
        | _ => rfl
      | _ => rfl
  · rintro rfl
    cases a with
    | map m =>
      simp only [indexValue]
      cases h : amGet b.display m with
      | none => exact .absent h
      | some v => exact .entry h
    | arr items =>
      cases b with
      | int i =>
        simp only [indexValue]
        rw [place_eq]
        cases h : items[place i]? with
        | none => exact .beyond (List.getElem?_eq_none_iff.1 h)
        | some v => exact .item h
      | _ => exact .unfit (fun m h => (by cases h)) (fun items i h => (by cases h.2))
    | _ => exact .unfit (fun m h => (by cases h)) (fun items i h => (by cases h.1))

theorem fields_iff (a : Value F) (n : Str) (o : Res (Value F)) : Fields a n o ↔ o = fieldValue a n := by
  constructor
  · intro h
    cases h with
    | entry h => simp only [fieldValue]; rw [h]; rfl
    | absent h => simp only [fieldValue]; rw [h]; rfl
    | unfit h =>
      cases a with
      | map m => exact absurd rfl (h m)
      | _ => rfl
  · rintro rfl
    cases a with
    | map m =>
      simp only [fieldValue]
      cases h : amGet n m with
      | none => exact .absent h
      | some v => exact .entry h
    | _ => exact .unfit (fun m h => (by cases h))

/-! ## Built-in functions -/

/-- The outcome of `format` as a text. -/
def formatText (r : Res Str) : Res (Value F) := match r with
  | .ok t => .ok (.str t)
  | .err e => .err e
  | .panic => .panic
  | .hang => .hang

theorem formats_sound {args : List (Value F)} {r : Res Str} (h : Formats args r) : nativeFormat args = formatText r := by
  cases h with
  | @filled t ps args h1 h2 =>
    obtain ⟨qs, h3, h4, -, h5⟩ := c28_format t args
    have := h4 ps h1
    subst this
    exact h5 h2
  | @arity t ps args h1 h2 =>
    obtain ⟨qs, h3, h4, h5, -⟩ := c28_format t args
    have := h4 ps h1
    subst this
    exact h5 h2
  | nothing => rfl
  | @noText v args h =>
    cases v with
    | str t => exact absurd rfl (h t)
    | _ => rfl

theorem formats_total (args : List (Value F)) : ∃ r, Formats args r := by
  cases args with
  | nil => exact ⟨_, .nothing⟩
  | cons v args =>
    by_cases h : ∃ t, v = .str t
    · obtain ⟨t, rfl⟩ := h
      obtain ⟨qs, h3, -⟩ := c28_format t args
      by_cases hl : args.length = holes qs
      · exact ⟨_, .filled h3 hl⟩
      · exact ⟨_, .arity h3 hl⟩
    · exact ⟨_, .noText (fun t e => h ⟨t, e⟩)⟩

theorem formats_shape {args : List (Value F)} {r : Res Str} (h : Formats args r) : (∃ t, r = .ok t) ∨ ∃ e, r = .err e := by
  cases h <;> first | exact Or.inl ⟨_, rfl⟩ | exact Or.inr ⟨_, rfl⟩

theorem builtin_sound {name : Str} {args : List (Value F)} {r : Res (Value F)} {t : Str} (h : Builtin name args r t) (s : St F) :
    callNative name args s = (r, { s with out := s.out ++ t }) := by
  have none : ∀ (s : St F), ({ s with out := s.out ++ [] } : St F) = s := by intro s; rw [List.append_nil]
  cases h with
  | format h =>
    have h := formats_sound h
    rw [none]
    show (nativeFormat args, s) = _
    rw [h]; rfl
  | print h =>
    have h : nativeFormat args = .ok (.str t) := formats_sound h
    have e : callNative c!"print" args s = (M.lift (nativeFormat args) >>= fun v => (do M.modify fun s => { s with out := s.out ++ v.display }; pure .null : M F (Value F))) s := rfl
    rw [e, h]; rfl
  | @println _ t h =>
    have h : nativeFormat args = .ok (.str t) := formats_sound h
    have e : callNative c!"println" args s = (M.lift (nativeFormat args) >>= fun v => (do M.modify fun s => { s with out := s.out ++ v.display ++ c!"\n" }; pure .null : M F (Value F))) s := rfl
    rw [e, h]
    show (_, { s with out := s.out ++ t ++ c!"\n" }) = _
    rw [List.append_assoc]
  | @badFormat _ _ e hn h =>
    have h : nativeFormat args = .err e := formats_sound h
    rw [none]
    simp only [List.mem_cons, List.not_mem_nil, or_false] at hn
    rcases hn with rfl | rfl | rfl
    · show (nativeFormat args, s) = _
      rw [h]
    · have e : callNative c!"print" args s = (M.lift (nativeFormat args) >>= fun v => (do M.modify fun s => { s with out := s.out ++ v.display }; pure .null : M F (Value F))) s := rfl
      rw [e, h]; rfl
    · have e : callNative c!"println" args s = (M.lift (nativeFormat args) >>= fun v => (do M.modify fun s => { s with out := s.out ++ v.display ++ c!"\n" }; pure .null : M F (Value F))) s := rfl
      rw [e, h]; rfl
  | length h => rw [none]; cases h <;> rfl
  | @badLength v h =>
    rw [none]
    cases v with
    | str x => exact absurd (.str x) (h _)
    | arr x => exact absurd (.arr x) (h _)
    | map x => exact absurd (.map x) (h _)
    | _ => rfl
  | lengthArity h =>
    rw [none]
    match args, h with
    | [], _ => rfl
    | [v], h => exact absurd rfl h
    | v :: w :: l, _ => cases v <;> rfl
  | append => rw [none]; rfl
  | appendNothing => rw [none]; rfl
  | @badAppend v args h =>
    rw [none]
    cases v with
    | arr x => exact absurd rfl (h x)
    | _ => rfl
  | unknown h =>
    rw [none]
    simp only [builtins, List.mem_cons, List.not_mem_nil, or_false, not_or] at h
    unfold callNative
    rw [if_neg h.2.1, if_neg h.1, if_neg h.2.2.1, if_neg h.2.2.2.1, if_neg h.2.2.2.2]
    rfl

theorem builtin_total (name : Str) (args : List (Value F)) : ∃ r t, Builtin name args r t := by
  by_cases hn : name ∈ builtins
  · obtain ⟨x, hf⟩ := formats_total args
    simp only [builtins, List.mem_cons, List.not_mem_nil, or_false] at hn
    rcases hn with rfl | rfl | rfl | rfl | rfl
    · rcases formats_shape hf with ⟨t, rfl⟩ | ⟨e, rfl⟩
      · exact ⟨_, _, .print hf⟩
      · exact ⟨_, _, .badFormat (by simp) hf⟩
    · rcases formats_shape hf with ⟨t, rfl⟩ | ⟨e, rfl⟩
      · exact ⟨_, _, .println hf⟩
      · exact ⟨_, _, .badFormat (by simp) hf⟩
    · rcases formats_shape hf with ⟨t, rfl⟩ | ⟨e, rfl⟩
      · exact ⟨_, _, .format hf⟩
      · exact ⟨_, _, .badFormat (by simp) hf⟩
    · match args with
      | [] => exact ⟨_, _, .lengthArity (by simp)⟩
      | v :: w :: l => exact ⟨_, _, .lengthArity (by simp)⟩
      | [v] =>
        by_cases h : ∃ n, Size v n
        · obtain ⟨n, h⟩ := h; exact ⟨_, _, .length h⟩
        · exact ⟨_, _, .badLength (fun n hn => h ⟨n, hn⟩)⟩
    · match args with
      | [] => exact ⟨_, _, .appendNothing⟩
      | v :: args =>
        by_cases h : ∃ items, v = .arr items
        · obtain ⟨items, rfl⟩ := h; exact ⟨_, _, .append⟩
        · exact ⟨_, _, .badAppend (fun items e => h ⟨items, e⟩)⟩
  · exact ⟨_, _, .unknown hn⟩

end Am
