import Verif.Proofs.Ints
/-! # C15: 64-bit integer arithmetic -/
set_option linter.unusedSimpArgs false
set_option linter.unusedSectionVars false
namespace Am
open Spec
variable {F : Type} [Rt F]

/-- C15: `+`. -/
theorem c15_add (a b : Int64) : Arith (Rt.checks F) (a.toInt + b.toInt) (Value.add (F := F) (.int a) (.int b)) := checked_arith _
/-- C15: `-`. -/
theorem c15_sub (a b : Int64) : Arith (Rt.checks F) (a.toInt - b.toInt) (Value.sub (F := F) (.int a) (.int b)) := checked_arith _
/-- C15: `*`. -/
theorem c15_mul (a b : Int64) : Arith (Rt.checks F) (a.toInt * b.toInt) (Value.mul (F := F) (.int a) (.int b)) := checked_arith _
/-- C15: unary `-`. -/
theorem c15_neg (t : Token) (ht : t.kind = .Sub) (a : Int64) :
    Arith (Rt.checks F) (-a.toInt) (unaryValue (F := F) t (.int a)) := by
  have := checked_arith (F := F) (-a.toInt)
  unfold unaryValue
  rw [ht]
  exact this

/-- C15: `/` and `%`. Except for a zero divisor and `MIN / -1`, which panic in every build, both yield the truncated quotient and its
remainder. -/
theorem c15_div_rem (a b : Int64) :
    ((b.toInt = 0 ∨ (a.toInt = -9223372036854775808 ∧ b.toInt = -1)) ∧
      Value.div (F := F) (.int a) (.int b) = .panic ∧ Value.rem (F := F) (.int a) (.int b) = .panic) ∨
    (b.toInt ≠ 0 ∧ ¬(a.toInt = -9223372036854775808 ∧ b.toInt = -1) ∧ ∃ q r : Int64,
      Value.div (F := F) (.int a) (.int b) = .ok (.int q) ∧ Value.rem (F := F) (.int a) (.int b) = .ok (.int r) ∧
      Truncated a.toInt b.toInt q.toInt r.toInt) := by
  by_cases h0 : b.toInt = 0
  · refine Or.inl ⟨Or.inl h0, ?_, ?_⟩
    · simp only [Value.div, i64Div, h0, if_true, Res.bind, bind]
    · simp only [Value.rem, i64Rem, h0, if_true, Res.bind, bind]
  · by_cases h1 : a.toInt = i64Min ∧ b.toInt = -1
    · refine Or.inl ⟨Or.inr h1, ?_, ?_⟩
      · simp only [Value.div, i64Div]; rw [if_neg h0, if_pos h1]; rfl
      · simp only [Value.rem, i64Rem]; rw [if_neg h0, if_pos h1]; rfl
    · refine Or.inr ⟨h0, h1, Int64.ofInt (a.toInt.tdiv b.toInt), Int64.ofInt (a.toInt.tmod b.toInt), ?_, ?_, ?_⟩
      · simp only [Value.div, i64Div]; rw [if_neg h0, if_neg h1]; rfl
      · simp only [Value.rem, i64Rem]; rw [if_neg h0, if_neg h1]; rfl
      · rw [toInt_ofInt_fits (tdiv_fits (i64_fits a) h0 h1), toInt_ofInt_fits (tmod_fits (i64_fits a))]
        exact tdiv_truncated h0

/-- C15: truncated division is determined: quotient and remainder are the only ones that qualify. -/
theorem c15_div_rem_unique (a b q r q' r' : Int) (h : Truncated a b q r) (h' : Truncated a b q' r') : q = q' ∧ r = r' := by
  obtain ⟨h1, h2, h3⟩ := h
  obtain ⟨h4, h5, h6⟩ := h'
  have hr : r = r' := by
    have hk : (q - q') * b = r' - r := by rw [Int.sub_mul]; omega
    have hlt : (r' - r).natAbs < b.natAbs := by omega
    have : (q - q').natAbs * b.natAbs = (r' - r).natAbs := by rw [← Int.natAbs_mul, hk]
    by_cases hq : (q - q').natAbs = 0
    · rw [hq] at this; omega
    · have : b.natAbs ≤ (q - q').natAbs * b.natAbs := Nat.le_mul_of_pos_left _ (by omega)
      omega
  refine ⟨?_, hr⟩
  have hb : b ≠ 0 := by omega
  have : q * b = q' * b := by omega
  exact Int.eq_of_mul_eq_mul_right hb this

/-- C15: `^`, `|`, `&` act on each bit. -/
theorem c15_bitwise (a b : Int64) :
    (∃ c, Value.bitxor (F := F) (.int a) (.int b) = .ok (.int c) ∧ ∀ n, bit c n = (bit a n != bit b n)) ∧
    (∃ c, Value.bitor (F := F) (.int a) (.int b) = .ok (.int c) ∧ ∀ n, bit c n = (bit a n || bit b n)) ∧
    (∃ c, Value.bitand (F := F) (.int a) (.int b) = .ok (.int c) ∧ ∀ n, bit c n = (bit a n && bit b n)) := by
  refine ⟨⟨a ^^^ b, rfl, ?_⟩, ⟨a ||| b, rfl, ?_⟩, ⟨a &&& b, rfl, ?_⟩⟩ <;> intro n <;> simp [bit]

/-- C15: `!` on an integer flips every bit, that is, gives `-a - 1`. -/
theorem c15_not (t : Token) (ht : t.kind = .Not) (a : Int64) :
    ∃ c, unaryValue (F := F) t (.int a) = .ok (.int c) ∧ c.toInt = -a.toInt - 1 ∧ ∀ n, n < 64 → bit c n = !bit a n := by
  refine ⟨~~~a, ?_, complement_toInt a, ?_⟩
  · unfold unaryValue; rw [ht]
  · intro n hn; simp [bit, hn]

/-- C15: `<<` by 0 to 63 multiplies by a power of two and drops the bits shifted out. -/
theorem c15_shl (a b : Int64) (h : 0 ≤ b.toInt ∧ b.toInt < 64) :
    ∃ c, Value.shl (F := F) (.int a) (.int b) = .ok (.int c) ∧ Wraps c.toInt (a.toInt * 2 ^ b.toInt.toNat) := by
  refine ⟨Int64.ofInt (a.toInt * 2 ^ b.toInt.toNat), ?_, toInt_ofInt_wraps _⟩
  simp only [Value.shl, shiftAmount]
  rw [if_pos h]
  rfl

/-- C15: `>>` by 0 to 63 divides by a power of two, rounding toward minus infinity. -/
theorem c15_shr (a b : Int64) (h : 0 ≤ b.toInt ∧ b.toInt < 64) :
    ∃ c, Value.shr (F := F) (.int a) (.int b) = .ok (.int c) ∧
      c.toInt * 2 ^ b.toInt.toNat ≤ a.toInt ∧ a.toInt < (c.toInt + 1) * 2 ^ b.toInt.toNat := by
  refine ⟨Int64.ofInt (a.toInt / 2 ^ b.toInt.toNat), ?_, ?_⟩
  · simp only [Value.shr, shiftAmount]
    rw [if_pos h]
    rfl
  · rw [toInt_ofInt_fits (ediv_pow_fits (i64_fits a) _)]
    have hp : (0 : Int) < 2 ^ b.toInt.toNat := Int.pow_pos (by decide)
    refine ⟨Int.ediv_mul_le _ (by omega), ?_⟩
    exact Int.lt_ediv_add_one_mul_self _ hp

/-- C15: a shift by any other amount panics in checked builds, and shifts by the amount modulo 64 in release builds. -/
theorem c15_shift_range (a b : Int64) (h : ¬(0 ≤ b.toInt ∧ b.toInt < 64)) :
    (Rt.checks F = true → Value.shl (F := F) (.int a) (.int b) = .panic ∧ Value.shr (F := F) (.int a) (.int b) = .panic) ∧
    (Rt.checks F = false → ∀ b' : Int64, (0 ≤ b'.toInt ∧ b'.toInt < 64) → (∃ k, b'.toInt = b.toInt + k * 64) →
      Value.shl (F := F) (.int a) (.int b) = Value.shl (.int a) (.int b') ∧
      Value.shr (F := F) (.int a) (.int b) = Value.shr (.int a) (.int b')) := by
  constructor
  · intro hc
    simp only [Value.shl, Value.shr, shiftAmount]
    rw [if_neg h, hc]
    exact ⟨rfl, rfl⟩
  · intro hc b' hb' ⟨k, hk⟩
    have : (b.toInt % 64).toNat = b'.toInt.toNat := by omega
    simp only [Value.shl, Value.shr, shiftAmount]
    rw [if_neg h, hc, if_pos hb', this]
    exact ⟨rfl, rfl⟩

/-- C15: integer with float, and strings: `+` on strings concatenates; a mixed operation converts the integer first. -/
theorem c15_mixed (i : Int64) (f : F) (s t : Str) :
    Value.add (.int i) (.float f) = Value.add (.float (Rt.fofInt i)) (.float f) ∧
    Value.add (.float f) (.int i) = Value.add (.float f) (.float (Rt.fofInt i)) ∧
    Value.sub (.int i) (.float f) = Value.sub (.float (Rt.fofInt i)) (.float f) ∧
    Value.sub (.float f) (.int i) = Value.sub (.float f) (.float (Rt.fofInt i)) ∧
    Value.mul (.int i) (.float f) = Value.mul (.float (Rt.fofInt i)) (.float f) ∧
    Value.mul (.float f) (.int i) = Value.mul (.float f) (.float (Rt.fofInt i)) ∧
    Value.div (.int i) (.float f) = Value.div (.float (Rt.fofInt i)) (.float f) ∧
    Value.div (.float f) (.int i) = Value.div (.float f) (.float (Rt.fofInt i)) ∧
    Value.rem (.int i) (.float f) = Value.rem (.float (Rt.fofInt i)) (.float f) ∧
    Value.rem (.float f) (.int i) = Value.rem (.float f) (.float (Rt.fofInt i)) ∧
    Value.add (F := F) (.str s) (.str t) = .ok (.str (s ++ t)) :=
  ⟨rfl, rfl, rfl, rfl, rfl, rfl, rfl, rfl, rfl, rfl, rfl⟩

/-- Concrete cases: 2 + 3 fits, MAX + 1 does not, -7 / 2 = -3 rest -1, 1 / 0 and MIN / -1 panic. -/
example : Value.add (F := F) (.int 2) (.int 3) = .ok (.int 5) := rfl
example : ¬Fits ((9223372036854775807 : Int64).toInt + (1 : Int64).toInt) := by simp only [Fits]; decide
example : Truncated (-7) 2 (-3) (-1) := by simp only [Truncated]; decide
example : Value.div (F := F) (.int (-7)) (.int 2) = .ok (.int (-3)) := rfl
example : Value.div (F := F) (.int 1) (.int 0) = .panic := rfl
example : Value.rem (F := F) (.int (-9223372036854775808)) (.int (-1)) = .panic := rfl
example : Value.shr (F := F) (.int (-7)) (.int 1) = .ok (.int (-4)) := rfl

end Am
