import Verif.Spec.Values
/-! # Facts about 64-bit integers -/
set_option linter.unusedSimpArgs false
set_option linter.unusedSectionVars false
namespace Am
open Spec
variable {F : Type} [Rt F]

theorem i64_fits (a : Int64) : Fits a.toInt := by
  have h1 := a.toInt_lt
  have h2 := a.le_toInt
  simp only [Fits]
  omega

theorem toInt_ofInt_fits {x : Int} (h : Fits x) : (Int64.ofInt x).toInt = x := by
  simp only [Fits] at h
  exact Int64.toInt_ofInt_of_le (by omega) (by omega)

theorem toInt_ofInt_wraps (x : Int) : Wraps (Int64.ofInt x).toInt x := by
  refine ⟨i64_fits _, ?_⟩
  rw [Int64.toInt_ofInt, show Int64.size = 18446744073709551616 from rfl, Int.bmod_def]
  split
  · exact ⟨-(x / 18446744073709551616), by omega⟩
  · exact ⟨-(x / 18446744073709551616) - 1, by omega⟩

theorem wraps_unique {x y z : Int} (h1 : Wraps y x) (h2 : Wraps z x) : y = z := by
  obtain ⟨⟨a, b⟩, k, hk⟩ := h1
  obtain ⟨⟨c, d⟩, l, hl⟩ := h2
  omega

theorem checked_arith (x : Int) : Arith (Rt.checks F) x (do let i ← checked F x; pure (.int i) : Res (Value F)) := by
  by_cases h : Fits x
  · refine Or.inl ⟨h, Int64.ofInt x, ?_, toInt_ofInt_fits h⟩
    have h' : i64Min ≤ x ∧ x ≤ i64Max := h
    simp only [checked]
    rw [if_pos h']
    rfl
  · have h' : ¬(i64Min ≤ x ∧ x ≤ i64Max) := h
    cases hc : Rt.checks F with
    | true =>
      refine Or.inr (Or.inl ⟨h, rfl, ?_⟩)
      simp only [checked]
      rw [if_neg h', hc]
      rfl
    | false =>
      refine Or.inr (Or.inr ⟨h, rfl, Int64.ofInt x, ?_, toInt_ofInt_wraps x⟩)
      simp only [checked]
      rw [if_neg h', hc]
      rfl

theorem tdiv_truncated {a b : Int} (hb : b ≠ 0) : Truncated a b (a.tdiv b) (a.tmod b) := by
  refine ⟨?_, ?_, ?_⟩
  · rw [Int.mul_comm]; exact Int.mul_tdiv_add_tmod a b
  · have : (a.tmod b).natAbs = a.natAbs % b.natAbs := Int.natAbs_tmod ..
    rw [this]
    exact Nat.mod_lt _ (by omega)
  · rcases Int.lt_trichotomy a 0 with h | h | h
    · have := Int.tmod_nonneg b (a := -a) (by omega)
      rw [Int.neg_tmod] at this
      by_cases h0 : a.tmod b = 0
      · exact Or.inl h0
      · exact Or.inr (Or.inr ⟨by omega, h⟩)
    · subst h; simp
    · have := Int.tmod_nonneg b (a := a) (by omega)
      by_cases h0 : a.tmod b = 0
      · exact Or.inl h0
      · exact Or.inr (Or.inl ⟨by omega, h⟩)

theorem tdiv_fits {a b : Int} (ha : Fits a) (hb : b ≠ 0) (h : ¬(a = -9223372036854775808 ∧ b = -1)) : Fits (a.tdiv b) := by
  have hn : (a.tdiv b).natAbs = a.natAbs / b.natAbs := Int.natAbs_tdiv ..
  simp only [Fits] at ha ⊢
  by_cases h1 : b = -1
  · subst h1
    have : a.tdiv (-1) = -a := by simp [Int.tdiv_neg]
    omega
  · by_cases h2 : b = 1
    · subst h2; simp; omega
    · have hb2 : 2 ≤ b.natAbs := by omega
      have : a.natAbs / b.natAbs ≤ a.natAbs / 2 := Nat.div_le_div_left hb2 (by decide)
      omega

theorem tmod_fits {a b : Int} (ha : Fits a) : Fits (a.tmod b) := by
  have hn : (a.tmod b).natAbs = a.natAbs % b.natAbs := Int.natAbs_tmod ..
  have h2 : a.natAbs % b.natAbs ≤ a.natAbs := Nat.mod_le _ _
  simp only [Fits] at ha ⊢
  by_cases h : 0 ≤ a
  · have := Int.tmod_nonneg b h; omega
  · have := Int.tmod_nonneg b (a := -a) (by omega)
    rw [Int.neg_tmod] at this
    omega

theorem ediv_pow_fits {a : Int} (ha : Fits a) (k : Nat) : Fits (a / 2 ^ k) := by
  simp only [Fits] at ha ⊢
  have hp : (0 : Int) < 2 ^ k := by exact Int.pow_pos (by decide)
  have hp1 : (1 : Int) ≤ 2 ^ k := by omega
  constructor
  · apply Int.le_ediv_of_mul_le hp
    have : (-9223372036854775808 : Int) * 2 ^ k ≤ -9223372036854775808 * 1 := by
      exact Int.mul_le_mul_of_nonpos_left (by decide) hp1
    omega
  · have h1 : a / 2 ^ k ≤ 9223372036854775807 / 2 ^ k := Int.ediv_le_ediv hp ha.2
    have h2 : (9223372036854775807 : Int) / 2 ^ k ≤ 9223372036854775807 := Int.ediv_le_self _ (by decide)
    omega

theorem complement_toInt (a : Int64) : (~~~a).toInt = -a.toInt - 1 := by
  rw [Int64.toInt_not]
  have h := i64_fits a
  simp only [Fits] at h
  rw [Int.bmod_def]
  split <;> omega

end Am
