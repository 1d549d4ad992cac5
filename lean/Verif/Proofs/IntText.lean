import Verif.Model.Parser
import Verif.Proofs.Decimal
/-! # Integer texts -/
namespace Am
open Spec

theorem digits_cases {l : Str} (hne : l ≠ []) (hd : ∀ c ∈ l, isDigit c = true) :
    parseI64 l = if decimal l ≤ 9223372036854775807 then some (Int64.ofNat (decimal l)) else none := by
  unfold parseI64
  split
  · have := hd '-' List.mem_cons_self
    exact absurd this (by decide)
  · rw [parseUnsigned_digits _ hne hd]
    split <;> rfl

theorem int64_exact (n : Nat) (h : n ≤ 9223372036854775807) : (Int64.ofNat n).toInt = n := by
  rw [Int64.toInt_ofNat_of_lt (by omega)]

/-- The integer parser accepts exactly the texts of the 64-bit integers, with their values. -/
theorem parseI64_iff {s : Str} {i : Int64} : parseI64 s = some i ↔ IntText s i.toInt := by
  have neg : ∀ n : Nat, n ≤ 2 ^ 63 → (Int64.ofInt (-(n : Int))).toInt = -(n : Int) := by
    intro n hn
    rw [Int64.toInt_ofInt_of_le (by omega) (by omega)]
  constructor
  · intro h
    unfold parseI64 at h
    split at h
    · rename_i r
      split at h
      · cases h
      · rename_i hc
        simp only [Bool.or_eq_true, List.isEmpty_iff, Bool.not_eq_true', not_or, Bool.not_eq_false] at hc
        split at h
        · rename_i hle
          cases h
          rw [digitsVal_eq] at hle ⊢
          rw [neg _ (by omega)]
          exact .minus r hc.1 (fun c hm => List.all_eq_true.1 hc.2 c hm) (by omega)
        · cases h
    · rw [Option.map_eq_some_iff] at h
      obtain ⟨n, h1, rfl⟩ := h
      obtain ⟨ds, h2, h3, h4, rfl, h5⟩ := parseUnsigned_some h1
      rw [int64_exact _ h5]
      rcases h2 with rfl | rfl
      · exact .digits _ h3 h4 (by omega)
      · exact .plus _ h3 h4 (by omega)
  · intro h
    generalize hz : i.toInt = z at h
    cases h with
    | digits _ h1 h2 h3 =>
      rw [digits_cases h1 h2, if_pos (by omega)]
      congr 1
      apply Int64.toInt_inj.1
      rw [int64_exact _ (by omega), hz]
    | plus ds h1 h2 h3 =>
      have e1 : parseI64 ('+' :: ds) = (parseUnsigned 9223372036854775807 ('+' :: ds)).map fun n => Int64.ofNat n := rfl
      have e2 : parseUnsigned 9223372036854775807 ('+' :: ds) =
          if ds.isEmpty || !ds.all isDigit then none else if digitsVal ds ≤ 9223372036854775807 then some (digitsVal ds) else none := rfl
      have hc : ¬ (ds.isEmpty || !ds.all isDigit) = true := by
        simp only [Bool.or_eq_true, List.isEmpty_iff, Bool.not_eq_true', not_or, Bool.not_eq_false]
        exact ⟨h1, List.all_eq_true.2 h2⟩
      rw [e1, e2, if_neg hc, digitsVal_eq, if_pos (by omega)]
      simp only [Option.map_some, Option.some.injEq]
      apply Int64.toInt_inj.1
      rw [int64_exact _ (by omega), hz]
    | minus ds h1 h2 h3 =>
      have e1 : parseI64 ('-' :: ds) = if ds.isEmpty || !ds.all isDigit then none
          else if digitsVal ds ≤ 9223372036854775808 then some (Int64.ofInt (-(digitsVal ds : Int))) else none := rfl
      have hc : ¬ (ds.isEmpty || !ds.all isDigit) = true := by
        simp only [Bool.or_eq_true, List.isEmpty_iff, Bool.not_eq_true', not_or, Bool.not_eq_false]
        exact ⟨h1, List.all_eq_true.2 h2⟩
      rw [e1, if_neg hc, digitsVal_eq, if_pos (by omega)]
      congr 1
      apply Int64.toInt_inj.1
      rw [neg _ (by omega), hz]

/-- Both ends of the range, and the first numbers outside it. -/
example : parseI64 c!"-9223372036854775808" = some (-9223372036854775808) ∧ parseI64 c!"-9223372036854775809" = none ∧
    parseI64 c!"+9223372036854775807" = some 9223372036854775807 ∧ parseI64 c!"9223372036854775808" = none ∧ parseI64 c!"-" = none ∧ parseI64 c!"+-1" = none := by
  decide +kernel

end Am
