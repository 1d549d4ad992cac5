import Verif.Spec.Avro
import Verif.Model.Writer
/-! # The integer encoding of the record writer -/
set_option linter.unusedSimpArgs false
namespace Am
open Spec

theorem int64_toBitVec_toInt (i : Int64) : i.toBitVec.toInt = i.toInt := rfl

/-- The zigzag transform on mathematical integers. -/
theorem zigzag_toNat (i : Int64) : ((zigzag i).toNat : Int) = if 0 ≤ i.toInt then 2 * i.toInt else -2 * i.toInt - 1 := by
  have hlt := i.toBitVec.isLt
  have hi : i.toInt = i.toBitVec.toInt := rfl
  have hn : (zigzag i).toNat = ((i.toBitVec <<< 1) ^^^ (i.toBitVec.sshiftRight 63)).toNat := rfl
  rw [hn, hi]
  have hs : i.toBitVec.sshiftRight 63 = if i.toBitVec.msb then BitVec.allOnes 64 else 0#64 := by
    ext k hk
    rw [BitVec.getElem_sshiftRight]
    cases hm : i.toBitVec.msb with
    | true =>
      simp only [if_true, BitVec.getElem_allOnes]
      split
      · rename_i h
        have : k = 0 := by omega
        subst this
        rw [BitVec.msb_eq_getLsbD_last] at hm
        rw [BitVec.getLsbD_eq_getElem (by decide)] at hm
        simpa using hm
      · rfl
    | false =>
      simp only [Bool.false_eq_true, if_false, BitVec.getElem_zero]
      split
      · rename_i h
        have : k = 0 := by omega
        subst this
        rw [BitVec.msb_eq_getLsbD_last] at hm
        rw [BitVec.getLsbD_eq_getElem (by decide)] at hm
        simpa using hm
      · rfl
  rw [hs]
  have hshl : (i.toBitVec <<< 1).toNat = 2 * i.toBitVec.toNat % 2 ^ 64 := by
    rw [BitVec.toNat_shiftLeft, Nat.shiftLeft_eq]; omega
  cases hm : i.toBitVec.msb with
  | true =>
    rw [BitVec.msb_eq_decide] at hm
    simp only [decide_eq_true_eq] at hm
    have ht : i.toBitVec.toInt = (i.toBitVec.toNat : Int) - 2 ^ 64 := by
      rw [BitVec.toInt_eq_toNat_cond]; split <;> omega
    simp only [if_true, BitVec.xor_allOnes, BitVec.toNat_not]
    rw [hshl, ht]
    split <;> omega
  | false =>
    rw [BitVec.msb_eq_decide] at hm
    simp only [decide_eq_false_iff_not] at hm
    have ht : i.toBitVec.toInt = (i.toBitVec.toNat : Int) := by
      rw [BitVec.toInt_eq_toNat_cond]; split <;> omega
    simp only [Bool.false_eq_true, if_false, BitVec.xor_zero]
    rw [hshl, ht]
    split <;> omega

theorem unzigzag_zigzag (i : Int64) : unzigzag (zigzag i).toNat = i.toInt := by
  have h := zigzag_toNat i
  unfold unzigzag
  split at h <;> split <;> omega

theorem or_128 (z : Nat) : 0x80 ||| (z &&& 0x7F) = 128 + z % 128 := by
  have h1 : z &&& 0x7F = z % 2 ^ 7 := Nat.and_two_pow_sub_one_eq_mod z 7
  rw [h1]
  have := Nat.two_pow_add_eq_or_of_lt (i := 7) (b := z % 2 ^ 7) (Nat.mod_lt _ (by decide)) 1
  simpa using this.symm

theorem readVar_enc : ∀ (n z : Nat) (rest : List UInt8), z < 128 ^ n → n ≠ 0 → readVar n (encVarAux n z ++ rest) = some (z, rest) := by
  intro n
  induction n with
  | zero => intro z rest h hn; exact absurd rfl hn
  | succ n ih =>
    intro z rest h _
    unfold encVarAux
    by_cases hz : z ≤ 0x7F
    · rw [if_pos hz]
      have h1 : (UInt8.ofNat z).toNat = z := UInt8.toNat_ofNat_of_lt' (by simp [UInt8.size]; omega)
      simp only [List.cons_append, List.nil_append, readVar, h1]
      rw [if_pos (by omega)]
    · rw [if_neg hz, or_128]
      have h1 : (UInt8.ofNat (128 + z % 128)).toNat = 128 + z % 128 := UInt8.toNat_ofNat_of_lt' (by simp [UInt8.size]; omega)
      have h2 : z >>> 7 = z / 128 := Nat.shiftRight_eq_div_pow z 7
      simp only [List.cons_append, readVar, h1]
      rw [if_neg (by omega), h2, ih (z / 128) rest (by
        rw [Nat.pow_succ] at h
        exact Nat.div_lt_of_lt_mul (by rw [Nat.mul_comm]; exact h)) (by intro hn; subst hn; simp at h; omega)]
      simp only [Option.map_some, Option.some.injEq, Prod.mk.injEq, and_true]
      omega

theorem encVarAux_length : ∀ (n z : Nat), z < 128 ^ n → n ≠ 0 → 1 ≤ (encVarAux n z).length ∧ (encVarAux n z).length ≤ n := by
  intro n
  induction n with
  | zero => intro z _ h; exact absurd rfl h
  | succ n ih =>
    intro z h _
    unfold encVarAux
    by_cases hz : z ≤ 0x7F
    · rw [if_pos hz]; simp
    · rw [if_neg hz]
      have h2 : z >>> 7 = z / 128 := Nat.shiftRight_eq_div_pow z 7
      have h3 : z / 128 < 128 ^ n := by
        rw [Nat.pow_succ] at h
        exact Nat.div_lt_of_lt_mul (by rw [Nat.mul_comm]; exact h)
      have hn : n ≠ 0 := by
        intro hn; subst hn; simp at h; omega
      have := ih (z / 128) h3 hn
      simp only [List.length_cons, h2]
      omega

theorem u64_lt (z : UInt64) : z.toNat < 128 ^ 10 := by
  have := z.toNat_lt
  have : (2 : Nat) ^ 64 ≤ 128 ^ 10 := by decide
  omega

theorem readLong_enc (i : Int64) (rest : List UInt8) : readLong (encLong i ++ rest) = some (i.toInt, rest) := by
  unfold readLong encLong encVar
  rw [readVar_enc 10 _ rest (u64_lt _) (by decide)]
  simp only [Option.map_some, unzigzag_zigzag]

theorem encLong_length (i : Int64) : 1 ≤ (encLong i).length ∧ (encLong i).length ≤ 10 :=
  encVarAux_length 10 _ (u64_lt _) (by decide)

theorem readLong_nat {n : Nat} (h : n < 2 ^ 63) (rest : List UInt8) : readLong (encLong (Int64.ofNat n) ++ rest) = some ((n : Int), rest) := by
  rw [readLong_enc, Int64.toInt_ofNat_of_lt h]

end Am
