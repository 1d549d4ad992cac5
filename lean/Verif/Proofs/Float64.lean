import Verif.Spec.Float64
/-! # Rounding to the nearest float -/
namespace Am
open Spec
namespace F64

theorem halfEven_spec (p q : Nat) (hq : 0 < q) :
    2 * (halfEven p q * q) ≤ 2 * p + q ∧ 2 * p ≤ 2 * (halfEven p q * q) + q ∧
    (2 * (halfEven p q * q) = 2 * p + q ∨ 2 * p = 2 * (halfEven p q * q) + q → halfEven p q % 2 = 0) := by
  have h1 := Nat.div_add_mod p q
  have h2 := Nat.mod_lt p hq
  rw [Nat.mul_comm] at h1
  unfold halfEven
  dsimp only
  generalize p / q = d at *
  generalize p % q = r at *
  split
  · omega
  · split
    · rw [Nat.add_mul, Nat.one_mul]; omega
    · split
      · omega
      · rw [Nat.add_mul, Nat.one_mul]; omega

/-- Nearest among all integers; even if another one is as near. -/
theorem halfEven_near (p q : Nat) (hq : 0 < q) (z : Int) :
    (((halfEven p q * q : Nat) : Int) - p).natAbs ≤ (z * q - p).natAbs ∧
    ((z * q - p).natAbs = (((halfEven p q * q : Nat) : Int) - p).natAbs → z = halfEven p q ∨ halfEven p q % 2 = 0) := by
  obtain ⟨h1, h2, h3⟩ := halfEven_spec p q hq
  generalize halfEven p q = d at *
  rcases Int.lt_trichotomy z d with h | h | h
  · have : z * q ≤ ((d : Int) - 1) * q := Int.mul_le_mul_of_nonneg_right (by omega) (by omega)
    rw [Int.sub_mul, Int.one_mul] at this
    have e : ((d * q : Nat) : Int) = (d : Int) * q := by simp
    generalize (d : Int) * q = D at *
    generalize z * (q : Int) = Z at *
    generalize d * q = D' at *
    constructor
    · omega
    · intro g; right; apply h3; omega
  · subst h
    have e : ((d * q : Nat) : Int) = (d : Int) * q := by simp
    rw [e]
    exact ⟨Nat.le_refl _, fun _ => .inl rfl⟩
  · have : ((d : Int) + 1) * q ≤ z * q := Int.mul_le_mul_of_nonneg_right (by omega) (by omega)
    rw [Int.add_mul, Int.one_mul] at this
    have e : ((d * q : Nat) : Int) = (d : Int) * q := by simp
    generalize (d : Int) * q = D at *
    generalize z * (q : Int) = Z at *
    generalize d * q = D' at *
    constructor
    · omega
    · intro g; right; apply h3; omega

/-- The exponent that is chosen. -/
theorem exponent_bounds (p q : Nat) (hq : 0 < q) :
    p < 2 ^ 53 * (q * 2 ^ (Nat.log2 (p / q) - 52)) ∧ (0 < Nat.log2 (p / q) - 52 → 2 ^ 52 * (q * 2 ^ (Nat.log2 (p / q) - 52)) ≤ p) := by
  have h1 : p / q < 2 ^ (Nat.log2 (p / q) + 1) := Nat.lt_log2_self
  constructor
  · have h2 : 2 ^ (Nat.log2 (p / q) + 1) ≤ 2 ^ (53 + (Nat.log2 (p / q) - 52)) := Nat.pow_le_pow_right (by decide) (by omega)
    have h3 := (Nat.div_lt_iff_lt_mul hq).1 (Nat.lt_of_lt_of_le h1 h2)
    rw [Nat.pow_add, Nat.mul_assoc, Nat.mul_comm _ q] at h3
    exact h3
  · intro h
    have h0 : p / q ≠ 0 := by
      intro e; rw [e] at h; simp at h
    have h2 : 2 ^ (52 + (Nat.log2 (p / q) - 52)) ≤ p / q := by
      rw [Nat.add_sub_cancel' (by omega)]
      exact Nat.log2_self_le h0
    have h3 := (Nat.le_div_iff_mul_le hq).1 h2
    rw [Nat.pow_add, Nat.mul_assoc, Nat.mul_comm _ q] at h3
    exact h3

theorem halfEven_le {p q k : Nat} (hq : 0 < q) (h : p ≤ k * q) : halfEven p q ≤ k := by
  have h1 := (halfEven_spec p q hq).1
  have h2 := (halfEven_spec p q hq).2.2
  generalize halfEven p q = d at *
  rcases Nat.lt_or_ge k d with hk | hk
  · have : (k + 1) * q ≤ d * q := Nat.mul_le_mul_right q hk
    rw [Nat.add_mul, Nat.one_mul] at this
    omega
  · exact hk

theorem halfEven_ge {p q k : Nat} (hq : 0 < q) (h : k * q ≤ p) : k ≤ halfEven p q := by
  have h1 := (halfEven_spec p q hq).2.1
  generalize halfEven p q = d at *
  rcases Nat.lt_or_ge d k with hk | hk
  · have : (d + 1) * q ≤ k * q := Nat.mul_le_mul_right q hk
    rw [Nat.add_mul, Nat.one_mul] at this
    omega
  · exact hk

/-- Every finite float is a multiple of 2 ^ e or smaller than 2 ^ (52 + e). -/
theorem multiple_or_small {m d e : Nat} (h : Canon m d) : (∃ z, m * 2 ^ d = z * 2 ^ e) ∨ (0 < e ∧ m * 2 ^ d < 2 ^ 52 * 2 ^ e) := by
  rcases Nat.lt_or_ge d e with hd | hd
  · right
    refine ⟨by omega, ?_⟩
    have h1 : m * 2 ^ d < 2 ^ 53 * 2 ^ d := Nat.mul_lt_mul_of_pos_right h.1 (Nat.pow_pos (by decide))
    have h2 : 2 ^ 53 * 2 ^ d ≤ 2 ^ 52 * 2 ^ e := by
      rw [← Nat.pow_add, ← Nat.pow_add]
      exact Nat.pow_le_pow_right (by decide) (by omega)
    omega
  · left
    refine ⟨m * 2 ^ (d - e), ?_⟩
    rw [Nat.mul_assoc, ← Nat.pow_add, Nat.sub_add_cancel hd]

theorem value_eq {f : F64} {u : Int} (h : value f = some u) : ∃ neg m e, ∃ hc : Canon m e, f = .fin neg m e hc ∧ u = signed neg (m * 2 ^ e) := by
  cases f with
  | nan => cases h
  | inf => cases h
  | fin neg m e hc =>
    injection h with h
    exact ⟨neg, m, e, hc, rfl, by rw [← h]; rfl⟩

/-- Rounding a number that is not negative, in the scale that is chosen. -/
theorem near_scaled (p q e : Nat) (hq : 0 < q) (h1 : 0 < e → 2 ^ 52 * (q * 2 ^ e) ≤ p) (g : F64) (v : Int) (hg : value g = some v) :
    off ((halfEven p (q * 2 ^ e) * 2 ^ e : Nat) : Int) p q ≤ off v p q ∧
    (off v p q = off ((halfEven p (q * 2 ^ e) * 2 ^ e : Nat) : Int) p q → v = (halfEven p (q * 2 ^ e) * 2 ^ e : Nat) ∨ halfEven p (q * 2 ^ e) % 2 = 0) := by
  have hQ : 0 < q * 2 ^ e := Nat.mul_pos hq (Nat.pow_pos (by decide))
  obtain ⟨neg, m, d, hc, rfl, rfl⟩ := value_eq hg
  have hu : ((halfEven p (q * 2 ^ e) * 2 ^ e : Nat) : Int) * q - p = ((halfEven p (q * 2 ^ e) * (q * 2 ^ e) : Nat) : Int) - p := by
    congr 1
    rw [← Int.natCast_mul, Nat.mul_assoc, Nat.mul_comm (2 ^ e) q]
  unfold off
  rw [hu]
  rcases multiple_or_small (e := e) hc with ⟨z, hz⟩ | ⟨he, hs⟩
  · have hv : signed neg (m * 2 ^ d) * q = signed neg z * (q * 2 ^ e : Nat) := by
      rw [hz]; unfold signed
      cases neg <;> simp [Int.neg_mul, Int.mul_assoc, Int.mul_comm, Int.mul_left_comm]
    rw [hv]
    obtain ⟨k1, k2⟩ := halfEven_near p (q * 2 ^ e) hQ (signed neg z)
    refine ⟨k1, fun h => (k2 h).imp (fun h => ?_) id⟩
    rw [hz]
    generalize halfEven p (q * 2 ^ e) = x at *
    unfold signed at *
    cases neg with
    | false => simp only [Bool.false_eq_true, if_false] at *; rw [Int.natCast_mul, h, ← Int.natCast_mul]
    | true =>
      simp only [if_true] at *
      rw [Int.natCast_mul, ← Int.neg_mul, h, ← Int.natCast_mul]
  · have hp := h1 he
    obtain ⟨k1, _⟩ := halfEven_near p (q * 2 ^ e) hQ (2 ^ 52)
    have hlt : signed neg (m * 2 ^ d) * q < (2 ^ 52 : Int) * (q * 2 ^ e : Nat) := by
      have a : signed neg (m * 2 ^ d) < ((2 ^ 52 * 2 ^ e : Nat) : Int) := by
        unfold signed; generalize m * 2 ^ d = x at *; generalize 2 ^ 52 * 2 ^ e = y at *; split <;> omega
      have b := Int.mul_lt_mul_of_pos_right a (c := (q : Int)) (by omega)
      have c : ((2 ^ 52 * 2 ^ e : Nat) : Int) * q = (2 ^ 52 : Int) * (q * 2 ^ e : Nat) := by
        have : ((2 ^ 52 * (q * 2 ^ e) : Nat) : Int) = (2 ^ 52 : Int) * (q * 2 ^ e : Nat) := by rw [Int.natCast_mul]; rfl
        rw [← this, ← Int.natCast_mul]; congr 1
        rw [Nat.mul_assoc, Nat.mul_comm (2 ^ e) q]
      rw [c] at b; exact b
    have hp' : (2 ^ 52 : Int) * (q * 2 ^ e : Nat) ≤ p := by
      have : ((2 ^ 52 * (q * 2 ^ e) : Nat) : Int) = (2 ^ 52 : Int) * (q * 2 ^ e : Nat) := by rw [Int.natCast_mul]; rfl
      rw [← this]; exact Int.ofNat_le.2 hp
    generalize signed neg (m * 2 ^ d) * (q : Int) = x at *
    generalize (2 ^ 52 : Int) * (q * 2 ^ e : Nat) = y at *
    generalize ((halfEven p (q * 2 ^ e) * (q * 2 ^ e) : Nat) : Int) = w at *
    constructor
    · omega
    · intro h; omega

theorem canon_half {e : Nat} (h : e + 1 ≤ 2045) : Canon (2 ^ 53 / 2) (e + 1) := ⟨by decide, h, .inr (by decide)⟩

theorem pow_split (e : Nat) : 2 ^ 53 / 2 * 2 ^ (e + 1) = 2 ^ 53 * 2 ^ e := by
  have : (2 : Nat) ^ 53 / 2 = 2 ^ 52 := by decide
  rw [this, ← Nat.pow_add, ← Nat.pow_add]
  congr 1
  omega

/-- What `round` gives. -/
theorem round_spec (neg : Bool) (p q : Nat) (hq : 0 < q) : Rounds (signed neg p) q (round neg p q) ∧ negative (round neg p q) = neg := by
  obtain ⟨hb1, hb2⟩ := exponent_bounds p q hq
  unfold round
  dsimp only
  generalize Nat.log2 (p / q) - 52 = e at *
  have hQ : 0 < q * 2 ^ e := Nat.mul_pos hq (Nat.pow_pos (by decide))
  have hle := halfEven_le hQ (Nat.le_of_lt hb1)
  have hge : 0 < e → 2 ^ 52 ≤ halfEven p (q * 2 ^ e) := fun h => halfEven_ge hQ (hb2 h)
  have hnear := near_scaled p q e hq hb2
  have hspec := halfEven_spec p (q * 2 ^ e) hQ
  generalize hm : halfEven p (q * 2 ^ e) = m at *
  have habs : (signed neg p).natAbs = p := by unfold signed; split <;> omega
  -- the exact result is not too large exactly if a finite float is made
  have hlarge : TooLarge (signed neg p) q ↔ 2046 ≤ e ∨ (e = 2045 ∧ m = 2 ^ 53) := by
    unfold TooLarge
    rw [habs]
    constructor
    · intro h
      rcases Nat.lt_or_ge e 2045 with he | he
      · exfalso
        have h1 : 2 ^ 53 * (q * 2 ^ e) ≤ 2 ^ 53 * (q * 2 ^ 2044) := Nat.mul_le_mul_left _ (Nat.mul_le_mul_left _ (Nat.pow_le_pow_right (by decide) (by omega)))
        have h2 : 2 ^ 53 * (q * 2 ^ 2044) ≤ (2 ^ 54 - 1) * 2 ^ 2044 * q := by
          rw [Nat.mul_assoc, Nat.mul_comm q]
          exact Nat.mul_le_mul_right _ (by decide)
        omega
      · rcases Nat.lt_or_ge e 2046 with he' | he'
        · right
          have : e = 2045 := by omega
          subst this
          refine ⟨rfl, ?_⟩
          have hd : q * 2 ^ 2045 = 2 * (2 ^ 2044 * q) := by
            rw [Nat.pow_succ, Nat.mul_comm q, Nat.mul_comm _ 2, Nat.mul_assoc]
          rw [Nat.mul_assoc] at h
          obtain ⟨s1, s2, s3⟩ := hspec
          rw [hd] at s1 s2 s3
          have hT : 0 < 2 ^ 2044 * q := Nat.mul_pos (Nat.pow_pos (by decide)) hq
          generalize 2 ^ 2044 * q = T at *
          rcases Nat.lt_or_ge m (2 ^ 53 - 1) with hm' | hm'
          · exfalso
            have : m * (2 * T) ≤ (2 ^ 53 - 2) * (2 * T) := Nat.mul_le_mul_right _ (by omega)
            omega
          · rcases Nat.lt_or_ge m (2 ^ 53) with hm2 | hm2
            · exfalso
              have : m = 2 ^ 53 - 1 := by omega
              subst this
              have := s3 (by omega)
              revert this; decide
            · omega
        · exact .inl he'
    · intro h
      rcases h with h | ⟨h, hm'⟩
      · have h1 : 2 ^ 52 * (q * 2 ^ 2046) ≤ p := by
          refine Nat.le_trans ?_ (hb2 (by omega))
          exact Nat.mul_le_mul_left _ (Nat.mul_le_mul_left _ (Nat.pow_le_pow_right (by decide) h))
        have hd : q * 2 ^ 2046 = 4 * (2 ^ 2044 * q) := by
          rw [show (2046 : Nat) = 2044 + 2 from rfl, Nat.pow_add, Nat.mul_comm q, Nat.mul_comm _ (2 ^ 2), Nat.mul_assoc]
        rw [Nat.mul_assoc]
        rw [hd] at h1
        generalize 2 ^ 2044 * q = T at *
        omega
      · subst h hm'
        have hd : q * 2 ^ 2045 = 2 * (2 ^ 2044 * q) := by
          rw [Nat.pow_succ, Nat.mul_comm q, Nat.mul_comm _ 2, Nat.mul_assoc]
        rw [Nat.mul_assoc]
        have s1 := hspec.1
        rw [hd] at s1
        generalize 2 ^ 2044 * q = T at *
        omega
  -- the nearest float, with its sign
  have hfin : ∀ (m' e' : Nat) (hc : Canon m' e'), m' * 2 ^ e' = m * 2 ^ e → (m % 2 = 0 → m' % 2 = 0) → ¬ TooLarge (signed neg p) q →
      Rounds (signed neg p) q (.fin neg m' e' hc) ∧ negative (.fin neg m' e' hc) = neg := by
    intro m' e' hc hv hev hl
    refine ⟨.near _ (signed neg (m * 2 ^ e)) hl (by rw [← hv]; rfl) ?_ ?_, rfl⟩
    · intro g v hg
      cases neg with
      | false => exact (hnear g v hg).1
      | true =>
        obtain ⟨s, n, d, hn, rfl, rfl⟩ := value_eq hg
        have := (hnear (.fin (!s) n d hn) (signed (!s) (n * 2 ^ d)) rfl).1
        unfold off signed at *
        cases s <;> simp only [Bool.not_false, Bool.not_true, Bool.false_eq_true, if_true, if_false, Int.neg_mul] at * <;> omega
    · intro g v hg h
      cases neg with
      | false => exact ((hnear g v hg).2 h).imp id hev
      | true =>
        obtain ⟨s, n, d, hn, rfl, rfl⟩ := value_eq hg
        have := (hnear (.fin (!s) n d hn) (signed (!s) (n * 2 ^ d)) rfl).2
        unfold off signed at *
        refine (this ?_).imp ?_ hev
        · cases s <;> simp only [Bool.not_false, Bool.not_true, Bool.false_eq_true, if_true, if_false, Int.neg_mul] at * <;> omega
        · intro e
          cases s <;> simp only [Bool.not_false, Bool.not_true, Bool.false_eq_true, if_true, if_false, Int.neg_mul] at * <;> omega
  unfold make
  split
  · rename_i hc
    refine hfin m e hc rfl id fun h => ?_
    have := hlarge.1 h
    obtain ⟨c1, c2, _⟩ := hc
    omega
  · rename_i hc
    split
    · rename_i hc2
      have hmm : m = 2 ^ 53 := by
        rcases Nat.lt_or_ge m (2 ^ 53) with h | h
        · exfalso
          apply hc
          refine ⟨h, ?_, ?_⟩
          · have := hc2.2.1; omega
          · rcases Nat.eq_zero_or_pos e with h0 | h0
            · exact .inl h0
            · exact .inr (hge h0)
        · omega
      refine hfin (m / 2) (e + 1) hc2 (by rw [hmm]; exact pow_split e) (fun _ => by rw [hmm]) fun h => ?_
      have := hlarge.1 h
      have := hc2.2.1
      omega
    · rename_i hc2
      have hl : TooLarge (signed neg p) q := by
        apply hlarge.2
        rcases Nat.lt_or_ge e 2046 with he | he
        · right
          rcases Nat.lt_or_ge m (2 ^ 53) with h | h
          · exfalso
            apply hc
            refine ⟨h, by omega, ?_⟩
            rcases Nat.eq_zero_or_pos e with h0 | h0
            · exact .inl h0
            · exact .inr (hge h0)
          · have hmm : m = 2 ^ 53 := by omega
            rcases Nat.lt_or_ge e 2045 with he2 | he2
            · exfalso
              apply hc2
              rw [hmm]
              exact canon_half (by omega)
            · exact ⟨by omega, hmm⟩
        · exact .inl he
      refine ⟨.far neg hl ?_, rfl⟩
      have hp : 0 < p := by
        unfold TooLarge at hl
        rw [habs] at hl
        have : 0 < (2 ^ 54 - 1) * 2 ^ 2044 * q := Nat.mul_pos (Nat.mul_pos (by decide) (Nat.pow_pos (by decide))) hq
        omega
      unfold signed
      cases neg <;> simp <;> omega

end F64
end Am
