import Verif.Proofs.FloatRound
import Verif.Proofs.Decimal
import Verif.Proofs.Lexer
/-! # Texts of floats -/
set_option linter.unusedSimpArgs false
set_option exponentiation.threshold 100
namespace Am
open Spec
namespace F64

theorem one_eq : one = 2 ^ 1074 := by unfold one; rfl

theorem one_pos : 0 < one := by rw [one_eq]; exact Nat.pow_pos (by decide)

theorem one_five : 5 ^ 1074 * one = 10 ^ 1074 := by rw [one_eq, ← Nat.mul_pow]

theorem one_bound : (2 ^ 54 - 1) * 2 ^ 2044 ≤ 10 ^ 309 * one := by rw [one_eq]; decide +kernel

/-! ## Decimal numbers -/

theorem ten_pos (k : Nat) : 0 < 10 ^ k := Nat.pow_pos (by decide)

theorem ofDecimal_eq (neg : Bool) (d : Nat) (k : Int) : ofDecimal neg d k = round neg (d * 10 ^ k.toNat * one) (10 ^ (-k).toNat) := rfl

theorem ofDecimal_isFloat (neg : Bool) (d : Nat) (k : Int) : IsFloat neg d k (ofDecimal neg d k) := by
  have := round_spec neg (d * 10 ^ k.toNat * one) (10 ^ (-k).toNat) (ten_pos _)
  refine ⟨?_, this.2⟩
  have e : ((if neg then -1 else 1) * (d * 10 ^ k.toNat * 2 ^ 1074) : Int) = signed neg (d * 10 ^ k.toNat * one) := by
    have c : ((d * 10 ^ k.toNat * one : Nat) : Int) = (d * 10 ^ k.toNat * 2 ^ 1074 : Int) := by
      rw [one_eq, Int.natCast_mul, Int.natCast_mul, Int.natCast_pow, Int.natCast_pow]; rfl
    unfold signed
    rw [c]
    cases neg
    · simp only [Bool.false_eq_true, if_false]; exact Int.one_mul _
    · simp only [if_true]; exact Int.neg_one_mul _
  rw [e]
  exact this.1

/-- The number decides which float it is. -/
theorem isFloat_unique {neg : Bool} {d : Nat} {k : Int} {f g : F64} (hf : IsFloat neg d k f) (hg : IsFloat neg d k g) : f = g := by
  rcases rounds_unique (ten_pos _) hf.1 hg.1 with ⟨u, h1, h2⟩ | h
  · exact value_inj h1 h2 (hf.2.trans hg.2.symm)
  · exact h

theorem ofDecimal_shift (neg : Bool) (d j : Nat) (k : Int) : ofDecimal neg (d * 10 ^ j) k = ofDecimal neg d (k + j) := by
  unfold ofDecimal
  refine round_ratio neg (ten_pos _) (ten_pos _) ?_
  generalize one = T
  have e : 10 ^ j * 10 ^ k.toNat * 10 ^ (-(k + (j : Int))).toNat = 10 ^ (k + (j : Int)).toNat * 10 ^ (-k).toNat := by
    rw [← Nat.pow_add, ← Nat.pow_add, ← Nat.pow_add]
    congr 1
    omega
  calc d * 10 ^ j * 10 ^ k.toNat * T * 10 ^ (-(k + (j : Int))).toNat = d * T * (10 ^ j * 10 ^ k.toNat * 10 ^ (-(k + (j : Int))).toNat) := by
        simp only [Nat.mul_assoc, Nat.mul_comm, Nat.mul_left_comm]
    _ = d * T * (10 ^ (k + (j : Int)).toNat * 10 ^ (-k).toNat) := by rw [e]
    _ = _ := by simp only [Nat.mul_assoc, Nat.mul_comm, Nat.mul_left_comm]

theorem ofDecimal_between {a b c : Nat} {k : Int} (h1 : a ≤ b) (h2 : b ≤ c) {f : F64} {u : Int} (hu : value f = some u) (ha : ofDecimal false a k = f)
    (hc : ofDecimal false c k = f) : ofDecimal false b k = f := by
  unfold ofDecimal at *
  exact round_between (ten_pos _) (Nat.mul_le_mul_right _ (Nat.mul_le_mul_right _ h1)) (Nat.mul_le_mul_right _ (Nat.mul_le_mul_right _ h2)) hu ha hc

/-! ## The shortest decimal -/

theorem nearby_reads {f : F64} {u d : Nat} {k : Int} (h : nearby f u k = some d) : ofDecimal false d k = f := by
  unfold nearby pick at h
  dsimp only at h
  generalize u * 10 ^ (-k).toNat / (one * 10 ^ k.toNat) = x at h
  split at h <;> (split at h; · (rename_i g; injection h with h; subst h; exact g)) <;> (split at h; · (rename_i g; injection h with h; subst h; exact g)) <;> cases h

/-- The float and the decimals in the same scale. -/
theorem scale_float {m e : Nat} (hc : Canon m e) (k : Int) : round false (m * 2 ^ e * 10 ^ (-k).toNat) (10 ^ (-k).toNat) = .fin false m e hc := by
  rw [← round_exact false m e hc]
  exact round_ratio false (ten_pos _) (by decide) (by rw [Nat.mul_one])

theorem scale_decimal (d : Nat) (k : Int) : ofDecimal false d k = round false (d * (one * 10 ^ k.toNat)) (10 ^ (-k).toNat) := by
  unfold ofDecimal
  rw [Nat.mul_assoc, Nat.mul_comm (10 ^ k.toNat)]

theorem nearby_complete {m e : Nat} (hc : Canon m e) {d : Nat} {k : Int} (h : ofDecimal false d k = .fin false m e hc) :
    ∃ x, nearby (.fin false m e hc) (m * 2 ^ e) k = some x ∧
      (((x * (one * 10 ^ k.toNat) : Nat) : Int) - ((m * 2 ^ e * 10 ^ (-k).toNat : Nat) : Int)).natAbs ≤
      (((d * (one * 10 ^ k.toNat) : Nat) : Int) - ((m * 2 ^ e * 10 ^ (-k).toNat : Nat) : Int)).natAbs := by
  have hQ : 0 < one * 10 ^ k.toNat := Nat.mul_pos one_pos (ten_pos _)
  have hf := scale_float hc k
  have hv : value (.fin false m e hc) = some (signed false (m * 2 ^ e)) := rfl
  rw [scale_decimal] at h
  have lo : ∀ x, d ≤ x → x * (one * 10 ^ k.toNat) ≤ m * 2 ^ e * 10 ^ (-k).toNat → ofDecimal false x k = .fin false m e hc := fun x h1 h2 => by
    rw [scale_decimal]
    exact round_between (ten_pos _) (Nat.mul_le_mul_right _ h1) h2 hv h hf
  have hi : ∀ x, x ≤ d → m * 2 ^ e * 10 ^ (-k).toNat ≤ x * (one * 10 ^ k.toNat) → ofDecimal false x k = .fin false m e hc := fun x h1 h2 => by
    rw [scale_decimal]
    exact round_between (ten_pos _) h2 (Nat.mul_le_mul_right _ h1) hv hf h
  clear h hf hv
  unfold nearby pick
  dsimp only
  generalize ofDecimal false = o at *
  generalize F64.fin false m e hc = f at *
  generalize m * 2 ^ e * 10 ^ (-k).toNat = P at *
  generalize one * 10 ^ k.toNat = Q at *
  have h1 := Nat.div_add_mod P Q
  have h2 := Nat.mod_lt P hQ
  rw [Nat.mul_comm] at h1
  generalize hx : P / Q = x at *
  generalize P % Q = r at *
  have hs : (x + 1) * Q = x * Q + Q := by rw [Nat.add_mul, Nat.one_mul]
  rcases Nat.lt_or_ge x d with hd | hd
  · -- `d` lies above
    have up := hi (x + 1) hd (by omega)
    have hm : (x + 1) * Q ≤ d * Q := Nat.mul_le_mul_right Q hd
    by_cases hr : 2 * r < Q
    · rw [if_pos hr]
      by_cases hl : o x k = f
      · rw [if_pos hl]; exact ⟨x, rfl, by omega⟩
      · rw [if_neg hl, if_pos up]; exact ⟨x + 1, rfl, by omega⟩
    · rw [if_neg hr]
      rw [if_pos up]; exact ⟨x + 1, rfl, by omega⟩
  · -- `d` lies below
    have down := lo x hd (by omega)
    have hm : d * Q ≤ x * Q := Nat.mul_le_mul_right Q hd
    by_cases hr : 2 * r < Q
    · rw [if_pos hr]
      rw [if_pos down]; exact ⟨x, rfl, by omega⟩
    · rw [if_neg hr]
      by_cases hl : o (x + 1) k = f
      · rw [if_pos hl]; exact ⟨x + 1, rfl, by omega⟩
      · rw [if_neg hl, if_pos down]; exact ⟨x, rfl, by omega⟩

attribute [local irreducible] ofDecimal nearby

/-- With 1074 decimals every float can be written exactly. -/
theorem exact_decimal {m e : Nat} (hc : Canon m e) : ofDecimal false (m * 2 ^ e * 5 ^ 1074) (-1074) = .fin false m e hc := by
  rw [← round_exact false m e hc, ofDecimal_eq]
  refine round_ratio false (ten_pos _) (by decide) ?_
  have h1 : (-1074 : Int).toNat = 0 := rfl
  have h2 : (-(-1074 : Int)).toNat = 1074 := rfl
  rw [h1, h2, Nat.pow_zero, Nat.mul_one, Nat.mul_one, Nat.mul_assoc, one_five]

theorem search_nearby {f : F64} {u : Nat} {low : Int} (h : nearby f u low ≠ none) : ∀ n, nearby f u (search f u low n).2 = some (search f u low n).1
  | 0 => by
    unfold search
    cases hx : nearby f u low with
    | some d => rfl
    | none => exact absurd hx h
  | n + 1 => by
    unfold search
    cases hx : nearby f u (low + (n + 1 : Nat)) with
    | some d => exact hx
    | none => exact search_nearby h n

theorem search_max {f : F64} {u : Nat} {low k : Int} (h : nearby f u k ≠ none) : ∀ n : Nat, k ≤ low + n → k ≤ (search f u low n).2
  | 0, hk => by unfold search; simpa using hk
  | n + 1, hk => by
    unfold search
    cases hx : nearby f u (low + (n + 1 : Nat)) with
    | some d => exact hk
    | none =>
      refine search_max h n ?_
      rcases Int.lt_or_le (low + n) k with hlt | hge
      · exfalso
        have : k = low + (n + 1 : Nat) := by omega
        rw [this] at h
        exact h hx
      · exact hge

/-- Large powers of ten are too large for a float. -/
theorem decimal_bound {m e : Nat} (hc : Canon m e) (hm : m ≠ 0) {d : Nat} {k : Int} (h : ofDecimal false d k = .fin false m e hc) : 0 < d ∧ k ≤ 308 := by
  have hd : 0 < d := by
    rcases Nat.eq_zero_or_pos d with rfl | h0
    · exfalso
      have : ofDecimal false 0 k = .fin false 0 0 ⟨by decide, by decide, .inl rfl⟩ := by
        rw [ofDecimal_eq, Nat.zero_mul, Nat.zero_mul, ← round_exact false 0 0 ⟨by decide, by decide, .inl rfl⟩]
        exact round_ratio false (ten_pos _) (by decide) (by simp)
      rw [this] at h
      injection h with _ h
      exact hm h.symm
    · exact h0
  refine ⟨hd, ?_⟩
  rcases Int.lt_or_le 308 k with hk | hk
  · exfalso
    rw [ofDecimal_eq] at h
    have h0 : (-k).toNat = 0 := by omega
    rw [h0, Nat.pow_zero] at h
    have hr := (round_spec false (d * 10 ^ k.toNat * one) 1 (by decide)).1
    rw [h] at hr
    rcases rounds_value hr with ⟨hn, _⟩ | ⟨_, s, hs⟩
    · apply hn
      unfold TooLarge signed
      simp only [Bool.false_eq_true, if_false, Int.natAbs_natCast, Nat.mul_one]
      have k1 : 10 ^ 309 ≤ 10 ^ k.toNat := Nat.pow_le_pow_right (by decide) (by omega)
      have k3 : 1 * 10 ^ 309 ≤ d * 10 ^ k.toNat := Nat.mul_le_mul hd k1
      rw [Nat.one_mul] at k3
      exact Nat.le_trans one_bound (Nat.mul_le_mul_right _ k3)
    · cases hs
  · exact hk

/-- What is printed reads back, with the largest possible exponent, and no other decimal of that scale is nearer. -/
theorem shortest_spec {m e : Nat} (hc : Canon m e) (hm : m ≠ 0) :
    ofDecimal false (shortest m e hc).1 (shortest m e hc).2 = .fin false m e hc ∧
    (∀ d k, ofDecimal false d k = .fin false m e hc → k ≤ (shortest m e hc).2) ∧
    (∀ d, ofDecimal false d (shortest m e hc).2 = .fin false m e hc →
      ((((shortest m e hc).1 * (one * 10 ^ (shortest m e hc).2.toNat) : Nat) : Int) - ((m * 2 ^ e * 10 ^ (-(shortest m e hc).2).toNat : Nat) : Int)).natAbs ≤
      (((d * (one * 10 ^ (shortest m e hc).2.toNat) : Nat) : Int) - ((m * 2 ^ e * 10 ^ (-(shortest m e hc).2).toNat : Nat) : Int)).natAbs) := by
  have hs : nearby (.fin false m e hc) (m * 2 ^ e) (shortest m e hc).2 = some (shortest m e hc).1 := by
    obtain ⟨x, hx, _⟩ := nearby_complete hc (exact_decimal hc)
    exact search_nearby (by rw [hx]; exact fun h => nomatch h) 1382
  refine ⟨nearby_reads hs, fun d k h => ?_, fun d h => ?_⟩
  · obtain ⟨x, hx, _⟩ := nearby_complete hc h
    exact search_max (by rw [hx]; exact fun h => nomatch h) 1382 (by have := (decimal_bound hc hm h).2; omega)
  · obtain ⟨x, hx, hn⟩ := nearby_complete hc h
    have e : x = (shortest m e hc).1 := Option.some.inj (hx.symm.trans hs)
    subst e
    exact hn

/-- To find the shortest decimal it is enough to look at two scales. -/
theorem shortest_is {m e : Nat} (hc : Canon m e) (hm : m ≠ 0) {d : Nat} {k : Int} (h1 : nearby (.fin false m e hc) (m * 2 ^ e) k = some d)
    (h2 : nearby (.fin false m e hc) (m * 2 ^ e) (k + 1) = none) : shortest m e hc = (d, k) := by
  have hs : nearby (.fin false m e hc) (m * 2 ^ e) (shortest m e hc).2 = some (shortest m e hc).1 := by
    obtain ⟨x, hx, _⟩ := nearby_complete hc (exact_decimal hc)
    exact search_nearby (by rw [hx]; exact fun h => nomatch h) 1382
  obtain ⟨s1, s2, _⟩ := shortest_spec hc hm
  have hk := s2 _ _ (nearby_reads h1)
  generalize shortest m e hc = p at *
  obtain ⟨D, K⟩ := p
  dsimp only at *
  by_cases e' : K = k
  · subst e'
    rw [Option.some.inj (hs.symm.trans h1)]
  · have e1 : K = k + 1 + ((K - (k + 1)).toNat : Int) := by omega
    rw [e1, ← ofDecimal_shift] at s1
    obtain ⟨x, hx, _⟩ := nearby_complete hc s1
    rw [h2] at hx
    cases hx

theorem disp_is (neg : Bool) {m e : Nat} (hc : Canon m e) (hm : m ≠ 0) {d : Nat} {k : Int} (h1 : nearby (.fin false m e hc) (m * 2 ^ e) k = some d)
    (h2 : nearby (.fin false m e hc) (m * 2 ^ e) (k + 1) = none) : disp (.fin neg m e hc) = minus neg ++ plain false d k := by
  unfold disp
  dsimp only
  rw [if_neg hm, shortest_is hc hm h1 h2]

theorem debug_is (neg : Bool) {m e : Nat} (hc : Canon m e) (hm : m ≠ 0) {d : Nat} {k : Int} (h1 : nearby (.fin false m e hc) (m * 2 ^ e) k = some d)
    (h2 : nearby (.fin false m e hc) (m * 2 ^ e) (k + 1) = none) : debug (.fin neg m e hc) =
      minus neg ++ if m * 2 ^ e * 10 ^ 4 < one ∨ 10 ^ 16 * one ≤ m * 2 ^ e then scientific d k else plain true d k := by
  unfold debug
  dsimp only
  rw [if_neg hm, shortest_is hc hm h1 h2]

end F64
end Am
