import Verif.Proofs.Float64
/-! # Rounding is a function of the exact value, monotone, and exact on floats -/
set_option linter.unusedSimpArgs false
set_option exponentiation.threshold 100
namespace Am
open Spec
namespace F64

theorem canon_unique {m e n d : Nat} (h : Canon m e) (g : Canon n d) (hv : m * 2 ^ e = n * 2 ^ d) : m = n ∧ e = d := by
  have key : ∀ {m e n d : Nat}, Canon m e → Canon n d → e < d → m * 2 ^ e < n * 2 ^ d := by
    intro m e n d h g hlt
    have h1 : m * 2 ^ e < 2 ^ 53 * 2 ^ e := Nat.mul_lt_mul_of_pos_right h.1 (Nat.pow_pos (by decide))
    have h2 : 2 ^ 53 * 2 ^ e ≤ 2 ^ 52 * 2 ^ d := by
      rw [← Nat.pow_add, ← Nat.pow_add]
      exact Nat.pow_le_pow_right (by decide) (by omega)
    have h3 : 2 ^ 52 * 2 ^ d ≤ n * 2 ^ d := Nat.mul_le_mul_right _ (g.2.2.resolve_left (by omega))
    omega
  rcases Nat.lt_trichotomy e d with he | he | he
  · have := key h g he; omega
  · subst he
    exact ⟨Nat.eq_of_mul_eq_mul_right (Nat.pow_pos (by decide)) hv, rfl⟩
  · have := key g h he; omega

theorem signed_inj {neg : Bool} {a b : Nat} (h : signed neg a = signed neg b) : a = b := by
  unfold signed at h; cases neg <;> simp at h <;> omega

/-- A finite float is given by its value and its sign. -/
theorem value_inj {f g : F64} {u : Int} (hf : value f = some u) (hg : value g = some u) (hs : negative f = negative g) : f = g := by
  obtain ⟨s, m, e, hc, rfl, rfl⟩ := value_eq hf
  obtain ⟨t, n, d, hd, rfl, hv⟩ := value_eq hg
  change s = t at hs
  subst hs
  obtain ⟨rfl, rfl⟩ := canon_unique hc hd (signed_inj hv)
  rfl

theorem halfEven_scale (p q c : Nat) (hc : 0 < c) : halfEven (p * c) (q * c) = halfEven p q := by
  unfold halfEven
  dsimp only
  rw [Nat.mul_div_mul_right _ _ hc, Nat.mul_mod_mul_right]
  have e : 2 * (p % q * c) = 2 * (p % q) * c := (Nat.mul_assoc _ _ _).symm
  rw [e]
  by_cases h1 : 2 * (p % q) < q
  · rw [if_pos h1, if_pos ((Nat.mul_lt_mul_right hc).2 h1)]
  · rw [if_neg h1, if_neg (fun h => h1 ((Nat.mul_lt_mul_right hc).1 h))]
    by_cases h2 : q < 2 * (p % q)
    · rw [if_pos h2, if_pos ((Nat.mul_lt_mul_right hc).2 h2)]
    · rw [if_neg h2, if_neg (fun h => h2 ((Nat.mul_lt_mul_right hc).1 h))]

theorem round_scale (neg : Bool) (p q c : Nat) (hc : 0 < c) : round neg (p * c) (q * c) = round neg p q := by
  unfold round
  dsimp only
  rw [Nat.mul_div_mul_right _ _ hc, Nat.mul_right_comm, halfEven_scale _ _ _ hc]

/-- Equal fractions are rounded alike. -/
theorem round_ratio (neg : Bool) {p q p' q' : Nat} (hq : 0 < q) (hq' : 0 < q') (h : p * q' = p' * q) : round neg p q = round neg p' q' := by
  rw [← round_scale neg p q q' hq', h, Nat.mul_comm q q', round_scale neg p' q' q hq]

theorem rounds_value {p : Int} {q : Nat} {f : F64} (h : Rounds p q f) : (¬ TooLarge p q ∧ ∃ u, value f = some u) ∨ (TooLarge p q ∧ ∃ neg, f = .inf neg) := by
  cases h with
  | near f u h1 h2 _ _ => exact .inl ⟨h1, u, h2⟩
  | far neg h _ => exact .inr ⟨h, neg, rfl⟩

/-- The nearest float to a larger number is not smaller. -/
theorem rounds_mono {a b : Int} {q : Nat} (hq : 0 < q) {f g : F64} {u v : Int} (hf : Rounds a q f) (hg : Rounds b q g) (hu : value f = some u) (hv : value g = some v) (h : a < b) : u ≤ v := by
  cases hf with
  | far => cases hu
  | near _ u' _ h1 h2 _ =>
    cases hg with
    | far => cases hv
    | near _ v' _ g1 g2 _ =>
      have eu : u' = u := Option.some.inj (h1.symm.trans hu)
      have ev : v' = v := Option.some.inj (g1.symm.trans hv)
      subst eu ev
      have k1 := h2 g v' g1
      have k2 := g2 f u' h1
      rcases Int.lt_or_le v' u' with hlt | hge
      · exfalso
        unfold off at k1 k2
        have hm := Int.mul_lt_mul_of_pos_right hlt (c := (q : Int)) (by omega)
        generalize u' * (q : Int) = x at *
        generalize v' * (q : Int) = y at *
        omega
      · exact hge

theorem tooLarge_mono {a b : Int} {q : Nat} (ha : 0 ≤ a) (h : a ≤ b) (ht : TooLarge a q) : TooLarge b q := by
  unfold TooLarge at *; omega

/-- A number between two that are rounded to the same finite float is rounded to it as well. -/
theorem round_between {a b c q : Nat} (hq : 0 < q) (h1 : a ≤ b) (h2 : b ≤ c) {f : F64} {u : Int} (hu : value f = some u) (ha : round false a q = f) (hc : round false c q = f) :
    round false b q = f := by
  have ra := round_spec false a q hq
  have rb := round_spec false b q hq
  have rc := round_spec false c q hq
  rw [ha] at ra
  rw [hc] at rc
  rcases Nat.eq_or_lt_of_le h1 with rfl | h1
  · exact ha
  rcases Nat.eq_or_lt_of_le h2 with rfl | h2
  · exact hc
  have hn : ¬ TooLarge (signed false b) q := by
    intro ht
    rcases rounds_value rc.1 with ⟨h, _⟩ | ⟨_, s, hs⟩
    · exact h (tooLarge_mono (by unfold signed; simp) (by unfold signed; simp; omega) ht)
    · rw [hs] at hu; cases hu
  rcases rounds_value rb.1 with ⟨_, v, hv⟩ | ⟨h, _⟩
  · have k1 := rounds_mono hq ra.1 rb.1 hu hv (by unfold signed; simp; omega)
    have k2 := rounds_mono hq rb.1 rc.1 hv hu (by unfold signed; simp; omega)
    have : u = v := by omega
    subst this
    exact value_inj hv hu (by rw [rb.2, ra.2])
  · exact absurd h hn

/-- A float is rounded to itself. -/
theorem round_exact (neg : Bool) (m e : Nat) (hc : Canon m e) : round neg (m * 2 ^ e) 1 = .fin neg m e hc := by
  obtain ⟨h1, h2⟩ := round_spec neg (m * 2 ^ e) 1 (by decide)
  have hn : ¬ TooLarge (signed neg (m * 2 ^ e)) 1 := by
    unfold TooLarge
    have ha : (signed neg (m * 2 ^ e)).natAbs = m * 2 ^ e := by unfold signed; split <;> omega
    rw [ha]
    have k1 : m * 2 ^ e ≤ (2 ^ 53 - 1) * 2 ^ 2045 := Nat.mul_le_mul (by have := hc.1; omega) (Nat.pow_le_pow_right (by decide) hc.2.1)
    have k2 : (2 : Nat) ^ 2045 = 2 * 2 ^ 2044 := by rw [Nat.pow_succ, Nat.mul_comm]
    rw [k2] at k1
    have k3 : 0 < (2 : Nat) ^ 2044 := Nat.pow_pos (by decide)
    generalize (2 : Nat) ^ 2044 = T at *
    omega
  generalize hf : round neg (m * 2 ^ e) 1 = f at *
  cases h1 with
  | far _ h => exact absurd h hn
  | near _ u _ hu near _ =>
    have hg : value (.fin neg m e hc) = some (signed neg (m * 2 ^ e)) := rfl
    have := near _ _ hg
    unfold off at this
    have hu' : u = signed neg (m * 2 ^ e) := by
      generalize signed neg (m * 2 ^ e) = x at *
      omega
    subst hu'
    exact value_inj hu hg (by rw [h2]; rfl)

/-- Numbers with few binary digits are floats. -/
theorem representable {k : Nat} (hk : k < 2 ^ 53) : ∀ {j : Nat}, j ≤ 2045 → ∃ m e, Canon m e ∧ m * 2 ^ e = k * 2 ^ j := by
  intro j
  induction j generalizing k with
  | zero => exact fun _ => ⟨k, 0, ⟨hk, by decide, .inl rfl⟩, rfl⟩
  | succ j ih =>
    intro hj
    rcases Nat.lt_or_ge k (2 ^ 52) with h | h
    · obtain ⟨m, e, hc, hv⟩ := ih (k := k * 2) (by omega) (by omega)
      exact ⟨m, e, hc, by rw [hv, Nat.pow_succ, Nat.mul_assoc, Nat.mul_comm 2]⟩
    · exact ⟨k, j + 1, ⟨hk, hj, .inr h⟩, rfl⟩

/-- Such numbers are rounded to themselves. -/
theorem round_value (neg : Bool) {k j : Nat} (hk : k < 2 ^ 53) (hj : j ≤ 2045) : value (round neg (k * 2 ^ j) 1) = some (signed neg (k * 2 ^ j)) ∧ negative (round neg (k * 2 ^ j) 1) = neg := by
  obtain ⟨m, e, hc, hv⟩ := representable hk hj
  rw [← hv, round_exact neg m e hc]
  exact ⟨rfl, rfl⟩

/-! ## Only one float fits -/

/-- Between two floats whose last digit is even there is another one. -/
theorem between_even {m e n d : Nat} (h : Canon m e) (g : Canon n d) (hm : m % 2 = 0) (hn : n % 2 = 0) (hlt : m * 2 ^ e < n * 2 ^ d) :
    ∃ k j, Canon k j ∧ m * 2 ^ e < k * 2 ^ j ∧ k * 2 ^ j < n * 2 ^ d := by
  have hc : Canon (m + 1) e := ⟨by have := h.1; omega, h.2.1, h.2.2.imp id fun h => by omega⟩
  refine ⟨m + 1, e, hc, Nat.mul_lt_mul_of_pos_right (by omega) (Nat.pow_pos (by decide)), ?_⟩
  have hne : (m + 1) * 2 ^ e ≠ n * 2 ^ d := by
    intro hv
    obtain ⟨k1, _⟩ := canon_unique hc g hv
    omega
  rcases multiple_or_small (e := e) g with ⟨z, hz⟩ | ⟨he, hs⟩
  · rw [hz] at hlt hne ⊢
    have hmz : m < z := Nat.lt_of_mul_lt_mul_right hlt
    have := Nat.mul_le_mul_right (2 ^ e) (show m + 1 ≤ z from hmz)
    omega
  · have := Nat.mul_le_mul_right (2 ^ e) (h.2.2.resolve_left (by omega))
    omega

/-- The same for floats of both signs. -/
theorem between_even_signed {f g : F64} {u v : Int} (hf : value f = some u) (hg : value g = some v) (he : evenDigit f) (hd : evenDigit g) (hlt : u < v) :
    ∃ k w, value k = some w ∧ u < w ∧ w < v := by
  obtain ⟨s, m, e, hc, rfl, rfl⟩ := value_eq hf
  obtain ⟨t, n, d, hc', rfl, rfl⟩ := value_eq hg
  change m % 2 = 0 at he
  change n % 2 = 0 at hd
  cases s with
  | false =>
    cases t with
    | false =>
      obtain ⟨k, j, hk, h1, h2⟩ := between_even hc hc' he hd (by unfold signed at hlt; simp only [Bool.false_eq_true, if_false] at hlt; omega)
      exact ⟨.fin false k j hk, signed false (k * 2 ^ j), rfl, by unfold signed; simp only [Bool.false_eq_true, if_false]; omega, by unfold signed; simp only [Bool.false_eq_true, if_false]; omega⟩
    | true =>
      unfold signed at hlt; simp only [Bool.false_eq_true, if_false, if_true] at hlt; omega
  | true =>
    cases t with
    | true =>
      obtain ⟨k, j, hk, h1, h2⟩ := between_even hc' hc hd he (by unfold signed at hlt; simp only [if_true] at hlt; omega)
      exact ⟨.fin true k j hk, signed true (k * 2 ^ j), rfl, by unfold signed; simp only [if_true]; omega, by unfold signed; simp only [if_true]; omega⟩
    | false =>
      have h0 : Canon 0 0 := ⟨by decide, by decide, .inl rfl⟩
      unfold signed at hlt ⊢
      simp only [Bool.false_eq_true, if_false, if_true] at hlt ⊢
      rcases Nat.eq_zero_or_pos (m * 2 ^ e) with hz | hz
      · rw [hz] at hlt ⊢
        obtain ⟨k, j, hk, h1, h2⟩ := between_even h0 hc' rfl hd (by simp; omega)
        simp only [Nat.zero_mul] at h1
        exact ⟨.fin false k j hk, signed false (k * 2 ^ j), rfl, by unfold signed; simp only [Bool.false_eq_true, if_false]; omega, by unfold signed; simp only [Bool.false_eq_true, if_false]; omega⟩
      · rcases Nat.eq_zero_or_pos (n * 2 ^ d) with hy | hy
        · obtain ⟨k, j, hk, h1, h2⟩ := between_even h0 hc rfl he (by simp only [Nat.zero_mul]; exact hz)
          simp only [Nat.zero_mul] at h1
          exact ⟨.fin true k j hk, signed true (k * 2 ^ j), rfl, by unfold signed; simp only [if_true]; omega, by unfold signed; simp only [if_true]; omega⟩
        · exact ⟨.fin false 0 0 h0, 0, rfl, by omega, by omega⟩

/-- The exact result determines the value of the float. -/
theorem rounds_unique {p : Int} {q : Nat} (hq : 0 < q) {f g : F64} (hf : Rounds p q f) (hg : Rounds p q g) : (∃ u, value f = some u ∧ value g = some u) ∨ f = g := by
  cases hf with
  | far s h1 h2 =>
    cases hg with
    | far t g1 g2 =>
      right
      cases s <;> cases t <;> simp_all <;> omega
    | near _ _ g1 => exact absurd h1 g1
  | near _ u h1 h2 h3 h4 =>
    cases hg with
    | far _ g1 _ => exact absurd g1 h1
    | near _ v g1 g2 g3 g4 =>
      left
      have e1 := h3 g v g2
      have e2 := g3 f u h2
      have key : ∀ {f g : F64} {u v : Int}, value f = some u → value g = some v → (∀ k w, value k = some w → off u p q ≤ off w p q) → evenDigit f → evenDigit g →
          off u p q = off v p q → ¬ u < v := by
        intro f g u v hu hv hn he hd heq hlt
        obtain ⟨k, w, hk, k1, k2⟩ := between_even_signed hu hv he hd hlt
        have := hn k w hk
        have m1 := Int.mul_lt_mul_of_pos_right k1 (c := (q : Int)) (by omega)
        have m2 := Int.mul_lt_mul_of_pos_right k2 (c := (q : Int)) (by omega)
        unfold off at *
        generalize u * (q : Int) = a at *
        generalize v * (q : Int) = b at *
        generalize w * (q : Int) = c at *
        omega
      rcases h4 g v g2 (by omega) with h | he
      · exact ⟨u, h2, h ▸ g2⟩
      · rcases g4 f u h2 (by omega) with h | hd
        · exact ⟨u, h2, h ▸ g2⟩
        · have n1 := key h2 g2 h3 he hd (by omega)
          have n2 := key g2 h2 g3 hd he (by omega)
          have : u = v := by omega
          exact ⟨u, h2, this ▸ g2⟩

end F64
end Am
