import Verif.Proofs.FloatShow
/-! # The operations of `f64` are those of IEEE 754 -/
set_option linter.unusedSimpArgs false
set_option exponentiation.threshold 100
namespace Am
open Spec
namespace F64

theorem nearest_unique {p : Int} {q : Nat} (hq : 0 < q) {neg : Bool} {f g : F64} (hf : Nearest p q neg f) (hg : Nearest p q neg g) : f = g := by
  rcases rounds_unique hq hf.1 hg.1 with ⟨u, h1, h2⟩ | h
  · exact value_inj h1 h2 (hf.2.trans hg.2.symm)
  · exact h

theorem round_nearest (neg : Bool) (p q : Nat) (hq : 0 < q) : Nearest (signed neg p) q neg (round neg p q) := round_spec neg p q hq

theorem signed_abs (z : Int) : signed (decide (z < 0)) z.natAbs = z := by
  unfold signed
  by_cases h : z < 0
  · rw [decide_eq_true h]; simp only [if_true]; omega
  · rw [decide_eq_false h]; simp only [if_false, Bool.false_eq_true]; omega

theorem zero_nearest (neg : Bool) (q : Nat) (hq : 0 < q) : Nearest 0 q neg (zero neg) := by
  have h := round_nearest neg 0 q hq
  have e : round neg 0 q = zero neg := by
    rw [← round_ratio neg (p := 0) (q := 1) (by decide) hq (by simp)]
    exact round_exact neg 0 0 _
  rw [e] at h
  have z : signed neg 0 = 0 := by cases neg <;> rfl
  rw [z] at h
  exact h

theorem value_fin (s : Bool) (m e : Nat) (h : Canon m e) : value (.fin s m e h) = some (signed s (m * 2 ^ e)) := rfl

/-- A finite float that is zero. -/
theorem value_zero {s : Bool} {m e : Nat} {h : Canon m e} : value (.fin s m e h) = some 0 ↔ m = 0 := by
  rw [value_fin]
  constructor
  · intro hz
    injection hz with hz
    have : m * 2 ^ e = 0 := by unfold signed at hz; split at hz <;> omega
    rcases Nat.mul_eq_zero.1 this with h | h
    · exact h
    · exact absurd h (Nat.ne_of_gt (Nat.pow_pos (by decide)))
  · rintro rfl
    rw [Nat.zero_mul]
    cases s <;> rfl

/-! ## Each operation -/

theorem add_sum (a b : F64) : Sum a b (add a b) := by
  cases a with
  | nan => exact .nanLeft b
  | inf s =>
    cases b with
    | nan => exact .nanRight _
    | inf t =>
      show Sum _ _ (if s = t then .inf s else .nan)
      by_cases h : s = t
      · subst h
        rw [if_pos rfl]
        exact .left s _ (by simp) (by cases s <;> simp)
      · rw [if_neg h]
        have : t = !s := by cases s <;> cases t <;> simp_all
        subst this
        exact .clash s
    | fin t n d hd => exact .left s _ (by simp) (by simp)
  | fin s m e hc =>
    cases b with
    | nan => exact .nanRight _
    | inf t => exact .right _ t (by simp) (by simp)
    | fin t n d hd =>
      refine .finite _ _ _ _ _ rfl rfl ?_
      unfold add
      dsimp only
      have h1 : (signed s (m * 2 ^ e) + signed t (n * 2 ^ d)) = (signed s (m * 2 ^ e) + signed t (n * 2 ^ d)) := rfl
      show Nearest (signed s (m * 2 ^ e) + signed t (n * 2 ^ d)) 1 (if signed s (m * 2 ^ e) + signed t (n * 2 ^ d) = 0 then s && t else decide (signed s (m * 2 ^ e) + signed t (n * 2 ^ d) < 0)) _
      generalize signed s (m * 2 ^ e) + signed t (n * 2 ^ d) = z at *
      by_cases hz : z = 0
      · rw [if_pos hz, if_pos hz, hz]
        exact zero_nearest _ 1 (by decide)
      · rw [if_neg hz, if_neg hz]
        have := round_nearest (decide (z < 0)) z.natAbs 1 (by decide)
        rw [signed_abs] at this
        exact this

theorem value_neg (a : F64) : value (neg a) = (value a).map fun u => -u := by
  cases a with
  | nan => rfl
  | inf s => rfl
  | fin s m e h =>
    show some (signed (!s) (m * 2 ^ e)) = some (-(signed s (m * 2 ^ e)))
    cases s <;> simp [signed]

theorem negative_neg (a : F64) (h : a ≠ .nan) : negative (neg a) = !negative a := by
  cases a with
  | nan => exact absurd rfl h
  | inf s => rfl
  | fin s m e h => rfl

theorem neg_neg' (a : F64) : neg (neg a) = a := by
  cases a with
  | nan => rfl
  | inf s => cases s <;> rfl
  | fin s m e h => cases s <;> rfl

theorem sub_difference (a b : F64) : Difference a b (sub a b) := by
  unfold sub
  have h := add_sum a (neg b)
  generalize add a (neg b) = f at *
  generalize hb : neg b = c at *
  cases h with
  | finite _ _ _ u v hu hv hn =>
    subst hb
    rw [value_neg] at hv
    obtain ⟨w, hw, rfl⟩ := Option.map_eq_some_iff.1 hv
    refine .finite _ _ _ u w hu hw ?_
    rw [negative_neg b (by rintro rfl; cases hw)] at hn
    exact hn
  | left s _ h1 h2 =>
    subst hb
    refine .left s b (by rintro rfl; exact h1 rfl) ?_
    rintro rfl
    exact h2 rfl
  | right a t h1 h2 =>
    have : b = .inf (!t) := by rw [← neg_neg' b, hb]; rfl
    subst this
    have := Difference.right a (!t) h1 h2
    rw [Bool.not_not] at this
    exact this
  | clash s =>
    have : b = .inf s := by rw [← neg_neg' b, hb]; show F64.inf (!!s) = _; rw [Bool.not_not]
    subst this
    exact .clash s
  | nanLeft => exact .nanLeft b
  | nanRight =>
    have : b = .nan := by rw [← neg_neg' b, hb]; rfl
    subst this
    exact .nanRight a

theorem signed_mul (s t : Bool) (a b : Nat) : signed (s != t) (a * b) = signed s a * signed t b := by
  cases s <;> cases t <;> simp [signed, Int.neg_mul, Int.mul_neg]

theorem mul_product (a b : F64) : Product a b (mul a b) := by
  cases a with
  | nan => exact .nanLeft b
  | inf s =>
    cases b with
    | nan => exact .nanRight _
    | inf t => exact .left s (.inf t) (by simp) (by simp [value])
    | fin t n d hd =>
      show Product _ _ (if n = 0 then .nan else .inf (s != t))
      by_cases h : n = 0
      · rw [if_pos h]; exact .zeroRight s _ (value_zero.2 h)
      · rw [if_neg h]; exact .left s (.fin t n d hd) (by simp) (fun e => h (value_zero.1 e))
  | fin s m e hc =>
    cases b with
    | nan => exact .nanRight _
    | inf t =>
      show Product _ _ (if m = 0 then .nan else .inf (s != t))
      by_cases h : m = 0
      · rw [if_pos h]; exact .zeroLeft _ t (value_zero.2 h)
      · rw [if_neg h]; exact .right (.fin s m e hc) t (by simp) (fun e => h (value_zero.1 e))
    | fin t n d hd =>
      refine .finite _ _ _ _ _ rfl rfl ?_
      show Nearest (signed s (m * 2 ^ e) * signed t (n * 2 ^ d)) _ (s != t) (round (s != t) (m * 2 ^ e * (n * 2 ^ d)) one)
      rw [← signed_mul, ← one_eq]
      exact round_nearest _ _ _ one_pos

theorem div_ratio (a b : F64) : Ratio a b (div a b) := by
  cases a with
  | nan => exact .nanLeft b
  | inf s =>
    cases b with
    | nan => exact .nanRight _
    | inf t => exact .infinities s t
    | fin t n d hd => exact .left s (.fin t n d hd) _ rfl
  | fin s m e hc =>
    cases b with
    | nan => exact .nanRight _
    | inf t => exact .right (.fin s m e hc) (zero (s != t)) t _ rfl (value_zero.2 rfl) rfl
    | fin t n d hd =>
      show Ratio _ _ (if n = 0 then (if m = 0 then .nan else .inf (s != t)) else round (s != t) (m * 2 ^ e * one) (n * 2 ^ d))
      by_cases h : n = 0
      · rw [if_pos h]
        by_cases h' : m = 0
        · rw [if_pos h']; exact .zeros _ _ (value_zero.2 h') (value_zero.2 h)
        · rw [if_neg h']; exact .byZero (.fin s m e hc) (.fin t n d hd) _ rfl (fun e => h' ((value_zero (h := hc)).1 (congrArg some e))) (value_zero.2 h)
      · rw [if_neg h]
        have hp : 0 < n * 2 ^ d := Nat.mul_pos (Nat.pos_of_ne_zero h) (Nat.pow_pos (by decide))
        refine .finite _ _ _ _ _ rfl rfl (fun e => h ((value_zero (h := hd)).1 (congrArg some e))) ?_
        show Nearest (signed s (m * 2 ^ e) * 2 ^ 1074 * (signed t (n * 2 ^ d)).sign) (signed t (n * 2 ^ d)).natAbs (s != t) _
        have h1 := round_nearest (s != t) (m * 2 ^ e * one) (n * 2 ^ d) hp
        have h2 : (signed t (n * 2 ^ d)).natAbs = n * 2 ^ d := by unfold signed; split <;> omega
        have h3 : signed (s != t) (m * 2 ^ e * one) = signed s (m * 2 ^ e) * 2 ^ 1074 * (signed t (n * 2 ^ d)).sign := by
          have e1 : (2 ^ 1074 : Int) = (one : Int) := by rw [one_eq]; rfl
          rw [e1]
          generalize n * 2 ^ d = y at *
          generalize m * 2 ^ e = x at *
          have ys : ((y : Int)).sign = 1 := Int.sign_eq_one_of_pos (by omega)
          cases s <;> cases t <;> simp [signed, ys, Int.neg_mul, Int.mul_neg]
        rw [h2, ← h3]
        exact h1

theorem signed_tmod (s t : Bool) (x y : Nat) : (signed s x).tmod (signed t y) = signed s (x % y) := by
  cases s <;> cases t <;> simp [signed, Int.tmod_neg, Int.neg_tmod, ← Int.ofNat_tmod]

/-- The remainder is a float. -/
theorem rem_representable {m e n d : Nat} (hc : Canon m e) (hd : Canon n d) (hn : n ≠ 0) : ∃ k j, k < 2 ^ 53 ∧ j ≤ 2045 ∧ m * 2 ^ e % (n * 2 ^ d) = k * 2 ^ j := by
  rcases Nat.lt_or_ge d e with h | h
  · have he : m * 2 ^ e = m * 2 ^ (e - d) * 2 ^ d := by
      rw [Nat.mul_assoc, ← Nat.pow_add]
      congr 2
      omega
    rw [he, Nat.mul_mod_mul_right]
    exact ⟨_, d, Nat.lt_trans (Nat.mod_lt _ (Nat.pos_of_ne_zero hn)) hd.1, hd.2.1, rfl⟩
  · have he : n * 2 ^ d = n * 2 ^ (d - e) * 2 ^ e := by
      rw [Nat.mul_assoc, ← Nat.pow_add]
      congr 2
      omega
    rw [he, Nat.mul_mod_mul_right]
    exact ⟨_, e, Nat.lt_of_le_of_lt (Nat.mod_le _ _) hc.1, hc.2.1, rfl⟩

theorem rem_remainder (a b : F64) : Remainder a b (rem a b) := by
  cases a with
  | nan => exact .nanLeft b
  | inf s => cases b <;> first | exact .nanRight _ | exact .left _ _
  | fin s m e hc =>
    cases b with
    | nan => exact .nanRight _
    | inf t => exact .byInf _ _ t rfl
    | fin t n d hd =>
      show Remainder _ _ (if n = 0 then .nan else round s (m * 2 ^ e % (n * 2 ^ d)) 1)
      by_cases h : n = 0
      · rw [if_pos h]; exact .byZero _ _ (value_zero.2 h)
      · rw [if_neg h]
        obtain ⟨k, j, hk, hj, hv⟩ := rem_representable hc hd h
        have h1 := round_value s hk hj
        rw [← hv] at h1
        refine .finite _ _ _ _ _ rfl rfl (fun e => h ((value_zero (h := hd)).1 (congrArg some e))) ?_ h1.2
        rw [h1.1]
        show some _ = some ((signed s (m * 2 ^ e)).tmod (signed t (n * 2 ^ d)))
        rw [signed_tmod]

theorem ofInt_nearest (i : Int64) : Nearest (i.toInt * 2 ^ 1074) 1 (decide (i.toInt < 0)) (ofInt i) := by
  have h := round_nearest (decide (i.toInt < 0)) (i.toInt.natAbs * one) 1 (by decide)
  have e : signed (decide (i.toInt < 0)) (i.toInt.natAbs * one) = i.toInt * 2 ^ 1074 := by
    have e1 : (2 ^ 1074 : Int) = (one : Int) := by rw [one_eq]; rfl
    rw [e1]
    have h2 := signed_mul (decide (i.toInt < 0)) false i.toInt.natAbs one
    rw [signed_abs] at h2
    have h3 : (decide (i.toInt < 0) != false) = decide (i.toInt < 0) := by simp
    rw [h3] at h2
    exact h2
  rw [e] at h
  exact h

/-- Integers up to 2^53 are floats. -/
theorem ofInt_exact (i : Int64) (h : i.toInt.natAbs ≤ 2 ^ 53) : value (ofInt i) = some (i.toInt * 2 ^ 1074) := by
  have e1 : (2 ^ 1074 : Int) = (one : Int) := by rw [one_eq]; rfl
  have key : ∀ s, value (round s (i.toInt.natAbs * one) 1) = some (signed s (i.toInt.natAbs * one)) := by
    intro s
    rcases Nat.eq_or_lt_of_le h with h | h
    · have h1 := round_value s (k := 2 ^ 52) (j := 1075) (by decide) (by decide)
      have h2 : 2 ^ 52 * 2 ^ 1075 = i.toInt.natAbs * one := by
        rw [h, one_eq, ← Nat.pow_add, ← Nat.pow_add]
      rw [h2] at h1
      exact h1.1
    · have := round_value s (k := i.toInt.natAbs) (j := 1074) h (by decide)
      rw [← one_eq] at this
      exact this.1
  have h3 := signed_mul (decide (i.toInt < 0)) false i.toInt.natAbs one
  rw [signed_abs] at h3
  have h4 : (decide (i.toInt < 0) != false) = decide (i.toInt < 0) := by simp
  rw [h4] at h3
  rw [e1]
  show value (round _ _ 1) = _
  rw [key, h3]
  rfl

/-! ## The result is determined -/

theorem value_nan {f : F64} {u : Int} (h : value f = some u) : f ≠ .nan ∧ ∀ s, f ≠ .inf s := by
  cases f with
  | nan => cases h
  | inf => cases h
  | fin => exact ⟨by simp, by simp⟩

theorem sum_unique {a b f g : F64} (hf : Sum a b f) (hg : Sum a b g) : f = g := by
  cases hf with
  | finite _ _ _ u v hu hv hn =>
    cases hg with
    | finite _ _ _ u' v' hu' hv' hn' =>
      cases hu.symm.trans hu'; cases hv.symm.trans hv'
      exact nearest_unique (by decide) hn hn'
    | left => cases hu
    | right => cases hv
    | clash => cases hu
    | nanLeft => cases hu
    | nanRight => cases hv
  | left s _ h1 h2 =>
    cases hg with
    | finite _ _ _ u' v' hu' => cases hu'
    | left => rfl
    | right _ t h3 h4 => cases s <;> cases t <;> simp_all
    | clash => exact absurd rfl h2
    | nanRight => exact absurd rfl h1
  | right _ t h1 h2 =>
    cases hg with
    | finite _ _ _ u' v' hu' hv' => cases hv'
    | left s h3 h4 h5 => cases s <;> cases t <;> simp_all
    | right => rfl
    | clash s => cases s <;> simp_all
    | nanLeft => exact absurd rfl h1
  | clash s =>
    generalize hx : (!s) = x at hg
    cases hg with
    | finite _ _ _ u' v' hu' => cases hu'
    | left _ _ _ h => exact absurd (by rw [hx]) h
    | right _ t _ h => exact absurd (by rw [← hx]; cases s <;> rfl) h
    | clash => rfl
  | nanLeft =>
    cases hg with
    | finite _ _ _ u' v' hu' => cases hu'
    | right _ _ h => exact absurd rfl h
    | nanLeft => rfl
    | nanRight => rfl
  | nanRight =>
    cases hg with
    | finite _ _ _ u' v' hu' hv' => cases hv'
    | left _ _ h => exact absurd rfl h
    | nanLeft => rfl
    | nanRight => rfl

theorem difference_sum {a b f : F64} (h : Difference a b f) : Sum a (neg b) f := by
  cases h with
  | finite _ _ _ u v hu hv hn =>
    refine .finite _ _ _ u (-v) hu (by rw [value_neg, hv]; rfl) ?_
    rw [negative_neg b (value_nan hv).1]
    exact hn
  | left s _ h1 h2 =>
    refine .left s _ (fun h => h1 ?_) (fun h => h2 ?_)
    · rw [← neg_neg' b, h]; rfl
    · rw [← neg_neg' b, h]; show F64.inf (!!s) = _; rw [Bool.not_not]
  | right _ t h1 h2 => exact .right a (!t) h1 (by rw [Bool.not_not]; exact h2)
  | clash s => exact .clash s
  | nanLeft => exact .nanLeft _
  | nanRight => exact .nanRight _

theorem difference_unique {a b f g : F64} (hf : Difference a b f) (hg : Difference a b g) : f = g := sum_unique (difference_sum hf) (difference_sum hg)

theorem product_unique {a b f g : F64} (hf : Product a b f) (hg : Product a b g) : f = g := by
  cases hf with
  | finite _ _ _ u v hu hv hn =>
    cases hg with
    | finite _ _ _ u' v' hu' hv' hn' =>
      cases hu.symm.trans hu'; cases hv.symm.trans hv'
      exact nearest_unique (Nat.pow_pos (by decide)) hn hn'
    | left => cases hu
    | right => cases hv
    | zeroRight => cases hu
    | zeroLeft => cases hv
    | nanLeft => cases hu
    | nanRight => cases hv
  | left s _ h1 h2 =>
    cases hg with
    | finite _ _ _ u' v' hu' => cases hu'
    | left => rfl
    | right => rfl
    | zeroRight _ _ h => exact absurd h h2
    | zeroLeft _ _ h => cases h
    | nanRight => exact absurd rfl h1
  | right _ t h1 h2 =>
    cases hg with
    | finite _ _ _ u' v' hu' hv' => cases hv'
    | left => rfl
    | right => rfl
    | zeroRight _ _ h => cases h
    | zeroLeft _ _ h => exact absurd h h2
    | nanLeft => exact absurd rfl h1
  | zeroRight s _ h =>
    cases hg with
    | finite _ _ _ u' v' hu' => cases hu'
    | left _ _ _ h2 => exact absurd h h2
    | right => cases h
    | zeroRight => rfl
    | zeroLeft => rfl
    | nanRight => rfl
  | zeroLeft _ t h =>
    cases hg with
    | finite _ _ _ u' v' hu' hv' => cases hv'
    | left => cases h
    | right _ _ _ h2 => exact absurd h h2
    | zeroRight => rfl
    | zeroLeft => rfl
    | nanLeft => rfl
  | nanLeft =>
    cases hg with
    | finite _ _ _ u' v' hu' => cases hu'
    | right _ _ h => exact absurd rfl h
    | zeroLeft => rfl
    | nanLeft => rfl
    | nanRight => rfl
  | nanRight =>
    cases hg with
    | finite _ _ _ u' v' hu' hv' => cases hv'
    | left _ _ h => exact absurd rfl h
    | zeroRight => rfl
    | nanLeft => rfl
    | nanRight => rfl

theorem ratio_unique {a b f g : F64} (hf : Ratio a b f) (hg : Ratio a b g) : f = g := by
  cases hf with
  | finite _ _ _ u v hu hv h0 hn =>
    cases hg with
    | finite _ _ _ u' v' hu' hv' _ hn' =>
      cases hu.symm.trans hu'; cases hv.symm.trans hv'
      exact nearest_unique (Int.natAbs_pos.2 h0) hn hn'
    | byZero _ _ _ _ _ h => cases hv.symm.trans h; exact absurd rfl h0
    | zeros _ _ _ h => cases hv.symm.trans h; exact absurd rfl h0
    | left => cases hu
    | right => cases hv
    | infinities => cases hu
    | nanLeft => cases hu
    | nanRight => cases hv
  | byZero _ _ u hu h0 hv =>
    cases hg with
    | finite _ _ _ u' v' hu' hv' h _ => cases hv.symm.trans hv'; exact absurd rfl h
    | byZero => rfl
    | zeros _ _ h => cases hu.symm.trans h; exact absurd rfl h0
    | left => cases hu
    | right => cases hv
    | infinities => cases hu
    | nanLeft => cases hu
    | nanRight => cases hv
  | zeros _ _ hu hv =>
    cases hg with
    | finite _ _ _ u' v' hu' hv' h _ => cases hv.symm.trans hv'; exact absurd rfl h
    | byZero _ _ _ h h0 => cases hu.symm.trans h; exact absurd rfl h0
    | zeros => rfl
    | left => cases hu
    | right => cases hv
    | infinities => rfl
    | nanLeft => rfl
    | nanRight => rfl
  | left s _ v hv =>
    cases hg with
    | finite _ _ _ u' v' hu' => cases hu'
    | byZero _ _ _ h => cases h
    | zeros _ _ h => cases h
    | left => rfl
    | right _ _ _ _ h => cases h
    | infinities => cases hv
    | nanRight => cases hv
  | right _ f t u hu h1 h2 =>
    cases hg with
    | finite _ _ _ u' v' hu' hv' => cases hv'
    | byZero _ _ _ _ _ h => cases h
    | zeros _ _ _ h => cases h
    | left _ _ _ h => cases h
    | right _ _ _ _ _ g1 g2 => exact value_inj h1 g1 (h2.trans g2.symm)
    | infinities => cases hu
    | nanLeft => cases hu
  | infinities s t =>
    cases hg with
    | finite _ _ _ u' v' hu' hv' => cases hv'
    | byZero _ _ _ h => cases h
    | zeros _ _ h => cases h
    | left _ _ _ h => cases h
    | right _ _ _ _ h => cases h
    | infinities => rfl
  | nanLeft =>
    cases hg with
    | finite _ _ _ u' v' hu' => cases hu'
    | byZero _ _ _ h => cases h
    | zeros => rfl
    | right _ _ _ _ h => cases h
    | nanLeft => rfl
    | nanRight => rfl
  | nanRight =>
    cases hg with
    | finite _ _ _ u' v' hu' hv' => cases hv'
    | byZero _ _ _ _ _ h => cases h
    | zeros => rfl
    | left _ _ _ h => cases h
    | nanLeft => rfl
    | nanRight => rfl

theorem remainder_unique {a b f g : F64} (hf : Remainder a b f) (hg : Remainder a b g) : f = g := by
  cases hf with
  | finite _ _ _ u v hu hv h0 h1 h2 =>
    cases hg with
    | finite _ _ _ u' v' hu' hv' _ g1 g2 =>
      cases hu.symm.trans hu'; cases hv.symm.trans hv'
      exact value_inj h1 g1 (h2.trans g2.symm)
    | byZero _ _ h => cases hv.symm.trans h; exact absurd rfl h0
    | byInf => cases hv
    | left => cases hu
    | nanLeft => cases hu
    | nanRight => cases hv
  | byZero _ _ hv =>
    cases hg with
    | finite _ _ _ u' v' hu' hv' h _ => cases hv.symm.trans hv'; exact absurd rfl h
    | byInf => cases hv
    | _ => rfl
  | byInf _ u t hu =>
    cases hg with
    | finite _ _ _ u' v' hu' hv' => cases hv'
    | byZero _ _ h => cases h
    | byInf => rfl
    | left => cases hu
    | nanLeft => rfl
  | left s _ =>
    cases hg with
    | finite _ _ _ u' v' hu' => cases hu'
    | byInf _ _ _ h => cases h
    | _ => rfl
  | nanLeft =>
    cases hg with
    | finite _ _ _ u' v' hu' => cases hu'
    | _ => rfl
  | nanRight =>
    cases hg with
    | finite _ _ _ u' v' hu' hv' => cases hv'
    | _ => rfl

end F64
end Am
