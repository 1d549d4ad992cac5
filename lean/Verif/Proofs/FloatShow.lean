import Verif.Proofs.FloatParse
import Verif.Proofs.Written
/-! # Printed floats: how many digits, which characters -/
set_option linter.unusedSimpArgs false
set_option exponentiation.threshold 100
namespace Am
open Spec
namespace F64

/-! ## How many digits -/

theorem char_same {a b : Char} (h : a.toNat = b.toNat) : a = b := Char.ext (UInt32.toNat_inj.1 h)

theorem decimal_lt : ∀ {s : Str}, (∀ c ∈ s, isDigit c = true) → decimal s < 10 ^ s.length
  | [], _ => by decide
  | c :: s, h => by
    have ih := decimal_lt (s := s) fun d hd => h d (List.mem_cons_of_mem _ hd)
    have hc : '0' ≤ c ∧ c ≤ '9' := by simpa [isDigit] using h c (List.mem_cons_self ..)
    have hc2 : c.toNat ≤ 57 := hc.2
    show (c.toNat - 48) * 10 ^ s.length + decimal s < 10 ^ (s.length + 1)
    have : (c.toNat - 48) * 10 ^ s.length ≤ 9 * 10 ^ s.length := Nat.mul_le_mul_right _ (by omega)
    rw [Nat.pow_succ]
    generalize (c.toNat - 48) * 10 ^ s.length = x at *
    omega

theorem decimal_ge {c : Char} {s : Str} (hd : isDigit c = true) (h0 : c ≠ '0') : 10 ^ s.length ≤ decimal (c :: s) := by
  have hc : '0' ≤ c ∧ c ≤ '9' := by simpa [isDigit] using hd
  have hc1 : 48 ≤ c.toNat := hc.1
  have hc2 : c.toNat ≠ 48 := fun h => h0 (char_same (h.trans rfl))
  show 10 ^ s.length ≤ (c.toNat - 48) * 10 ^ s.length + decimal s
  have : 1 * 10 ^ s.length ≤ (c.toNat - 48) * 10 ^ s.length := Nat.mul_le_mul_right _ (by omega)
  omega

theorem natStr_bounds (n : Nat) : n < 10 ^ (natStr n).length ∧ (n ≠ 0 → 10 ^ ((natStr n).length - 1) ≤ n) ∧ 1 ≤ (natStr n).length := by
  have h1 := decimal_lt (natStr_digits n)
  rw [decimal_natStr] at h1
  refine ⟨h1, fun h => ?_, ?_⟩
  · have hh := natStr_head (n := n)
    have hd := natStr_digits n
    have hv := decimal_natStr n
    have hne := natStr_ne_nil n
    generalize natStr n = s at *
    cases s with
    | nil => exact absurd rfl hne
    | cons c s =>
      have := decimal_ge (s := s) (hd c (List.mem_cons_self ..)) (fun e => h (hh (by rw [e]; rfl)))
      rw [hv] at this
      exact this
  · have := natStr_ne_nil n
    cases h : natStr n with
    | nil => exact absurd h this
    | cons => simp

/-- No decimal that reads back has fewer digits than the shortest one. -/
theorem shortest_digits {m e : Nat} (hc : Canon m e) (hm : m ≠ 0) {d : Nat} {k : Int} (h : ofDecimal false d k = .fin false m e hc) :
    (natStr (shortest m e hc).1).length ≤ (natStr d).length := by
  obtain ⟨h1, h2, _⟩ := shortest_spec hc hm
  generalize (shortest m e hc).1 = D at *
  generalize (shortest m e hc).2 = K at *
  rcases Nat.lt_or_ge (natStr d).length (natStr D).length with hlt | hge
  · exfalso
    have hk := h2 d k h
    obtain ⟨b1, _, b3⟩ := natStr_bounds d
    obtain ⟨_, c2, _⟩ := natStr_bounds D
    have hD := c2 (by have := (decimal_bound hc hm h1).1; omega)
    generalize (natStr d).length = l at *
    generalize (natStr D).length = L at *
    have e1 : K = k + ((K - k).toNat : Int) := by omega
    have r1 : ofDecimal false (D * 10 ^ (K - k).toNat) k = .fin false m e hc := by rw [ofDecimal_shift, ← e1]; exact h1
    have p1 : d ≤ 10 ^ (L - 1 + (K - k).toNat) := by
      have : 10 ^ l ≤ 10 ^ (L - 1 + (K - k).toNat) := Nat.pow_le_pow_right (by decide) (by omega)
      omega
    have p2 : 10 ^ (L - 1 + (K - k).toNat) ≤ D * 10 ^ (K - k).toNat := by rw [Nat.pow_add]; exact Nat.mul_le_mul_right _ hD
    have r2 := ofDecimal_between p1 p2 rfl h r1
    rw [← Nat.one_mul (10 ^ _), ofDecimal_shift] at r2
    have := h2 _ _ r2
    omega
  · exact hge

/-! ## Which characters -/

/-- The characters of printed floats. -/
theorem digit_shown {c : Char} (h : isDigit c = true) : c ∈ c!"0123456789+-.einfNa" := by
  have h1 : '0' ≤ c ∧ c ≤ '9' := by simpa [isDigit] using h
  have h2 : 48 ≤ c.toNat ∧ c.toNat ≤ 57 := ⟨h1.1, h1.2⟩
  have h3 : c.toNat = 48 ∨ c.toNat = 49 ∨ c.toNat = 50 ∨ c.toNat = 51 ∨ c.toNat = 52 ∨ c.toNat = 53 ∨ c.toNat = 54 ∨ c.toNat = 55 ∨ c.toNat = 56 ∨ c.toNat = 57 := by omega
  rcases h3 with h | h | h | h | h | h | h | h | h | h <;> (rw [← Char.ofNat_toNat c, h]; decide)

theorem minus_shown (neg : Bool) : ∀ c ∈ minus neg, c ∈ c!"0123456789+-.einfNa" := by cases neg <;> decide

theorem plain_chars (point : Bool) (d : Nat) (k : Int) : ∀ c ∈ plain point d k, isDigit c = true ∨ c = '.' := by
  intro c hc
  unfold plain at hc
  dsimp only at hc
  have hd := natStr_digits d c
  split at hc
  · rcases List.mem_append.1 hc with h | h
    · rcases List.mem_append.1 h with h | h
      · exact .inl (hd h)
      · exact .inl (zeros_digits _ c h)
    · revert h
      cases point with
      | false => intro h; cases h
      | true =>
        intro h
        have : c = '.' ∨ c = '0' := by simpa using h
        rcases this with rfl | rfl
        · exact .inr rfl
        · exact .inl (by decide)
  · split at hc
    · rcases List.mem_append.1 hc with h | h
      · exact .inl (hd (List.mem_of_mem_take h))
      · rcases List.mem_cons.1 h with h | h
        · exact .inr h
        · exact .inl (hd (List.mem_of_mem_drop h))
    · rcases List.mem_append.1 hc with h | h
      · rcases List.mem_append.1 h with h | h
        · have : c = '0' ∨ c = '.' := by simpa using h
          rcases this with rfl | rfl
          · exact .inl (by decide)
          · exact .inr rfl
        · exact .inl (zeros_digits _ c h)
      · exact .inl (hd h)

theorem plain_shown (point : Bool) (d : Nat) (k : Int) : ∀ c ∈ plain point d k, c ∈ c!"0123456789+-.einfNa" := fun c hc => by
  rcases plain_chars point d k c hc with h | rfl
  · exact digit_shown h
  · decide

theorem scientific_shown (d : Nat) (k : Int) : ∀ c ∈ scientific d k, c ∈ c!"0123456789+-.einfNa" := by
  intro c hc
  unfold scientific at hc
  dsimp only at hc
  have hd := natStr_digits d c
  rcases List.mem_append.1 hc with h | h
  · rcases List.mem_append.1 h with h | h
    · rcases List.mem_append.1 h with h | h
      · exact digit_shown (hd (List.mem_of_mem_take h))
      · split at h
        · cases h
        · rcases List.mem_cons.1 h with h | h
          · rw [h]; decide
          · exact digit_shown (hd (List.mem_of_mem_drop h))
    · rw [List.mem_singleton.1 h]; decide
  · rcases decimal_chars (intStr_decimal _) c h with h | h
    · exact digit_shown h
    · rw [h]; decide

theorem disp_shown (f : F64) : ∀ c ∈ f.disp, c ∈ c!"0123456789+-.einfNa" := by
  intro c hc
  cases f with
  | nan => revert c; decide
  | inf s => cases s <;> revert c <;> decide
  | fin s m e h =>
    unfold disp at hc
    dsimp only at hc
    rcases List.mem_append.1 hc with h | h
    · exact minus_shown s c h
    · split at h
      · rw [List.mem_singleton.1 h]; decide
      · exact plain_shown _ _ _ c h

theorem debug_shown (f : F64) : ∀ c ∈ f.debug, c ∈ c!"0123456789+-.einfNa" := by
  intro c hc
  cases f with
  | nan => revert c; decide
  | inf s => cases s <;> revert c <;> decide
  | fin s m e h =>
    unfold debug at hc
    dsimp only at hc
    rcases List.mem_append.1 hc with h | h
    · exact minus_shown s c h
    · split at h
      · exact (by decide : ∀ c ∈ c!"0.0", c ∈ c!"0123456789+-.einfNa") c h
      · split at h
        · exact scientific_shown _ _ c h
        · exact plain_shown _ _ _ c h

/-! ## Whole numbers -/

theorem mul_of_pow {m e : Nat} (h : 1074 ≤ e) : ∃ z, m * 2 ^ e = z * one := by
  refine ⟨m * 2 ^ (e - 1074), ?_⟩
  rw [one_eq, Nat.mul_assoc, ← Nat.pow_add]
  congr 2
  omega

/-- A whole number is rounded to a whole number. -/
theorem round_whole {n m e : Nat} {hc : Canon m e} (h : round false (n * one) 1 = .fin false m e hc) : ∃ z, m * 2 ^ e = z * one := by
  rcases Nat.lt_or_ge n (2 ^ 53) with hn | hn
  · have := (round_value false (k := n) (j := 1074) hn (by decide)).1
    rw [← one_eq, h] at this
    have h2 : (m * 2 ^ e : Nat) = n * one := by
      have : (some ((m * 2 ^ e : Nat) : Int)) = some ((n * one : Nat) : Int) := this
      injection this with this
      exact Int.ofNat.inj this
    exact ⟨n, h2⟩
  · refine mul_of_pow ?_
    rcases Nat.lt_or_ge e 1074 with he | he
    · exfalso
      have hs := (round_spec false (n * one) 1 (by decide)).1
      rw [h] at hs
      have hr := (round_spec false (2 ^ 53 * one) 1 (by decide)).1
      have hx : round false (2 ^ 53 * one) 1 = round false (2 ^ 52 * 2 ^ 1075) 1 := by
        rw [one_eq, ← Nat.pow_add, ← Nat.pow_add]
      have hv := (round_value false (k := 2 ^ 52) (j := 1075) (by decide) (by decide)).1
      rw [hx] at hr
      have hle : ((2 ^ 52 * 2 ^ 1075 : Nat) : Int) ≤ ((m * 2 ^ e : Nat) : Int) := by
        rcases Nat.eq_or_lt_of_le hn with rfl | hn
        · rw [hx] at h
          rw [h] at hv
          have : (some ((m * 2 ^ e : Nat) : Int)) = some ((2 ^ 52 * 2 ^ 1075 : Nat) : Int) := hv
          injection this with this
          exact Int.le_of_eq this.symm
        · refine rounds_mono (by decide) hr hs hv rfl ?_
          have := Nat.mul_lt_mul_of_pos_right hn one_pos
          show ((2 ^ 53 * one : Nat) : Int) < ((n * one : Nat) : Int)
          exact Int.ofNat_lt.2 this
      have h3 : m * 2 ^ e < 2 ^ 53 * 2 ^ e := Nat.mul_lt_mul_of_pos_right hc.1 (Nat.pow_pos (by decide))
      have h4 : 2 ^ 53 * 2 ^ e ≤ 2 ^ 52 * 2 ^ 1075 := by
        rw [← Nat.pow_add, ← Nat.pow_add]
        exact Nat.pow_le_pow_right (by decide) (by omega)
      have h5 := Int.ofNat_le.1 hle
      exact absurd (Nat.lt_of_lt_of_le h3 (Nat.le_trans h4 h5)) (Nat.lt_irrefl _)
    · exact he

theorem plain_point {d : Nat} {k : Int} : '.' ∈ plain false d k ↔ k < 0 := by
  unfold plain
  dsimp only
  have hd := natStr_digits d
  constructor
  · intro h
    rcases Int.lt_or_le k 0 with hk | hk
    · exact hk
    · exfalso
      rw [if_pos hk] at h
      have : isDigit '.' = true := by
        rcases List.mem_append.1 h with h | h
        · rcases List.mem_append.1 h with h | h
          · exact hd _ h
          · exact zeros_digits _ _ h
        · cases h
      exact absurd this (by decide)
  · intro hk
    rw [if_neg (by omega)]
    split
    · exact List.mem_append_right _ (List.mem_cons_self ..)
    · exact List.mem_append_left _ (List.mem_append_left _ (by decide))

/-- The shortest decimal has a point exactly if the float is not whole. -/
theorem shortest_whole {m e : Nat} (hc : Canon m e) (hm : m ≠ 0) : 0 ≤ (shortest m e hc).2 ↔ ∃ z, m * 2 ^ e = z * one := by
  obtain ⟨h1, h2, _⟩ := shortest_spec hc hm
  constructor
  · intro hk
    rw [ofDecimal_eq] at h1
    have hz : (-(shortest m e hc).2).toNat = 0 := by omega
    rw [hz] at h1
    exact round_whole h1
  · rintro ⟨z, hz⟩
    refine h2 z 0 ?_
    rw [ofDecimal_eq, ← round_exact false m e hc, hz]
    show round false (z * 10 ^ 0 * one) (10 ^ 0) = _
    rw [Nat.pow_zero, Nat.mul_one]

theorem plain_start (d : Nat) (k : Int) : ∃ c r, plain false d k = c :: r ∧ isDigit c = true := by
  unfold plain
  dsimp only
  have hd := natStr_digits d
  have hn := natStr_ne_nil d
  split
  · cases h : natStr d with
    | nil => exact absurd h hn
    | cons c r => exact ⟨c, _, rfl, hd c (by rw [h]; exact List.mem_cons_self ..)⟩
  · split
    · rename_i hk hl
      have hlen : 0 < (natStr d).length - (-k).toNat := by omega
      cases h : natStr d with
      | nil => exact absurd h hn
      | cons c r =>
        rw [h] at hlen
        obtain ⟨j, hj⟩ : ∃ j, (c :: r).length - (-k).toNat = j + 1 := ⟨_, (Nat.succ_pred_eq_of_pos hlen).symm⟩
        rw [hj]
        exact ⟨c, _, rfl, hd c (by rw [h]; exact List.mem_cons_self ..)⟩
    · exact ⟨'0', _, rfl, by decide⟩

end F64
end Am
