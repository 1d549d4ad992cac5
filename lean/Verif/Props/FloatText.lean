import Verif.Props.FloatOrder
import Verif.Props.PrintsBack
import Verif.Props.Written
/-! # Floats in texts (C95)

What a float literal means, what `Display` and `Debug` print, and that both read back. With this the assumptions on floats of C10, C26 and C85 are facts
about `f64`. -/
set_option linter.unusedSimpArgs false
set_option linter.unusedSectionVars false
set_option exponentiation.threshold 100
namespace Am
open Spec

/-! ## Reading -/

/-- C95: exactly the texts that say a number or name one are read as a float, and as the nearest one. -/
theorem c95_text (b : Build) (t : Str) (f : F64) : @Rt.fparse F64 (rt64 b) t = some f ↔ FloatText t f := F64.parse_iff t f

/-- The text of a number says one number only as far as it matters: one float. -/
theorem c95_one_float (t : Str) (f g : F64) (hf : FloatText t f) (hg : FloatText t g) : f = g :=
  Option.some.inj (((F64.parse_iff t f).2 hf).symm.trans ((F64.parse_iff t g).2 hg))

/-- Concrete cases: the largest float, half of the smallest, infinity by size, and what is no number. -/
example : F64.parse c!"1.7976931348623157e308" = some (.fin false (2 ^ 53 - 1) 2045 (by decide)) ∧ F64.parse c!"2.47e-324" = some (F64.zero false) ∧
    F64.parse c!"-1.8e308" = some (.inf true) ∧ F64.parse c!"+Infinity" = some (.inf false) ∧ F64.parse c!"1.2.3" = none ∧ F64.parse c!"." = none := by decide +kernel

/-- C95: a float literal of a program — digits and points that begin with a digit — is accepted exactly if it has one point, and denotes the float nearest to
the decimal fraction it is. -/
theorem c95_literal (b : Build) (s : Str) (f : F64) (hs : TokenOk ⟨.Float, s⟩) :
    @Rt.fparse F64 (rt64 b) s = some f ↔ ∃ x y, s = x ++ '.' :: y ∧ '.' ∉ x ∧ '.' ∉ y ∧ IsFloat false (decimal (x ++ y)) (-(y.length : Int)) f := by
  obtain ⟨⟨c, r, hc, hcd⟩, hall, hpt⟩ := hs
  dsimp only at hc hall hpt
  have hsign : ∀ {a w : Str} {neg : Bool}, Sign a neg → s = a ++ w → a = [] ∧ neg = false := by
    intro a w neg hs' e
    cases hs' with
    | none => exact ⟨rfl, rfl⟩
    | plus => rw [hc] at e; injection e with e _; subst e; exact absurd hcd (by decide)
    | minus => rw [hc] at e; injection e with e _; subst e; exact absurd hcd (by decide)
  rw [c95_text]
  constructor
  · intro h
    cases h with
    | number _ neg d k hn hf =>
      cases hn with
      | mk a m x neg d n k h1 h2 h3 =>
        obtain ⟨rfl, rfl⟩ := hsign h1 rfl
        have hx : x = [] ∧ k = 0 := by
          have no : ∀ e, (e = 'e' ∨ e = 'E') → e ∈ x → False := by
            intro e he hm
            rcases hall e (by simp [hm]) with h | h
            · rcases he with rfl | rfl <;> exact absurd h (by decide)
            · rcases he with rfl | rfl <;> exact absurd h (by decide)
          cases h3 with
          | none => exact ⟨rfl, rfl⟩
          | plain e _ he => exact (no e he (List.mem_cons_self ..)).elim
          | plus e _ he => exact (no e he (List.mem_cons_self ..)).elim
          | minus e _ he => exact (no e he (List.mem_cons_self ..)).elim
        obtain ⟨rfl, rfl⟩ := hx
        cases h2 with
        | whole _ _ hd => exact absurd (hd '.' (by simpa using hpt)) (by decide)
        | point p q hne hd =>
          refine ⟨p, q, by simp, fun h => absurd (hd _ (List.mem_append_left _ h)) (by decide), fun h => absurd (hd _ (List.mem_append_right _ h)) (by decide), ?_⟩
          rw [Int.zero_sub] at hf
          exact hf
    | name _ hn =>
      exfalso
      cases hn with
      | inf a w neg h1 hw =>
        obtain ⟨rfl, _⟩ := hsign h1 rfl
        rw [List.nil_append] at hc
        subst hc
        have : c.toLower = 'i' := by rcases hw with h | h <;> injection h
        rw [← F64.lower_eq, (F64.digit_not_letter hcd).1] at this
        exact (F64.digit_not_letter hcd).2.2.2.2.1 this
      | nan a w neg h1 hw =>
        obtain ⟨rfl, _⟩ := hsign h1 rfl
        rw [List.nil_append] at hc
        subst hc
        have : c.toLower = 'n' := by injection hw
        rw [← F64.lower_eq, (F64.digit_not_letter hcd).1] at this
        exact (F64.digit_not_letter hcd).2.2.2.2.2.1 this
  · rintro ⟨x, y, rfl, hx, hy, hf⟩
    have hd : ∀ d ∈ x ++ y, isDigit d = true := by
      intro d hd
      rcases List.mem_append.1 hd with h | h
      · rcases hall d (by simp [h]) with h' | rfl
        · exact h'
        · exact absurd h hx
      · rcases hall d (by simp [h]) with h' | rfl
        · exact h'
        · exact absurd h hy
    have hne : x ++ y ≠ [] := by
      intro e
      obtain ⟨rfl, rfl⟩ := List.append_eq_nil_iff.1 e
      injection hc with hc _
      subst hc
      exact absurd hcd (by decide)
    have := NumberText.mk [] (x ++ '.' :: y) [] false _ _ _ .none (.point x y hne hd) .none
    rw [List.nil_append, List.append_nil, Int.zero_sub] at this
    exact .number _ _ _ _ _ this hf

/-- Concrete case: the literal 0.1, and one with two points. -/
example (b : Build) : TokenOk ⟨.Float, c!"0.1"⟩ ∧ TokenOk ⟨.Float, c!"1.2.3"⟩ ∧ @Rt.fparse F64 (rt64 b) c!"1.2.3" = none ∧
    @Rt.fparse F64 (rt64 b) c!"0.1" = some (.fin false 7205759403792794 1018 (by decide)) := by
  refine ⟨⟨⟨'0', c!".1", rfl, by decide⟩, by decide, by decide⟩, ⟨⟨'1', c!".2.3", rfl, by decide⟩, by decide, by decide⟩, ?_, ?_⟩
  · show F64.parse c!"1.2.3" = none
    decide +kernel
  · show F64.parse c!"0.1" = some (.fin false 7205759403792794 1018 (by decide))
    decide +kernel

/-! ## Printing -/

/-- C95: what `Display` prints reads back as the same float, even a NaN. -/
theorem c95_display_reads (b : Build) (f : F64) : @Rt.fparse F64 (rt64 b) (@Rt.fdisp F64 (rt64 b) f) = some f := F64.parse_disp f

/-- C95: what `Debug` prints reads back as the same float. -/
theorem c95_debug_reads (b : Build) (f : F64) : @Rt.fparse F64 (rt64 b) (@Rt.fdebug F64 (rt64 b) f) = some f := F64.parse_debug f

theorem F64.isFloat_of {neg : Bool} {d : Nat} {k : Int} {f : F64} : IsFloat neg d k f ↔ F64.ofDecimal neg d k = f :=
  ⟨fun h => F64.isFloat_unique (F64.ofDecimal_isFloat ..) h, fun h => h ▸ F64.ofDecimal_isFloat ..⟩

theorem F64.shortest_shortest {m e : Nat} (hc : Canon m e) (hm : m ≠ 0) :
    Shortest (F64.shortest m e hc).1 (F64.shortest m e hc).2 (m * 2 ^ e) (.fin false m e hc) := by
  obtain ⟨h1, h2, h3⟩ := F64.shortest_spec hc hm
  refine ⟨F64.isFloat_of.2 h1, fun d' k' h n hn => ?_, fun d' h => ?_⟩
  · have h4 := F64.shortest_digits hc hm (F64.isFloat_of.1 h)
    have h5 := (F64.natStr_bounds (F64.shortest m e hc).1).1
    have h6 := (F64.natStr_bounds d').2.1
    have h7 := (F64.natStr_bounds d').2.2
    have hd : d' ≠ 0 := by have := (F64.decimal_bound hc hm (F64.isFloat_of.1 h)).1; omega
    have h8 : (natStr d').length - 1 < n := (Nat.pow_lt_pow_iff_right (a := 10) (by decide)).1 (Nat.lt_of_le_of_lt (h6 hd) hn)
    exact Nat.lt_of_lt_of_le h5 (Nat.pow_le_pow_right (by decide) (by omega))
  · have h4 := h3 d' (F64.isFloat_of.1 h)
    have cast : ∀ x : Nat, ((x * (F64.one * 10 ^ (F64.shortest m e hc).2.toNat) : Nat) : Int) = (x : Int) * 10 ^ (F64.shortest m e hc).2.toNat * 2 ^ 1074 := by
      intro x
      have e1 : (2 ^ 1074 : Int) = (F64.one : Int) := by rw [F64.one_eq]; rfl
      rw [e1, Nat.mul_comm F64.one, ← Nat.mul_assoc, Int.natCast_mul, Int.natCast_mul, Int.natCast_pow]
      rfl
    have cast2 : ((m * 2 ^ e * 10 ^ (-(F64.shortest m e hc).2).toNat : Nat) : Int) = ((m * 2 ^ e : Nat) : Int) * 10 ^ (-(F64.shortest m e hc).2).toNat := by
      rw [Int.natCast_mul (m * 2 ^ e), Int.natCast_pow 10]
      rfl
    rw [cast, cast, cast2] at h4
    exact h4

theorem natStr_dec (d : Nat) : Decimal (natStr d) d := by
  have := intStr_decimal (d : Int)
  have e : intStr (d : Int) = natStr d := by unfold intStr; rw [if_neg (by omega)]; rfl
  rw [e] at this
  exact this

theorem plain_is (point : Bool) (d : Nat) (k : Int) : Plain point d k (F64.plain point d k) := by
  unfold F64.plain
  dsimp only
  have hD := natStr_dec d
  by_cases hk : 0 ≤ k
  · rw [if_pos hk]
    have := Plain.whole (point := point) (natStr d) d k.toNat hD
    have e : ((k.toNat : Nat) : Int) = k := by omega
    rw [e] at this
    exact this
  · rw [if_neg hk]
    by_cases hn : (-k).toNat < (natStr d).length
    · rw [if_pos hn]
      have hl : ((natStr d).drop ((natStr d).length - (-k).toNat)).length = (-k).toNat := by rw [List.length_drop]; omega
      have := Plain.point (point := point) ((natStr d).take ((natStr d).length - (-k).toNat)) ((natStr d).drop ((natStr d).length - (-k).toNat)) d
        (fun h => by have h := congrArg List.length h; rw [List.length_take, List.length_nil] at h; omega)
        (fun h => by have h := congrArg List.length h; rw [hl, List.length_nil] at h; omega) (by rw [List.take_append_drop]; exact hD)
      have e : (-(((natStr d).drop ((natStr d).length - (-k).toNat)).length : Int)) = k := by rw [hl]; omega
      rw [e] at this
      exact this
    · rw [if_neg hn]
      have := Plain.small (point := point) (natStr d) d ((-k).toNat - (natStr d).length) hD
      have e : (-(((-k).toNat - (natStr d).length + (natStr d).length : Nat) : Int)) = k := by omega
      rw [e] at this
      exact this

theorem scientific_is (d : Nat) (k : Int) : Scientific d k (F64.scientific d k) := by
  unfold F64.scientific
  dsimp only
  have hD := natStr_dec d
  have hn := natStr_ne_nil d
  generalize natStr d = s at *
  cases s with
  | nil => exact absurd rfl hn
  | cons c r =>
    have hx := intStr_decimal (k + ((c :: r).length : Int) - 1)
    cases r with
    | nil =>
      have e : k + (([c] : Str).length : Int) - 1 = k := by simp only [List.length_cons, List.length_nil]; omega
      rw [e] at hx ⊢
      exact Scientific.one c d k _ hD hx
    | cons b r =>
      have e : k + ((c :: b :: r).length : Int) - 1 = k + ((b :: r).length : Int) := by simp only [List.length_cons]; omega
      rw [e] at hx ⊢
      have := Scientific.more c (b :: r) d k _ (by simp) hD hx
      simpa using this

/-- C95: `Display` prints a float other than zero as the shortest decimal that reads back, the nearest of these, without exponent. Zero is `0` or `-0`. -/
theorem c95_display (b : Build) (f : F64) (u : Int) (hu : value f = some u) :
    (u ≠ 0 → ∃ d k t g, @Rt.fdisp F64 (rt64 b) f = (if negative f then c!"-" else []) ++ t ∧ Plain false d k t ∧ value g = some (u.natAbs : Int) ∧ negative g = false ∧
      Shortest d k u.natAbs g) ∧ (u = 0 → @Rt.fdisp F64 (rt64 b) f = if negative f then c!"-0" else c!"0") := by
  obtain ⟨s, m, e, hc, rfl, rfl⟩ := F64.value_eq hu
  constructor
  · intro h0
    have hm : m ≠ 0 := fun h => h0 (by subst h; rw [Nat.zero_mul]; cases s <;> rfl)
    have ha : (F64.signed s (m * 2 ^ e)).natAbs = m * 2 ^ e := by unfold F64.signed; split <;> omega
    rw [ha]
    refine ⟨_, _, _, .fin false m e hc, ?_, plain_is false (F64.shortest m e hc).1 (F64.shortest m e hc).2, rfl, rfl, F64.shortest_shortest hc hm⟩
    show F64.disp (.fin s m e hc) = _
    unfold F64.disp
    dsimp only
    rw [if_neg hm]
    rfl
  · intro h0
    have hm : m = 0 := (F64.value_zero (h := hc)).1 (congrArg some h0)
    show F64.disp (.fin s m e hc) = _
    unfold F64.disp
    dsimp only
    rw [if_pos hm]
    cases s <;> rfl

/-- C95: `Debug` prints the same digits, with a point in any case from 1e-4 to below 1e16, and with an exponent outside. -/
theorem c95_debug (b : Build) (f : F64) (u : Int) (hu : value f = some u) :
    (u ≠ 0 → ∃ d k t g, @Rt.fdebug F64 (rt64 b) f = (if negative f then c!"-" else []) ++ t ∧ value g = some (u.natAbs : Int) ∧ negative g = false ∧
      Shortest d k u.natAbs g ∧ (2 ^ 1074 ≤ 10 ^ 4 * u.natAbs ∧ u.natAbs < 10 ^ 16 * 2 ^ 1074 → Plain true d k t) ∧
      (¬ (2 ^ 1074 ≤ 10 ^ 4 * u.natAbs ∧ u.natAbs < 10 ^ 16 * 2 ^ 1074) → Scientific d k t)) ∧
    (u = 0 → @Rt.fdebug F64 (rt64 b) f = if negative f then c!"-0.0" else c!"0.0") := by
  obtain ⟨s, m, e, hc, rfl, rfl⟩ := F64.value_eq hu
  constructor
  · intro h0
    have hm : m ≠ 0 := fun h => h0 (by subst h; rw [Nat.zero_mul]; cases s <;> rfl)
    have ha : (F64.signed s (m * 2 ^ e)).natAbs = m * 2 ^ e := by unfold F64.signed; split <;> omega
    rw [ha, ← F64.one_eq]
    refine ⟨(F64.shortest m e hc).1, (F64.shortest m e hc).2, if m * 2 ^ e * 10 ^ 4 < F64.one ∨ 10 ^ 16 * F64.one ≤ m * 2 ^ e then F64.scientific (F64.shortest m e hc).1 (F64.shortest m e hc).2
      else F64.plain true (F64.shortest m e hc).1 (F64.shortest m e hc).2, .fin false m e hc, ?_, rfl, rfl, F64.shortest_shortest hc hm, ?_, ?_⟩
    · show F64.debug (.fin s m e hc) = _
      unfold F64.debug
      dsimp only
      rw [if_neg hm]
      rfl
    · intro h
      rw [if_neg (by rw [Nat.mul_comm (m * 2 ^ e)]; omega)]
      exact plain_is ..
    · intro h
      rw [if_pos (by rw [Nat.mul_comm (m * 2 ^ e)]; omega)]
      exact scientific_is ..
  · intro h0
    have hm : m = 0 := (F64.value_zero (h := hc)).1 (congrArg some h0)
    show F64.debug (.fin s m e hc) = _
    unfold F64.debug
    dsimp only
    rw [if_pos hm]
    cases s <;> rfl

/-- C95: infinities and NaN. -/
theorem c95_names (b : Build) : (∀ s, @Rt.fdisp F64 (rt64 b) (.inf s) = (if s then c!"-" else []) ++ c!"inf" ∧ @Rt.fdebug F64 (rt64 b) (.inf s) = (if s then c!"-" else []) ++ c!"inf") ∧
    @Rt.fdisp F64 (rt64 b) .nan = c!"NaN" ∧ @Rt.fdebug F64 (rt64 b) .nan = c!"NaN" := ⟨fun _ => ⟨rfl, rfl⟩, rfl, rfl⟩

theorem onef_disp : F64.disp F64.onef = c!"1" :=
  (F64.disp_is false (m := 2 ^ 52) (e := 1022) (by decide) (by decide) (d := 1) (k := 0) (by decide +kernel) (by decide +kernel)).trans (by decide +kernel)

/-- Concrete cases: 0.1, 1e16, 1.23456789e-5 (negative) and the smallest float. -/
example : F64.disp (.fin false 7205759403792794 1018 (by decide)) = c!"0.1" ∧ F64.disp (.fin false 5000000000000000 1075 (by decide)) = c!"10000000000000000" ∧
    F64.debug (.fin false 5000000000000000 1075 (by decide)) = c!"1e16" ∧ F64.debug F64.onef = c!"1.0" ∧
    F64.disp (.fin true 7287602530703874 1005 (by decide)) = c!"-0.0000123456789" ∧ F64.debug (.fin true 7287602530703874 1005 (by decide)) = c!"-1.23456789e-5" ∧
    F64.debug (.fin false 1 0 (by decide)) = c!"5e-324" := by
  refine ⟨(F64.disp_is _ _ (by decide) (d := 1) (k := -1) (by decide +kernel) (by decide +kernel)).trans (by decide +kernel),
    (F64.disp_is _ _ (by decide) (d := 1) (k := 16) (by decide +kernel) (by decide +kernel)).trans (by decide +kernel),
    (F64.debug_is _ _ (by decide) (d := 1) (k := 16) (by decide +kernel) (by decide +kernel)).trans (by decide +kernel),
    (F64.debug_is false (m := 2 ^ 52) (e := 1022) (by decide) (by decide) (d := 1) (k := 0) (by decide +kernel) (by decide +kernel)).trans (by decide +kernel),
    (F64.disp_is _ _ (by decide) (d := 123456789) (k := -13) (by decide +kernel) (by decide +kernel)).trans (by decide +kernel),
    (F64.debug_is _ _ (by decide) (d := 123456789) (k := -13) (by decide +kernel) (by decide +kernel)).trans (by decide +kernel),
    (F64.debug_is _ _ (by decide) (d := 5) (k := -324) (by decide +kernel) (by decide +kernel)).trans (by decide +kernel)⟩

/-! ## The assumptions of other claims -/

/-- What C85 assumes of the texts of floats holds for `f64`. -/
theorem c85_floats (b : Build) : @FloatsShown F64 (rt64 b) := by
  have eq_self : ∀ f g : F64, f = g → F64.eq f f = true → F64.eq f g = true := fun f g h h' => h ▸ h'
  refine @FloatsShown.mk F64 (rt64 b) ?_ ?_ ?_
  · rintro f c (h | h)
    · exact F64.disp_shown f c h
    · exact F64.debug_shown f c h
  · intro f g h
    refine eq_self f g (Option.some.inj ?_)
    rw [← F64.parse_disp f, ← F64.parse_disp g]
    exact congrArg F64.parse h
  · intro f g h
    refine eq_self f g (Option.some.inj ?_)
    rw [← F64.parse_debug f, ← F64.parse_debug g]
    exact congrArg F64.parse h

theorem F64.disp_number {m e : Nat} (hc : Canon m e) : (∀ c ∈ F64.disp (.fin false m e hc), isDigit c = true ∨ c = '.') ∧
    (∃ c r, F64.disp (.fin false m e hc) = c :: r ∧ isDigit c = true) ∧ ('.' ∈ F64.disp (.fin false m e hc) ↔ ¬ ∃ z, m * 2 ^ e = z * F64.one) := by
  have h0 : F64.disp (.fin false m e hc) = if m = 0 then c!"0" else F64.plain false (F64.shortest m e hc).1 (F64.shortest m e hc).2 := rfl
  rw [h0]
  by_cases hm : m = 0
  · rw [if_pos hm]
    refine ⟨by decide, ⟨'0', [], rfl, by decide⟩, ?_⟩
    subst hm
    constructor
    · intro h; exact absurd h (by decide)
    · intro h; exact absurd ⟨0, by simp⟩ h
  · rw [if_neg hm]
    refine ⟨fun c h => F64.plain_chars _ _ _ c h, F64.plain_start .., ?_⟩
    rw [F64.plain_point, ← F64.shortest_whole hc hm]
    omega

/-- C95: a float is printed as a literal that denotes it exactly if it is finite, has no minus sign and is not a whole number. -/
theorem c95_prints (b : Build) (f : F64) : @FloatPrints F64 (rt64 b) f ↔ negative f = false ∧ ∃ u, value f = some u ∧ ¬ ∃ z : Int, u = z * 2 ^ 1074 := by
  have e1 : (2 ^ 1074 : Int) = (F64.one : Int) := by rw [F64.one_eq]; rfl
  rw [e1]
  constructor
  · rintro ⟨⟨⟨c, r, h1, h2⟩, h3, h4⟩, _⟩
    have hd : F64.disp f = c :: r := h1
    have hp : '.' ∈ F64.disp f := h4
    cases f with
    | nan => exact absurd hp (by decide)
    | inf s => cases s <;> exact absurd hp (by decide)
    | fin s m e hc =>
      cases s with
      | true =>
        exfalso
        have : c = '-' := by
          have e : F64.disp (.fin true m e hc) = '-' :: (if m = 0 then c!"0" else F64.plain false (F64.shortest m e hc).1 (F64.shortest m e hc).2) := rfl
          rw [e] at hd
          injection hd with hd _
          exact hd.symm
        rw [this] at h2
        exact absurd h2 (by decide)
      | false =>
        refine ⟨rfl, _, rfl, ?_⟩
        rintro ⟨z, hz⟩
        refine ((F64.disp_number hc).2.2.1 hp) ⟨z.toNat, ?_⟩
        have hz' : ((m * 2 ^ e : Nat) : Int) = z * (F64.one : Int) := hz
        have hpos : (0 : Int) < (F64.one : Int) := by have := F64.one_pos; omega
        have hzn : 0 ≤ z := by
          rcases Int.lt_or_le z 0 with h | h
          · have := Int.mul_neg_of_neg_of_pos h hpos
            omega
          · exact h
        have : ((m * 2 ^ e : Nat) : Int) = ((z.toNat * F64.one : Nat) : Int) := by rw [hz', Int.natCast_mul, Int.toNat_of_nonneg hzn]
        exact Int.ofNat.inj this
  · rintro ⟨hs, u, hu, hz⟩
    obtain ⟨s, m, e, hc, rfl, rfl⟩ := F64.value_eq hu
    cases hs
    obtain ⟨h1, ⟨c, r, h2, h3⟩, h4⟩ := F64.disp_number hc
    refine ⟨⟨⟨c, r, h2, h3⟩, h1, h4.2 ?_⟩, F64.parse_disp _⟩
    rintro ⟨z, hz'⟩
    refine hz ⟨z, ?_⟩
    show ((m * 2 ^ e : Nat) : Int) = _
    rw [hz', Int.natCast_mul]

/-- What C10 assumes of float literals holds for `f64`. -/
theorem c10_floats (b : Build) : @LiteralsLegible F64 (rt64 b) := by
  intro s f hs hf
  obtain ⟨x, y, _, _, _, h⟩ := (c95_literal b s f hs).1 hf
  have hneg := h.2
  cases f with
  | nan =>
    exfalso
    rcases F64.rounds_value h.1 with ⟨_, u, hu⟩ | ⟨_, t, ht⟩
    · cases hu
    · cases ht
  | inf t => cases hneg; exact .inr (.inr rfl)
  | fin t m e hc =>
    cases hneg
    obtain ⟨h1, ⟨c, r, h2, h3⟩, h4⟩ := F64.disp_number hc
    by_cases hp : '.' ∈ F64.disp (.fin false m e hc)
    · exact .inr (.inl ⟨⟨⟨c, r, h2, h3⟩, h1, hp⟩, F64.parse_disp _⟩)
    · refine .inl ⟨fun e => ?_, fun d hd => ?_⟩
      · have e : F64.disp (.fin false m _ hc) = [] := e
        rw [h2] at e
        cases e
      · rcases h1 d hd with h | rfl
        · exact h
        · exact absurd hd hp

/-- C10 with `f64`, without assumptions: an expression of an accepted source is what its printed text denotes if and only if it prints back, where a float prints
back if it is finite, without minus sign and not whole (`c95_prints`). -/
theorem c10_f64_partial (b : Build) (text : Str) (src : Source F64) (h : @parse F64 (rt64 b) text = .ok src) (e : Expr F64) (he : Returned src e) :
    @parse F64 (rt64 b) (@Expr.display F64 (rt64 b) e) = .ok ⟨[e], [], []⟩ ↔ @PrintsBack F64 (rt64 b) e :=
  @c10_exact_partial F64 (rt64 b) (c10_floats b) text src h e he

/-- C10 is false with `f64`: the literal 1.0 is printed as 1, which denotes the integer. -/
theorem c10_f64_false (b : Build) : ∃ f, @parse F64 (rt64 b) c!"1.0" = .ok ⟨[.float f], [], []⟩ ∧
    @parse F64 (rt64 b) (@Expr.display F64 (rt64 b) (.float f)) = .ok ⟨[.int 1], [], []⟩ := by
  refine ⟨F64.onef, @c10_false_float F64 (rt64 b) F64.onef ?_ ?_⟩
  · show F64.parse c!"1.0" = some F64.onef
    decide +kernel
  · exact onef_disp

/-- C26 with `f64`, without assumptions. -/
theorem c26_f64 (b : Build) (x y : Value F64) :
    (@Value.lt F64 (rt64 b) x y = true ↔ @Value.gt F64 (rt64 b) y x = true) ∧ (@Value.le F64 (rt64 b) x y = true ↔ @Value.ge F64 (rt64 b) y x = true) ∧
    ¬(@Value.lt F64 (rt64 b) x y = true ∧ @Value.gt F64 (rt64 b) x y = true) ∧ ¬(@Value.lt F64 (rt64 b) x y = true ∧ @Value.eq F64 (rt64 b) x y = true) ∧
    ¬(@Value.gt F64 (rt64 b) x y = true ∧ @Value.eq F64 (rt64 b) x y = true) :=
  ⟨(@c26_mirror F64 (rt64 b) (c26_floats b) x y).1, (@c26_mirror F64 (rt64 b) (c26_floats b) x y).2, @c26_exclusive F64 (rt64 b) (c26_floats b) x y⟩

/-- C85 with `f64`: the text of a value inside an array or a map tells the value, if the order of maps and the escapes of characters outside ASCII are those of
the standard library. -/
theorem c85_f64 (b : Build) (hp : @PrintsFair F64 (rt64 b)) {x y : Value F64} (hx : Proper x) (hy : Proper y) (hs : @Same F64 (rt64 b) x x)
    (h : @Value.debug F64 (rt64 b) x = @Value.debug F64 (rt64 b) y) : @Same F64 (rt64 b) x y :=
  @c85_inside F64 (rt64 b) hp (c85_floats b) x y hx hy hs h

/-- The assumption can be met. -/
example : @PrintsFair F64 (rt64 ⟨true, fun c => [c], fun l => l⟩) := @PrintsFair.mk F64 (rt64 ⟨true, fun c => [c], fun l => l⟩) (fun l => .refl l) (fun _ _ => .inl rfl)

end Am
