import Verif.Props.Float64
/-! # The order of numbers (C96)

value.rs:157-168 compares an integer with a float by rounding the integer first. So `<` and `>` are right whenever they hold, but two different numbers can be
both `<=` and `>=` each other. -/
set_option linter.unusedSimpArgs false
set_option linter.unusedSectionVars false
set_option exponentiation.threshold 100
namespace Am
open Spec

/-- The order of the integers. -/
def order (u v : Int) : Ordering := if u < v then .lt else if v < u then .gt else .eq

theorem compare_order (u v : Int) : compare u v = order u v := by
  unfold order
  by_cases h : u < v
  · rw [if_pos h]; exact Int.compare_eq_lt.2 h
  · rw [if_neg h]
    by_cases h' : v < u
    · rw [if_pos h']; exact Int.compare_eq_gt.2 h'
    · rw [if_neg h']; exact Int.compare_eq_eq.2 (by omega)

theorem order_swap (u v : Int) : order u v = (order v u).swap := by
  unfold order
  by_cases h : u < v
  · rw [if_pos h, if_neg (by omega), if_pos h]; rfl
  · rw [if_neg h]
    by_cases h' : v < u
    · rw [if_pos h', if_pos h']; rfl
    · rw [if_neg h', if_neg h', if_neg h]; rfl

theorem order_eq (u v : Int) : order u v = .eq ↔ u = v := by
  unfold order
  split
  · constructor; intro h; cases h; intro h; omega
  · split
    · constructor; intro h; cases h; intro h; omega
    · constructor; intro _; omega; intro _; rfl

theorem order_lt (u v : Int) : order u v = .lt ↔ u < v := by
  unfold order
  split
  · simp_all
  · split <;> simp_all

theorem order_gt (u v : Int) : order u v = .gt ↔ v < u := by
  unfold order
  split
  · constructor; intro h; cases h; intro h; omega
  · split <;> simp_all

theorem cmp_value {f g : F64} {u v : Int} (hf : value f = some u) (hg : value g = some v) : F64.cmp f g = some (order u v) := by
  obtain ⟨s, m, e, hc, rfl, rfl⟩ := F64.value_eq hf
  obtain ⟨t, n, d, hd, rfl, rfl⟩ := F64.value_eq hg
  rw [← compare_order]
  rfl

/-- What C26 assumes of floats holds for `f64`. -/
theorem c26_floats (b : Build) : @FloatsCompare F64 (rt64 b) := by
  constructor
  · intro f g
    show F64.eq f g = true ↔ F64.cmp f g = some .eq
    cases f with
    | nan => cases g <;> simp [F64.eq, F64.cmp]
    | inf s => cases g <;> first | (cases s <;> rename_i t <;> cases t <;> simp [F64.eq, F64.cmp]) | (cases s <;> simp [F64.eq, F64.cmp])
    | fin s m e hc =>
      cases g with
      | nan => simp [F64.eq, F64.cmp]
      | inf t => cases t <;> simp [F64.eq, F64.cmp]
      | fin t n d hd =>
        rw [cmp_value (F64.value_fin s m e hc) (F64.value_fin t n d hd)]
        simp only [F64.eq, beq_iff_eq, Option.some.injEq, order_eq]
  · intro f g
    show F64.cmp f g = (F64.cmp g f).map Ordering.swap
    cases f with
    | nan => cases g <;> rfl
    | inf s => cases g with
      | nan => rfl
      | inf t => cases s <;> cases t <;> rfl
      | fin => cases s <;> rfl
    | fin s m e hc =>
      cases g with
      | nan => rfl
      | inf t => cases t <;> rfl
      | fin t n d hd =>
        rw [cmp_value (F64.value_fin s m e hc) (F64.value_fin t n d hd), cmp_value (F64.value_fin t n d hd) (F64.value_fin s m e hc)]
        exact congrArg some (order_swap _ _)

theorem rt64_cmp (b : Build) : @Rt.fcmp F64 (rt64 b) = F64.cmp := rfl

theorem rt64_ofInt (b : Build) : @Rt.fofInt F64 (rt64 b) = F64.ofInt := rfl

theorem cmp_mixed {F : Type} [Rt F] (i : Int64) (f g : F) : (Value.int i).cmp (.float g) = Rt.fcmp (Rt.fofInt i) g ∧
    (Value.float f).cmp (.int i) = Rt.fcmp f (Rt.fofInt i) ∧ (Value.float f).cmp (.float g) = Rt.fcmp f g := ⟨rfl, rfl, rfl⟩

theorem cmp_int_float (b : Build) (i : Int64) (g : F64) : @Value.cmp F64 (rt64 b) (.int i) (.float g) = F64.cmp (F64.ofInt i) g :=
  (@cmp_mixed F64 (rt64 b) i g g).1.trans (congrFun (congr (rt64_cmp b) (congrFun (rt64_ofInt b) i)) g)

theorem cmp_float_int (b : Build) (f : F64) (j : Int64) : @Value.cmp F64 (rt64 b) (.float f) (.int j) = F64.cmp f (F64.ofInt j) :=
  (@cmp_mixed F64 (rt64 b) j f f).2.1.trans (congr (congrFun (rt64_cmp b) f) (congrFun (rt64_ofInt b) j))

theorem cmp_float_float (b : Build) (f g : F64) : @Value.cmp F64 (rt64 b) (.float f) (.float g) = F64.cmp f g :=
  (@cmp_mixed F64 (rt64 b) 0 f g).2.2.trans (congrFun (congrFun (rt64_cmp b) f) g)

/-! ## Where a number stands -/

theorem F64.value_self {f : F64} {u : Int} (h : value f = some u) : Rounds u 1 f := by
  obtain ⟨s, m, e, hc, rfl, rfl⟩ := F64.value_eq h
  have := (F64.round_spec s (m * 2 ^ e) 1 (by decide)).1
  rw [F64.round_exact s m e hc] at this
  exact this

/-- No 64-bit integer is too large for a float. -/
theorem F64.ofInt_finite (i : Int64) : ∃ w, value (F64.ofInt i) = some w := by
  rcases F64.rounds_value (F64.ofInt_nearest i).1 with ⟨_, h⟩ | ⟨h, _⟩
  · exact h
  · exfalso
    unfold TooLarge at h
    have h1 : i.toInt.natAbs ≤ 2 ^ 63 := by
      have := Int64.toInt_lt i
      have := Int64.le_toInt i
      omega
    have h2 : (i.toInt * 2 ^ 1074).natAbs = i.toInt.natAbs * 2 ^ 1074 := by
      rw [Int.natAbs_mul]
      rfl
    rw [h2] at h
    have h3 : i.toInt.natAbs * 2 ^ 1074 ≤ 2 ^ 63 * 2 ^ 1074 := Nat.mul_le_mul_right _ h1
    have h4 : 2 ^ 63 * 2 ^ 1074 < (2 ^ 54 - 1) * 2 ^ 2044 * 1 := by decide +kernel
    exact absurd (Nat.le_trans h h3) (Nat.not_le.2 h4)

/-- Rounding an integer does not move it past a float. -/
theorem F64.ofInt_between (i : Int64) {f : F64} {v w : Int} (hw : value (F64.ofInt i) = some w) (hv : value f = some v) :
    (i.toInt * 2 ^ 1074 ≤ v → w ≤ v) ∧ (v ≤ i.toInt * 2 ^ 1074 → v ≤ w) := by
  have h1 := (F64.ofInt_nearest i).1
  have h2 := F64.value_self hv
  have heq : i.toInt * 2 ^ 1074 = v → w = v := by
    intro e
    rw [e] at h1
    rcases F64.rounds_unique (by decide) h1 h2 with ⟨x, hx, hy⟩ | h
    · cases hw.symm.trans hx; cases hv.symm.trans hy; rfl
    · rw [h] at hw; cases hw.symm.trans hv; rfl
  constructor
  · intro h
    rcases Int.lt_or_eq_of_le h with h | h
    · exact F64.rounds_mono (by decide) h1 h2 hw hv h
    · exact Int.le_of_eq (heq h)
  · intro h
    rcases Int.lt_or_eq_of_le h with h | h
    · exact F64.rounds_mono (by decide) h2 h1 hv hw h
    · exact Int.le_of_eq (heq h.symm).symm

/-- Rounding keeps the order of integers. -/
theorem F64.ofInt_mono (i j : Int64) {w x : Int} (hw : value (F64.ofInt i) = some w) (hx : value (F64.ofInt j) = some x) (h : i.toInt ≤ j.toInt) : w ≤ x := by
  rcases Int.lt_or_eq_of_le h with h | h
  · refine F64.rounds_mono (by decide) (F64.ofInt_nearest i).1 (F64.ofInt_nearest j).1 hw hx ?_
    exact Int.mul_lt_mul_of_pos_right h (Int.pow_pos (by decide))
  · have : i = j := Int64.toInt_inj.1 h
    subst this
    cases hw.symm.trans hx
    exact Int.le_refl _

/-! ## C96 -/

/-- C96, the full claim: two finite numbers are ordered like their exact values. -/
def C96 : Prop := ∀ (b : Build) (l r : Value F64) (u v : Int), exactly l = some u → exactly r = some v → @Value.cmp F64 (rt64 b) l r = some (order u v)

theorem i64Cmp_order (i j : Int64) : i64Cmp i j = order (i.toInt * 2 ^ 1074) (j.toInt * 2 ^ 1074) := by
  unfold i64Cmp order
  have h : ∀ a b : Int, a < b ↔ a * 2 ^ 1074 < b * 2 ^ 1074 := fun a b =>
    ⟨fun h => Int.mul_lt_mul_of_pos_right h (Int.pow_pos (by decide)), fun h => Int.lt_of_mul_lt_mul_right h (Int.le_of_lt (Int.pow_pos (by decide)))⟩
  by_cases h1 : i.toInt < j.toInt
  · rw [if_pos h1, if_pos ((h _ _).1 h1)]
  · rw [if_neg h1, if_neg (fun h' => h1 ((h _ _).2 h'))]
    by_cases h2 : j.toInt < i.toInt
    · rw [if_pos h2, if_pos ((h _ _).1 h2)]
    · rw [if_neg h2, if_neg (fun h' => h2 ((h _ _).2 h'))]

/-- C96 (partial): numbers are ordered like their exact values if the integer that is compared with a float is a float itself, in particular up to 2^53; two
integers and two floats always. Missing: other integers, for which it is false (`c96_false`). -/
theorem c96_order_partial (b : Build) (l r : Value F64) (u v : Int) (hl : exactly l = some u) (hr : exactly r = some v)
    (hh : OneFloat l r → Held l ∧ Held r) : @Value.cmp F64 (rt64 b) l r = some (order u v) := by
  cases l with
  | int i =>
    cases r with
    | int j =>
      cases hl; cases hr
      show some (i64Cmp i j) = _
      rw [i64Cmp_order]
    | float g =>
      rw [cmp_int_float]
      exact cmp_value ((hh (.inr ⟨_, rfl⟩)).1.trans hl) hr
    | _ => cases hr
  | float f =>
    cases r with
    | int j => rw [cmp_float_int]; exact cmp_value hl ((hh (.inl ⟨_, rfl⟩)).2.trans hr)
    | float g => rw [cmp_float_float]; exact cmp_value hl hr
    | _ => cases hr
  | _ => cases hl

/-- C96: what `<` and `>` say of two finite numbers is true, and `<=` and `>=` say all that is true. -/
theorem c96_sound (b : Build) (l r : Value F64) (u v : Int) (hl : exactly l = some u) (hr : exactly r = some v) :
    (@Value.lt F64 (rt64 b) l r = true → u < v) ∧ (@Value.gt F64 (rt64 b) l r = true → v < u) ∧
    (u ≤ v → @Value.le F64 (rt64 b) l r = true) ∧ (v ≤ u → @Value.ge F64 (rt64 b) l r = true) := by
  have key : ∃ u' v', @Value.cmp F64 (rt64 b) l r = some (order u' v') ∧ (u ≤ v → u' ≤ v') ∧ (v ≤ u → v' ≤ u') := by
    cases l with
    | int i =>
      cases r with
      | int j =>
        cases hl; cases hr
        exact ⟨_, _, congrArg some (i64Cmp_order i j), id, id⟩
      | float g =>
        obtain ⟨w, hw⟩ := F64.ofInt_finite i
        cases hl
        exact ⟨w, v, (cmp_int_float b i g).trans (cmp_value hw hr), (F64.ofInt_between i hw hr).1, (F64.ofInt_between i hw hr).2⟩
      | _ => cases hr
    | float f =>
      cases r with
      | int j =>
        obtain ⟨w, hw⟩ := F64.ofInt_finite j
        cases hr
        exact ⟨u, w, (cmp_float_int b f j).trans (cmp_value hl hw), (F64.ofInt_between j hw hl).2, (F64.ofInt_between j hw hl).1⟩
      | float g => exact ⟨u, v, (cmp_float_float b f g).trans (cmp_value hl hr), id, id⟩
      | _ => cases hr
    | _ => cases hl
  obtain ⟨u', v', h1, h2, h3⟩ := key
  unfold Value.lt Value.gt Value.le Value.ge
  rw [h1]
  simp only [beq_iff_eq, Option.some.injEq, Bool.or_eq_true, order_lt, order_gt, order_eq]
  refine ⟨fun h => ?_, fun h => ?_, fun h => ?_, fun h => ?_⟩
  · exact Int.not_le.1 fun h' => by have := h3 h'; omega
  · exact Int.not_le.1 fun h' => by have := h2 h'; omega
  · have := h2 h; omega
  · have := h3 h; omega

/-- C96 is false: 9007199254740993 and 9007199254740992.0 are taken to be equal in order. -/
theorem c96_false : ¬ C96 := by
  intro h
  have hv : value (.fin false (2 ^ 52) 1075 (by decide)) = some (9007199254740992 * 2 ^ 1074) := by decide +kernel
  have h1 := h ⟨true, fun c => [c], fun l => l⟩ (.int 9007199254740993) (.float (.fin false (2 ^ 52) 1075 (by decide))) _ _ rfl hv
  have h2 : @Value.cmp F64 (rt64 ⟨true, fun c => [c], fun l => l⟩) (.int 9007199254740993) (.float (.fin false (2 ^ 52) 1075 (by decide))) = some .eq := by
    rw [cmp_int_float]
    decide +kernel
  rw [h2] at h1
  injection h1 with h1
  have := (order_eq _ _).1 h1.symm
  revert this
  decide +kernel

/-- The place of a float: below, among, or above the finite ones, with the value in units of 2^-1074. -/
def place : F64 → Option (Int × Int)
  | .nan => none
  | .inf neg => some (if neg then -1 else 1, 0)
  | f => (value f).map fun w => (0, w)

/-- Lexicographic order of places. -/
def before (a b : Int × Int) : Prop := a.1 < b.1 ∨ (a.1 = b.1 ∧ a.2 < b.2)

theorem cmp_place (f g : F64) (o : Ordering) : F64.cmp f g = some o → ∃ p q, place f = some p ∧
    place g = some q ∧ (o = .lt ↔ before p q) ∧ (o = .gt ↔ before q p) := by
  intro h
  cases f with
  | nan => cases g <;> cases h
  | inf s =>
    cases g with
    | nan => cases h
    | inf t => cases s <;> cases t <;> cases h <;> exact ⟨_, _, rfl, rfl, by simp [before], by simp [before]⟩
    | fin t n d hd => cases s <;> cases h <;> exact ⟨_, _, rfl, rfl, by simp [before], by simp [before]⟩
  | fin s m e hc =>
    cases g with
    | nan => cases h
    | inf t => cases t <;> cases h <;> exact ⟨_, _, rfl, rfl, by simp [before], by simp [before]⟩
    | fin t n d hd =>
      rw [cmp_value (F64.value_fin s m e hc) (F64.value_fin t n d hd)] at h
      cases h
      refine ⟨_, _, rfl, rfl, ?_, ?_⟩
      · rw [order_lt]
        simp only [before, Int.lt_irrefl, false_or, true_and]
        exact Iff.rfl
      · rw [order_gt]
        simp only [before, Int.lt_irrefl, false_or, true_and]
        exact Iff.rfl

theorem before_trans {p q r : Int × Int} (h : before p q) (h' : before q r) : before p r := by unfold before at *; omega

/-- Comparing floats is transitive. -/
theorem F64.cmp_trans {f g h : F64} (h1 : F64.cmp f g = some .lt ∨ F64.cmp f g = some .eq) (h2 : F64.cmp g h = some .lt ∨ F64.cmp g h = some .eq) :
    (F64.cmp f h = some .lt ∨ F64.cmp f h = some .eq) ∧ ((F64.cmp f g = some .lt ∨ F64.cmp g h = some .lt) → F64.cmp f h = some .lt) := by
  obtain ⟨o1, e1, n1⟩ : ∃ o, F64.cmp f g = some o ∧ o ≠ .gt := h1.elim (fun h => ⟨_, h, by simp⟩) (fun h => ⟨_, h, by simp⟩)
  obtain ⟨o2, e2, n2⟩ : ∃ o, F64.cmp g h = some o ∧ o ≠ .gt := h2.elim (fun h => ⟨_, h, by simp⟩) (fun h => ⟨_, h, by simp⟩)
  obtain ⟨p, q, hp, hq, a1, a2⟩ := cmp_place f g o1 e1
  obtain ⟨q', r, hq', hr, b1, b2⟩ := cmp_place g h o2 e2
  cases hq.symm.trans hq'
  have hn : f ≠ .nan ∧ h ≠ .nan := by
    constructor
    · rintro rfl; cases hp
    · rintro rfl; cases hr
  obtain ⟨o3, e3⟩ : ∃ o, F64.cmp f h = some o := by
    cases f with
    | nan => exact absurd rfl hn.1
    | inf s => cases h with
      | nan => exact absurd rfl hn.2
      | inf t => exact ⟨_, rfl⟩
      | fin => exact ⟨_, rfl⟩
    | fin => cases h with
      | nan => exact absurd rfl hn.2
      | inf t => exact ⟨_, rfl⟩
      | fin => exact ⟨_, rfl⟩
  obtain ⟨p', r', hp', hr', c1, c2⟩ := cmp_place f h o3 e3
  cases hp.symm.trans hp'
  cases hr.symm.trans hr'
  have g1 : ¬ before q p := fun h => n1 (a2.2 h)
  have g2 : ¬ before r q := fun h => n2 (b2.2 h)
  rw [e1, e2, e3]
  simp only [Option.some.injEq]
  constructor
  · have : o3 ≠ .gt := fun h => by have := c2.1 h; unfold before at *; omega
    cases o3 <;> simp_all
  · intro hlt
    refine c1.2 ?_
    rcases hlt with hlt | hlt
    · have := a1.1 hlt; unfold before at *; omega
    · have := b1.1 hlt; unfold before at *; omega

theorem strCmp_trans : ∀ (a b c : Str), strCmp a b ≠ .gt → strCmp b c ≠ .gt → strCmp a c ≠ .gt ∧ ((strCmp a b = .lt ∨ strCmp b c = .lt) → strCmp a c = .lt)
  | [], [], [], _, _ => by simp [strCmp]
  | [], [], _ :: _, _, _ => by simp [strCmp]
  | [], _ :: _, [], _, h => by simp [strCmp] at h
  | [], _ :: _, _ :: _, _, _ => by simp [strCmp]
  | _ :: _, [], _, h, _ => by simp [strCmp] at h
  | _ :: _, _ :: _, [], _, h => by simp [strCmp] at h
  | x :: a, y :: b, z :: c, h1, h2 => by
    have ih := strCmp_trans a b c
    simp only [strCmp] at *
    by_cases k1 : x.toNat < y.toNat
    · by_cases k2 : y.toNat < z.toNat
      · rw [if_pos (by omega)]; simp
      · rw [if_neg k2] at h2
        by_cases k3 : z.toNat < y.toNat
        · rw [if_pos k3] at h2; simp at h2
        · rw [if_pos (by omega)]; simp
    · rw [if_neg k1] at h1
      by_cases k2 : y.toNat < x.toNat
      · rw [if_pos k2] at h1; simp at h1
      · rw [if_neg k2] at h1
        by_cases k3 : y.toNat < z.toNat
        · rw [if_pos (by omega)]; simp
        · rw [if_neg k3] at h2
          by_cases k4 : z.toNat < y.toNat
          · rw [if_pos k4] at h2; simp at h2
          · rw [if_neg k4] at h2
            rw [if_neg (by omega), if_neg (by omega), if_neg k1, if_neg k2, if_neg k3, if_neg k4]
            exact ih h1 h2

/-- The float a number is compared as, if it is a number. -/
def standsFor : Value F64 → Option F64
  | .int i => some (F64.ofInt i)
  | .float f => some f
  | _ => none

theorem cmp_stands (b : Build) (l r : Value F64) (f g : F64) (hl : standsFor l = some f) (hr : standsFor r = some g) (h1 : OneFloat l r) :
    @Value.cmp F64 (rt64 b) l r = F64.cmp f g := by
  cases l with
  | int i =>
    cases hl
    cases r with
    | int j => rcases h1 with ⟨_, h⟩ | ⟨_, h⟩ <;> cases h
    | float => cases hr; exact cmp_int_float ..
    | _ => cases hr
  | float f =>
    cases hl
    cases r with
    | int j => cases hr; exact cmp_float_int ..
    | float => cases hr; exact cmp_float_float ..
    | _ => cases hr
  | _ => cases hl

/-- An integer comparison says no less than the comparison of the floats. -/
theorem cmp_ints (b : Build) (i j : Int64) : (@Value.cmp F64 (rt64 b) (.int i) (.int j) ≠ some .gt → F64.cmp (F64.ofInt i) (F64.ofInt j) ≠ some .gt) ∧
    ∃ o, F64.cmp (F64.ofInt i) (F64.ofInt j) = some o := by
  obtain ⟨w, hw⟩ := F64.ofInt_finite i
  obtain ⟨x, hx⟩ := F64.ofInt_finite j
  rw [cmp_value hw hx]
  refine ⟨fun h => ?_, _, rfl⟩
  have h1 : @Value.cmp F64 (rt64 b) (.int i) (.int j) = some (i64Cmp i j) := rfl
  rw [h1] at h
  have h2 : i.toInt ≤ j.toInt := by
    unfold i64Cmp at h
    split at h
    · omega
    · split at h
      · exact absurd rfl h
      · omega
  have := F64.ofInt_mono i j hw hx h2
  intro h3
  injection h3 with h3
  have := (order_gt _ _).1 h3
  omega

theorem related {b : Build} {x y : Value F64} {o : Ordering} (h : @Value.cmp F64 (rt64 b) x y = some o) :
    (∃ s t, x = .str s ∧ y = .str t ∧ o = strCmp s t) ∨ ∃ f g, standsFor x = some f ∧ standsFor y = some g := by
  cases x with
  | int i => cases y <;> first | exact .inr ⟨_, _, rfl, rfl⟩ | cases h
  | float i => cases y <;> first | exact .inr ⟨_, _, rfl, rfl⟩ | cases h
  | str s => cases y <;> first | (cases h; exact .inl ⟨_, _, rfl, rfl, rfl⟩) | cases h
  | _ => cases y <;> cases h

theorem float_or_ints {x y : Value F64} {f g : F64} (hx : standsFor x = some f) (hy : standsFor y = some g) : OneFloat x y ∨ ∃ i j, x = .int i ∧ y = .int j := by
  cases x with
  | int i => cases y with
    | int j => exact .inr ⟨i, j, rfl, rfl⟩
    | float g => exact .inl (.inr ⟨_, rfl⟩)
    | _ => cases hy
  | float f => exact .inl (.inl ⟨_, rfl⟩)
  | _ => cases hx

/-- Not greater, as numbers: then not greater as floats. -/
theorem weaken {b : Build} {x y : Value F64} {f g : F64} {o : Ordering} (hx : standsFor x = some f) (hy : standsFor y = some g)
    (h : @Value.cmp F64 (rt64 b) x y = some o) (hn : o ≠ .gt) : F64.cmp f g = some .lt ∨ F64.cmp f g = some .eq := by
  have key : ∃ o', F64.cmp f g = some o' ∧ o' ≠ .gt := by
    rcases float_or_ints hx hy with h1 | ⟨i, j, rfl, rfl⟩
    · exact ⟨o, by rw [← cmp_stands b x y f g hx hy h1, h], hn⟩
    · cases hx; cases hy
      obtain ⟨h2, o', h3⟩ := cmp_ints b i j
      exact ⟨o', h3, fun e => h2 (by rw [h]; simpa using hn) (by rw [h3, e])⟩
  obtain ⟨o', h1, h2⟩ := key
  rw [h1]
  cases o' <;> simp_all

/-- The three numbers are: an integer, a float, and a smaller integer that the float cannot tell from the first. -/
def Blurred (x y z : Value F64) : Prop := ∃ i k f, x = .int i ∧ y = .float f ∧ z = .int k ∧ k.toInt < i.toInt ∧ F64.cmp (F64.ofInt i) f = some .eq ∧ F64.cmp f (F64.ofInt k) = some .eq

/-- C96: `<=` is transitive exactly up to such three numbers. -/
theorem c96_le_trans_partial (b : Build) (x y z : Value F64) (h1 : @Value.le F64 (rt64 b) x y = true) (h2 : @Value.le F64 (rt64 b) y z = true) :
    @Value.le F64 (rt64 b) x z = true ↔ ¬ Blurred x y z := by
  unfold Value.le at *
  simp only [Bool.or_eq_true, beq_iff_eq] at *
  obtain ⟨o1, e1, n1⟩ : ∃ o, @Value.cmp F64 (rt64 b) x y = some o ∧ o ≠ .gt := h1.elim (fun h => ⟨_, h, by simp⟩) (fun h => ⟨_, h, by simp⟩)
  obtain ⟨o2, e2, n2⟩ : ∃ o, @Value.cmp F64 (rt64 b) y z = some o ∧ o ≠ .gt := h2.elim (fun h => ⟨_, h, by simp⟩) (fun h => ⟨_, h, by simp⟩)
  constructor
  · rintro h ⟨i, k, f, rfl, rfl, rfl, hlt, _, _⟩
    have : @Value.cmp F64 (rt64 b) (.int i) (.int k) = some .gt := by
      show some (i64Cmp i k) = _
      unfold i64Cmp
      rw [if_neg (by omega), if_pos hlt]
    rw [this] at h
    simp at h
  · intro hb
    rcases related e1 with ⟨s, t, rfl, rfl, rfl⟩ | ⟨f, g, hf, hg⟩
    · rcases related e2 with ⟨_, r, e, rfl, rfl⟩ | ⟨_, _, h, _⟩
      · cases e
        have := (strCmp_trans s t r n1 n2).1
        have e3 : @Value.cmp F64 (rt64 b) (.str s) (.str r) = some (strCmp s r) := rfl
        rw [e3]
        cases hs : strCmp s r <;> simp_all
      · cases h
    · rcases related e2 with ⟨_, r, e, _, _⟩ | ⟨g', h, hg', hh⟩
      · rw [e] at hg; cases hg
      · cases hg.symm.trans hg'
        have w1 := weaken hf hg e1 n1
        have w2 := weaken hg hh e2 n2
        have w3 := F64.cmp_trans w1 w2
        rcases float_or_ints hf hh with ho | ⟨i, k, rfl, rfl⟩
        · rw [cmp_stands b x z f h hf hh ho]
          exact w3.1
        · cases hf; cases hh
          have e3 : @Value.cmp F64 (rt64 b) (.int i) (.int k) = some (i64Cmp i k) := rfl
          rw [e3]
          rcases Int.lt_or_le k.toInt i.toInt with hlt | hge
          · exfalso
            cases y with
            | int j =>
              have a1 : @Value.cmp F64 (rt64 b) (.int i) (.int j) = some (i64Cmp i j) := rfl
              have a2 : @Value.cmp F64 (rt64 b) (.int j) (.int k) = some (i64Cmp j k) := rfl
              rw [a1] at e1; rw [a2] at e2
              injection e1 with e1; injection e2 with e2
              subst e1 e2
              unfold i64Cmp at n1 n2
              split at n1
              · split at n2
                · omega
                · split at n2
                  · exact n2 rfl
                  · omega
              · split at n1
                · exact n1 rfl
                · split at n2
                  · omega
                  · split at n2
                    · exact n2 rfl
                    · omega
            | float m =>
              cases hg
              refine hb ⟨i, k, _, rfl, rfl, rfl, hlt, ?_, ?_⟩
              · rcases w1 with w1 | w1
                · exfalso
                  have := w3.2 (.inl w1)
                  obtain ⟨p, hp⟩ := F64.ofInt_finite i
                  obtain ⟨q, hq⟩ := F64.ofInt_finite k
                  rw [cmp_value hp hq] at this
                  injection this with this
                  have h5 := (order_lt _ _).1 this
                  have h6 := F64.ofInt_mono k i hq hp (by omega)
                  omega
                · exact w1
              · rcases w2 with w2 | w2
                · exfalso
                  have := w3.2 (.inr w2)
                  obtain ⟨p, hp⟩ := F64.ofInt_finite i
                  obtain ⟨q, hq⟩ := F64.ofInt_finite k
                  rw [cmp_value hp hq] at this
                  injection this with this
                  have h5 := (order_lt _ _).1 this
                  have h6 := F64.ofInt_mono k i hq hp (by omega)
                  omega
                · exact w2
            | _ => cases hg
          · unfold i64Cmp
            split
            · exact .inl rfl
            · rw [if_neg (by omega)]; exact .inr rfl

/-- C96: `<` is transitive, with numbers of both kinds and with texts. -/
theorem c96_lt_trans (b : Build) (x y z : Value F64) (h1 : @Value.lt F64 (rt64 b) x y = true) (h2 : @Value.lt F64 (rt64 b) y z = true) :
    @Value.lt F64 (rt64 b) x z = true := by
  unfold Value.lt at *
  simp only [beq_iff_eq] at *
  rcases related h1 with ⟨s, t, rfl, rfl, e1⟩ | ⟨f, g, hf, hg⟩
  · rcases related h2 with ⟨_, r, e, rfl, e2⟩ | ⟨_, _, h, _⟩
    · cases e
      exact congrArg some ((strCmp_trans s t r (by rw [← e1]; simp) (by rw [← e2]; simp)).2 (.inl e1.symm))
    · cases h
  · rcases related h2 with ⟨_, r, e, _, _⟩ | ⟨g', h, hg', hh⟩
    · rw [e] at hg; cases hg
    · cases hg.symm.trans hg'
      have w1 := weaken hf hg h1 (by simp)
      have w2 := weaken hg hh h2 (by simp)
      have w3 := F64.cmp_trans w1 w2
      rcases float_or_ints hf hh with ho | ⟨i, k, rfl, rfl⟩
      · rw [cmp_stands b x z f h hf hh ho]
        cases y with
        | int j =>
          rcases ho with ⟨m, rfl⟩ | ⟨m, rfl⟩
          · refine w3.2 (.inl ?_)
            rw [← cmp_stands b _ _ f g hf hg (.inl ⟨_, rfl⟩)]
            exact h1
          · refine w3.2 (.inr ?_)
            rw [← cmp_stands b _ _ g h hg hh (.inr ⟨_, rfl⟩)]
            exact h2
        | float m =>
          refine w3.2 (.inl ?_)
          rw [← cmp_stands b _ _ f g hf hg (.inr ⟨_, rfl⟩)]
          exact h1
        | _ => cases hg
      · cases hf; cases hh
        show some (i64Cmp i k) = _
        cases y with
        | int j =>
          have a1 : i64Cmp i j = .lt := by injection h1
          have a2 : i64Cmp j k = .lt := by injection h2
          unfold i64Cmp at *
          split at a1
          · split at a2
            · rw [if_pos (by omega)]
            · split at a2 <;> cases a2
          · split at a1 <;> cases a1
        | float m =>
          cases hg
          have : F64.cmp (F64.ofInt i) (F64.ofInt k) = some .lt := w3.2 (.inl (by rw [← cmp_stands b (.int i) (.float _) _ _ rfl rfl (.inr ⟨_, rfl⟩)]; exact h1))
          obtain ⟨p, hp⟩ := F64.ofInt_finite i
          obtain ⟨q, hq⟩ := F64.ofInt_finite k
          rw [cmp_value hp hq] at this
          injection this with this
          have h5 := (order_lt _ _).1 this
          rcases Int.lt_or_le i.toInt k.toInt with hlt | hge
          · unfold i64Cmp; rw [if_pos hlt]
          · have h6 := F64.ofInt_mono k i hq hp hge
            omega
        | _ => cases hg

/-- C96: `<=` is not transitive: 9007199254740993 <= 9007199254740992.0 and 9007199254740992.0 <= 9007199254740992, but not 9007199254740993 <=
9007199254740992. -/
theorem c96_not_transitive (b : Build) : ∃ x y z : Value F64, @Value.le F64 (rt64 b) x y = true ∧ @Value.le F64 (rt64 b) y z = true ∧ @Value.le F64 (rt64 b) x z = false := by
  refine ⟨.int 9007199254740993, .float (.fin false (2 ^ 52) 1075 (by decide)), .int 9007199254740992, ?_, ?_, ?_⟩
  · unfold Value.le
    have : @Value.cmp F64 (rt64 b) (.int 9007199254740993) (.float (.fin false (2 ^ 52) 1075 (by decide))) = some .eq := by
      rw [cmp_int_float]
      decide +kernel
    rw [this]; rfl
  · unfold Value.le
    have : @Value.cmp F64 (rt64 b) (.float (.fin false (2 ^ 52) 1075 (by decide))) (.int 9007199254740992) = some .eq := by
      rw [cmp_float_int]
      decide +kernel
    rw [this]; rfl
  · rfl

/-- Concrete case of `c96_lt_trans`: an integer below a float below an integer. -/
example (b : Build) : @Value.lt F64 (rt64 b) (.int 1) (.float (F64.ofDecimal false 15 (-1))) = true ∧ @Value.lt F64 (rt64 b) (.float (F64.ofDecimal false 15 (-1))) (.int 2) = true := by
  constructor
  · unfold Value.lt
    rw [cmp_int_float]
    decide +kernel
  · unfold Value.lt
    rw [cmp_float_int]
    decide +kernel

end Am
