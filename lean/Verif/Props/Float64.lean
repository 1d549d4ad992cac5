import Verif.Proofs.FloatOps
import Verif.Props.Values
/-! # Arithmetic with floats (C94)

The model of `f64` is `rt64`, and the specification is that of IEEE 754: the exact result, rounded to the nearest float, ties to even. An integer in an
operation with a float is rounded first (`as f64`), which is where the exact result can be lost. -/
set_option linter.unusedSimpArgs false
set_option linter.unusedSectionVars false
set_option exponentiation.threshold 100
namespace Am
open Spec

/-! ## C94 -/

theorem F64.stands_int {i : Int64} {f : F64} (h : Stands (.int i) f) : f = F64.ofInt i := by
  cases h with
  | int _ _ h => exact F64.nearest_unique (by decide) h (F64.ofInt_nearest i)

theorem F64.stands_float {g f : F64} (h : Stands (.float g) f) : f = g := by cases h; rfl

/-- A number stands for exactly one float. -/
theorem c94_stands (v : Value F64) (f g : F64) (hf : Stands v f) (hg : Stands v g) : f = g := by
  cases hf with
  | float => exact (F64.stands_float hg).symm
  | int i _ h => exact (F64.stands_int (.int i f h)).trans (F64.stands_int hg).symm

/-- C94: `+` on two numbers of which one is a float gives the float nearest to the sum. -/
theorem c94_add (b : Build) (l r : Value F64) (f g : F64) (hl : Stands l f) (hr : Stands r g) (h1 : OneFloat l r) (v : Value F64) :
    @Value.add F64 (rt64 b) l r = .ok v ↔ ∃ h, v = .float h ∧ Sum f g h := by
  have key : @Value.add F64 (rt64 b) l r = .ok (.float (F64.add f g)) := by
    cases l with
    | float a =>
      cases r with
      | float c => rw [F64.stands_float hl, F64.stands_float hr]; rfl
      | int j => rw [F64.stands_float hl, F64.stands_int hr]; rfl
      | _ => cases hr
    | int i =>
      cases r with
      | float c => rw [F64.stands_int hl, F64.stands_float hr]; rfl
      | int j => rcases h1 with ⟨_, h⟩ | ⟨_, h⟩ <;> cases h
      | _ => cases hr
    | _ => cases hl
  rw [key]
  constructor
  · intro h; injection h with h; exact ⟨_, h.symm, F64.add_sum f g⟩
  · rintro ⟨h, rfl, hs⟩; rw [F64.sum_unique (F64.add_sum f g) hs]

/-- C94: `-`. -/
theorem c94_sub (b : Build) (l r : Value F64) (f g : F64) (hl : Stands l f) (hr : Stands r g) (h1 : OneFloat l r) (v : Value F64) :
    @Value.sub F64 (rt64 b) l r = .ok v ↔ ∃ h, v = .float h ∧ Difference f g h := by
  have key : @Value.sub F64 (rt64 b) l r = .ok (.float (F64.sub f g)) := by
    cases l with
    | float a =>
      cases r with
      | float c => rw [F64.stands_float hl, F64.stands_float hr]; rfl
      | int j => rw [F64.stands_float hl, F64.stands_int hr]; rfl
      | _ => cases hr
    | int i =>
      cases r with
      | float c => rw [F64.stands_int hl, F64.stands_float hr]; rfl
      | int j => rcases h1 with ⟨_, h⟩ | ⟨_, h⟩ <;> cases h
      | _ => cases hr
    | _ => cases hl
  rw [key]
  constructor
  · intro h; injection h with h; exact ⟨_, h.symm, F64.sub_difference f g⟩
  · rintro ⟨h, rfl, hs⟩; rw [F64.difference_unique (F64.sub_difference f g) hs]

/-- C94: `*`. -/
theorem c94_mul (b : Build) (l r : Value F64) (f g : F64) (hl : Stands l f) (hr : Stands r g) (h1 : OneFloat l r) (v : Value F64) :
    @Value.mul F64 (rt64 b) l r = .ok v ↔ ∃ h, v = .float h ∧ Product f g h := by
  have key : @Value.mul F64 (rt64 b) l r = .ok (.float (F64.mul f g)) := by
    cases l with
    | float a =>
      cases r with
      | float c => rw [F64.stands_float hl, F64.stands_float hr]; rfl
      | int j => rw [F64.stands_float hl, F64.stands_int hr]; rfl
      | _ => cases hr
    | int i =>
      cases r with
      | float c => rw [F64.stands_int hl, F64.stands_float hr]; rfl
      | int j => rcases h1 with ⟨_, h⟩ | ⟨_, h⟩ <;> cases h
      | _ => cases hr
    | _ => cases hl
  rw [key]
  constructor
  · intro h; injection h with h; exact ⟨_, h.symm, F64.mul_product f g⟩
  · rintro ⟨h, rfl, hs⟩; rw [F64.product_unique (F64.mul_product f g) hs]

/-- C94: `/`. A float divided by zero is no error. -/
theorem c94_div (b : Build) (l r : Value F64) (f g : F64) (hl : Stands l f) (hr : Stands r g) (h1 : OneFloat l r) (v : Value F64) :
    @Value.div F64 (rt64 b) l r = .ok v ↔ ∃ h, v = .float h ∧ Ratio f g h := by
  have key : @Value.div F64 (rt64 b) l r = .ok (.float (F64.div f g)) := by
    cases l with
    | float a =>
      cases r with
      | float c => rw [F64.stands_float hl, F64.stands_float hr]; rfl
      | int j => rw [F64.stands_float hl, F64.stands_int hr]; rfl
      | _ => cases hr
    | int i =>
      cases r with
      | float c => rw [F64.stands_int hl, F64.stands_float hr]; rfl
      | int j => rcases h1 with ⟨_, h⟩ | ⟨_, h⟩ <;> cases h
      | _ => cases hr
    | _ => cases hl
  rw [key]
  constructor
  · intro h; injection h with h; exact ⟨_, h.symm, F64.div_ratio f g⟩
  · rintro ⟨h, rfl, hs⟩; rw [F64.ratio_unique (F64.div_ratio f g) hs]

/-- C94: `%`. The remainder of two floats is exact. -/
theorem c94_rem (b : Build) (l r : Value F64) (f g : F64) (hl : Stands l f) (hr : Stands r g) (h1 : OneFloat l r) (v : Value F64) :
    @Value.rem F64 (rt64 b) l r = .ok v ↔ ∃ h, v = .float h ∧ Remainder f g h := by
  have key : @Value.rem F64 (rt64 b) l r = .ok (.float (F64.rem f g)) := by
    cases l with
    | float a =>
      cases r with
      | float c => rw [F64.stands_float hl, F64.stands_float hr]; rfl
      | int j => rw [F64.stands_float hl, F64.stands_int hr]; rfl
      | _ => cases hr
    | int i =>
      cases r with
      | float c => rw [F64.stands_int hl, F64.stands_float hr]; rfl
      | int j => rcases h1 with ⟨_, h⟩ | ⟨_, h⟩ <;> cases h
      | _ => cases hr
    | _ => cases hl
  rw [key]
  constructor
  · intro h; injection h with h; exact ⟨_, h.symm, F64.rem_remainder f g⟩
  · rintro ⟨h, rfl, hs⟩; rw [F64.remainder_unique (F64.rem_remainder f g) hs]

/-- C94: a minus sign in front of a float changes its sign and nothing else. -/
theorem c94_neg (f : F64) : (∀ u, value f = some u → value f.neg = some (-u)) ∧ (f ≠ .nan → negative f.neg = !negative f) ∧ (f = .nan ↔ f.neg = .nan) ∧
    ∀ s, f = .inf s ↔ f.neg = .inf (!s) := by
  refine ⟨fun u h => by rw [F64.value_neg, h]; rfl, F64.negative_neg f, ?_, fun s => ?_⟩
  · cases f <;> simp [F64.neg]
  · cases f <;> simp [F64.neg]

/-- The results of the five operations on `l` and `r` are those of the exact values `u` and `v`, rounded once. -/
def NearestResults (b : Build) (l r : Value F64) (u v : Int) : Prop :=
  (∀ w, @Value.add F64 (rt64 b) l r = .ok w → ∃ h, w = .float h ∧ Rounds (u + v) 1 h) ∧
  (∀ w, @Value.sub F64 (rt64 b) l r = .ok w → ∃ h, w = .float h ∧ Rounds (u - v) 1 h) ∧
  (∀ w, @Value.mul F64 (rt64 b) l r = .ok w → ∃ h, w = .float h ∧ Rounds (u * v) (2 ^ 1074) h) ∧
  (v ≠ 0 → ∀ w, @Value.div F64 (rt64 b) l r = .ok w → ∃ h, w = .float h ∧ Rounds (u * 2 ^ 1074 * v.sign) v.natAbs h) ∧
  (v ≠ 0 → ∀ w, @Value.rem F64 (rt64 b) l r = .ok w → ∃ h, w = .float h ∧ value h = some (u.tmod v))

/-- C94, the full claim: an operation on numbers of which one is a float gives the float nearest to the exact result. -/
def C94 : Prop := ∀ (b : Build) (l r : Value F64) (u v : Int), exactly l = some u → exactly r = some v → OneFloat l r → NearestResults b l r u v

/-- Integers that a float can hold exactly: among others all up to 2^53. -/
def Held : Value F64 → Prop
  | .int i => value (F64.ofInt i) = some (i.toInt * 2 ^ 1074)
  | _ => True

theorem c94_held (i : Int64) (h : i.toInt.natAbs ≤ 2 ^ 53) : Held (.int i) := F64.ofInt_exact i h

theorem exactly_stands {l : Value F64} {u : Int} (h : exactly l = some u) (hh : Held l) : ∃ f, Stands l f ∧ value f = some u := by
  cases l with
  | int i => exact ⟨_, .int i _ (F64.ofInt_nearest i), hh.trans h⟩
  | float f => exact ⟨f, .float f, h⟩
  | _ => cases h

/-- C94 (partial): the result is the float nearest to the exact result whenever the integers involved are floats, in particular up to 2^53. Missing: other
integers, for which it is false (`c94_false`). -/
theorem c94_nearest_partial (b : Build) (l r : Value F64) (u v : Int) (hl : exactly l = some u) (hr : exactly r = some v) (h1 : OneFloat l r) (hl' : Held l) (hr' : Held r) :
    NearestResults b l r u v := by
  obtain ⟨f, sf, hf⟩ := exactly_stands hl hl'
  obtain ⟨g, sg, hg⟩ := exactly_stands hr hr'
  refine ⟨fun w h => ?_, fun w h => ?_, fun w h => ?_, fun h0 w h => ?_, fun h0 w h => ?_⟩
  · obtain ⟨x, hx, hs⟩ := (c94_add b l r f g sf sg h1 w).1 h
    refine ⟨x, hx, ?_⟩
    cases hs with
    | finite _ _ _ u' v' hu' hv' hn => cases hf.symm.trans hu'; cases hg.symm.trans hv'; exact hn.1
    | left => cases hf
    | right => cases hg
    | clash => cases hf
    | nanLeft => cases hf
    | nanRight => cases hg
  · obtain ⟨x, hx, hs⟩ := (c94_sub b l r f g sf sg h1 w).1 h
    refine ⟨x, hx, ?_⟩
    cases hs with
    | finite _ _ _ u' v' hu' hv' hn => cases hf.symm.trans hu'; cases hg.symm.trans hv'; exact hn.1
    | left => cases hf
    | right => cases hg
    | clash => cases hf
    | nanLeft => cases hf
    | nanRight => cases hg
  · obtain ⟨x, hx, hs⟩ := (c94_mul b l r f g sf sg h1 w).1 h
    refine ⟨x, hx, ?_⟩
    cases hs with
    | finite _ _ _ u' v' hu' hv' hn => cases hf.symm.trans hu'; cases hg.symm.trans hv'; exact hn.1
    | left => cases hf
    | right => cases hg
    | zeroRight => cases hf
    | zeroLeft => cases hg
    | nanLeft => cases hf
    | nanRight => cases hg
  · obtain ⟨x, hx, hs⟩ := (c94_div b l r f g sf sg h1 w).1 h
    refine ⟨x, hx, ?_⟩
    cases hs with
    | finite _ _ _ u' v' hu' hv' _ hn => cases hf.symm.trans hu'; cases hg.symm.trans hv'; exact hn.1
    | byZero _ _ _ _ _ h => cases hg.symm.trans h; exact absurd rfl h0
    | zeros _ _ _ h => cases hg.symm.trans h; exact absurd rfl h0
    | left => cases hf
    | right => cases hg
    | infinities => cases hf
    | nanLeft => cases hf
    | nanRight => cases hg
  · obtain ⟨x, hx, hs⟩ := (c94_rem b l r f g sf sg h1 w).1 h
    refine ⟨x, hx, ?_⟩
    cases hs with
    | finite _ _ _ u' v' hu' hv' _ hn => cases hf.symm.trans hu'; cases hg.symm.trans hv'; exact hn
    | byZero _ _ h => cases hg.symm.trans h; exact absurd rfl h0
    | byInf => cases hg
    | left => cases hf
    | nanLeft => cases hf
    | nanRight => cases hg

/-- 1.0 -/
def F64.onef : F64 := .fin false (2 ^ 52) 1022 (by decide)

/-- Concrete case: 0.1 + 0.2, printed. -/
example (b : Build) : ∃ x y z, @Rt.fparse F64 (rt64 b) c!"0.1" = some x ∧ @Rt.fparse F64 (rt64 b) c!"0.2" = some y ∧ @Value.add F64 (rt64 b) (.float x) (.float y) = .ok (.float z) ∧
    @Value.display F64 (rt64 b) (.float z) = c!"0.30000000000000004" := by
  refine ⟨F64.ofDecimal false 1 (-1), F64.ofDecimal false 2 (-1), F64.add (F64.ofDecimal false 1 (-1)) (F64.ofDecimal false 2 (-1)), ?_, ?_, rfl, ?_⟩
  · show F64.parse c!"0.1" = some (F64.ofDecimal false 1 (-1))
    decide +kernel
  · show F64.parse c!"0.2" = some (F64.ofDecimal false 2 (-1))
    decide +kernel
  · show F64.disp (F64.add (F64.ofDecimal false 1 (-1)) (F64.ofDecimal false 2 (-1))) = c!"0.30000000000000004"
    decide +kernel

/-- Concrete case: the integer 3 divided by the float 2.0, and by zero. -/
example (b : Build) : @Value.div F64 (rt64 b) (.int 3) (.float (F64.ofDecimal false 2 0)) = .ok (.float (F64.ofDecimal false 15 (-1))) ∧
    @Value.div F64 (rt64 b) (.int 3) (.float (F64.zero true)) = .ok (.float (.inf true)) := by
  constructor
  · exact congrArg (fun f => Res.ok (Value.float f)) (by decide +kernel : F64.div (F64.ofInt 3) (F64.ofDecimal false 2 0) = F64.ofDecimal false 15 (-1))
  · exact congrArg (fun f => Res.ok (Value.float f)) (by decide +kernel : F64.div (F64.ofInt 3) (F64.zero true) = .inf true)

/-- C94 is false: 9007199254740993 + 1.0 gives 9007199254740992.0 instead of 9007199254740994.0, because the integer is rounded before it is added. -/
theorem c94_false : ¬ C94 := by
  intro h
  have hv : value F64.onef = some (1 * 2 ^ 1074) := by decide +kernel
  obtain ⟨x, hx, hr⟩ := (h ⟨true, fun c => [c], fun l => l⟩ (.int 9007199254740993) (.float F64.onef) _ _ rfl hv (.inr ⟨_, rfl⟩)).1 _ rfl
  injection hx with hx
  have hg : value (.fin false (2 ^ 52 + 1) 1075 (by decide)) = some (9007199254740994 * 2 ^ 1074) := by decide +kernel
  have hf : x = .fin false (2 ^ 52) 1075 (by decide) := by rw [← hx]; decide +kernel
  subst hf
  cases hr with
  | near _ u _ hu near _ =>
    have := near _ _ hg
    have hu2 : value (.fin false (2 ^ 52) 1075 (by decide)) = some (9007199254740992 * 2 ^ 1074) := by decide +kernel
    cases hu.symm.trans hu2
    revert this
    unfold off
    decide +kernel

end Am
