import Verif.Spec.Basic
/-! # Decimal digit strings -/
set_option linter.unusedSimpArgs false
namespace Am
open Spec

theorem digitsVal_foldl (s : Str) : ∀ a, s.foldl (fun a c => a * 10 + digitVal c) a = a * 10 ^ s.length + decimal s := by
  induction s with
  | nil => intro a; simp [decimal]
  | cons c s ih =>
    intro a
    rw [List.foldl_cons, ih, List.length_cons, Nat.pow_succ]
    show _ = _ + (digitVal c * 10 ^ s.length + decimal s)
    rw [Nat.add_mul, Nat.mul_assoc, Nat.mul_comm 10]
    omega

theorem digitsVal_eq (s : Str) : digitsVal s = decimal s := by
  have := digitsVal_foldl s 0
  simpa [digitsVal] using this

theorem parseUnsigned_digits (max : Nat) {l : Str} (hne : l ≠ []) (hd : ∀ c ∈ l, isDigit c = true) :
    parseUnsigned max l = if decimal l ≤ max then some (decimal l) else none := by
  have hall : l.all isDigit = true := by rw [List.all_eq_true]; exact hd
  have he : l.isEmpty = false := by cases l with
    | nil => exact absurd rfl hne
    | cons c r => rfl
  unfold parseUnsigned
  split
  · rename_i r
    have := hd '+' List.mem_cons_self
    exact absurd this (by decide)
  · simp [hall, he, digitsVal_eq]

/-- Digits after an optional plus sign, and nothing else, are accepted. -/
theorem parseUnsigned_some {max : Nat} {l : Str} {n : Nat} (h : parseUnsigned max l = some n) :
    ∃ ds, (l = ds ∨ l = '+' :: ds) ∧ ds ≠ [] ∧ (∀ c ∈ ds, isDigit c = true) ∧ n = decimal ds ∧ n ≤ max := by
  have key : ∀ ds : Str, (if (ds.isEmpty || !ds.all isDigit) = true then none else if digitsVal ds ≤ max then some (digitsVal ds) else none) = some n →
      ds ≠ [] ∧ (∀ c ∈ ds, isDigit c = true) ∧ n = decimal ds ∧ n ≤ max := by
    intro ds h
    split at h
    · cases h
    · rename_i hb
      split at h
      · rename_i hm
        simp at h
        simp at hb
        refine ⟨hb.1, hb.2, by rw [← h, digitsVal_eq], by omega⟩
      · cases h
  unfold parseUnsigned at h
  split at h
  · exact ⟨_, Or.inr rfl, key _ h⟩
  · exact ⟨_, Or.inl rfl, key _ h⟩

theorem decimal_append (a b : Str) : decimal (a ++ b) = decimal a * 10 ^ b.length + decimal b := by
  rw [← digitsVal_eq, digitsVal, List.foldl_append, digitsVal_foldl]
  rw [show a.foldl (fun a c => a * 10 + digitVal c) 0 = decimal a from digitsVal_eq a]

theorem digitChar_digit : ∀ {d : Nat}, d < 10 → isDigit (digitChar d) = true ∧ (digitChar d).toNat = 48 + d := by decide

theorem natStrAux_spec : ∀ (f n : Nat), n < f → natStrAux f n ≠ [] ∧ (∀ c ∈ natStrAux f n, isDigit c = true) ∧ decimal (natStrAux f n) = n := by
  intro f
  induction f with
  | zero => intro n h; omega
  | succ f ih =>
    intro n h
    rw [natStrAux]
    split
    · rename_i hn
      obtain ⟨h1, h2⟩ := digitChar_digit hn
      refine ⟨by simp, by simpa using h1, ?_⟩
      simp only [decimal, h2, List.length_nil]
      omega
    · rename_i hn
      obtain ⟨g1, g2, g3⟩ := ih (n / 10) (by omega)
      obtain ⟨h1, h2⟩ := digitChar_digit (show n % 10 < 10 by omega)
      refine ⟨by simp, ?_, ?_⟩
      · intro c hc
        rcases List.mem_append.1 hc with hc | hc
        · exact g2 c hc
        · rw [List.mem_singleton] at hc; subst hc; exact h1
      · rw [decimal_append, g3]
        simp only [decimal, h2, List.length_nil, List.length_cons]
        omega

theorem natStr_ne_nil (n : Nat) : natStr n ≠ [] := (natStrAux_spec _ n (Nat.lt_succ_self n)).1

theorem natStr_digits (n : Nat) : ∀ c ∈ natStr n, isDigit c = true := (natStrAux_spec _ n (Nat.lt_succ_self n)).2.1

theorem decimal_natStr (n : Nat) : decimal (natStr n) = n := (natStrAux_spec _ n (Nat.lt_succ_self n)).2.2

theorem natStr_inj {n m : Nat} (h : natStr n = natStr m) : n = m := by rw [← decimal_natStr n, h, decimal_natStr]

end Am
