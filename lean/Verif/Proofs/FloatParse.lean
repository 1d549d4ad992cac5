import Verif.Proofs.FloatText
/-! # Reading and printing floats -/
set_option linter.unusedSimpArgs false
namespace Am
open Spec
namespace F64

/-! ## Reading -/

theorem digit_not_letter {c : Char} (h : isDigit c = true) : lower c = c ∧ c ≠ '-' ∧ c ≠ '+' ∧ c ≠ '.' ∧ c ≠ 'i' ∧ c ≠ 'n' ∧ c ≠ 'e' ∧ c ≠ 'E' := by
  have h1 : '0' ≤ c ∧ c ≤ '9' := by simpa [isDigit] using h
  have h2 : 48 ≤ c.toNat ∧ c.toNat ≤ 57 := ⟨h1.1, h1.2⟩
  have ne : ∀ d : Char, (d.toNat < 48 ∨ 57 < d.toNat) → c ≠ d := fun d hd e => by subst e; omega
  refine ⟨?_, ne _ (by decide), ne _ (by decide), ne _ (by decide), ne _ (by decide), ne _ (by decide), ne _ (by decide), ne _ (by decide)⟩
  unfold lower
  rw [if_neg]
  intro h
  have : 65 ≤ c.toNat := h.1
  omega

theorem exponent_start {x : Str} {k : Int} (h : Exponent x k) (a : Char) (r : Str) (hr : x = a :: r) : isDigit a = false ∧ a ≠ '.' := by
  subst hr
  cases h with
  | plain _ _ he => rcases he with rfl | rfl <;> exact ⟨by decide, by decide⟩
  | plus _ _ he => rcases he with rfl | rfl <;> exact ⟨by decide, by decide⟩
  | minus _ _ he => rcases he with rfl | rfl <;> exact ⟨by decide, by decide⟩

theorem sign_digits {a : Str} (h : ∀ c ∈ a, isDigit c = true) : sign a = (false, a) := by
  cases a with
  | nil => rfl
  | cons c r =>
    obtain ⟨_, h1, h2, _⟩ := digit_not_letter (h c (List.mem_cons_self ..))
    unfold sign
    split
    · rename_i e; injection e with e _; exact absurd e h1
    · rename_i e; injection e with e _; exact absurd e h2
    · rfl

theorem exponent_digits {a : Str} (hne : a ≠ []) (h : ∀ c ∈ a, isDigit c = true) : exponent a = some (decimal a : Int) ∧
    exponent ('+' :: a) = some (decimal a : Int) ∧ exponent ('-' :: a) = some (-(decimal a : Int)) := by
  have hall : a.all isDigit = true := List.all_eq_true.2 h
  refine ⟨?_, ?_, ?_⟩
  · unfold exponent; rw [sign_digits h]; dsimp only; rw [if_pos ⟨hne, hall⟩, digitsVal_eq]; rfl
  · unfold exponent; rw [show sign ('+' :: a) = (false, a) from rfl]; dsimp only; rw [if_pos ⟨hne, hall⟩, digitsVal_eq]; rfl
  · unfold exponent; rw [show sign ('-' :: a) = (true, a) from rfl]; dsimp only; rw [if_pos ⟨hne, hall⟩, digitsVal_eq]; rfl

/-- What follows the digits. -/
theorem suffix_reads {x : Str} {k : Int} (h : Exponent x k) : suffix x = some k := by
  unfold suffix
  cases h with
  | none => rfl
  | plain e a he hne hd => dsimp only; rw [if_pos he, (exponent_digits hne hd).1]
  | plus e a he hne hd => dsimp only; rw [if_pos he, (exponent_digits hne hd).2.1]
  | minus e a he hne hd => dsimp only; rw [if_pos he, (exponent_digits hne hd).2.2]

theorem number_reads (neg : Bool) {a x : Str} {d n : Nat} {k : Int} (ha : Mantissa a d n) (hx : Exponent x k) :
    number neg (a ++ x) = some (ofDecimal neg d (k - n)) := by
  cases ha with
  | whole _ hne hd =>
    unfold number
    rw [takeWhile_append_stop _ a x hd fun c r e => (exponent_start hx c r e).1, dropWhile_append_stop _ a x hd fun c r e => (exponent_start hx c r e).1]
    have hm : fraction x = ([], x) := by
      unfold fraction
      split
      · rename_i t; exact absurd rfl (exponent_start hx '.' t rfl).2
      · rfl
    rw [hm]
    dsimp only
    rw [if_neg (fun h => hne h.1), List.append_nil, digitsVal_eq, suffix_reads hx]
    rfl
  | point a b hne hd =>
    unfold number
    have hda : ∀ c ∈ a, isDigit c = true := fun c hc => hd c (List.mem_append_left _ hc)
    have hdb : ∀ c ∈ b, isDigit c = true := fun c hc => hd c (List.mem_append_right _ hc)
    rw [List.append_assoc, takeWhile_append_stop _ a (('.' :: b) ++ x) hda fun c r e => by injection e with e _; subst e; rfl,
      dropWhile_append_stop _ a (('.' :: b) ++ x) hda fun c r e => by injection e with e _; subst e; rfl]
    have hm : fraction (('.' :: b) ++ x) = ((b ++ x).takeWhile isDigit, (b ++ x).dropWhile isDigit) := rfl
    dsimp only
    rw [hm]
    dsimp only
    rw [takeWhile_append_stop _ b x hdb fun c r e => (exponent_start hx c r e).1, dropWhile_append_stop _ b x hdb fun c r e => (exponent_start hx c r e).1]
    rw [if_neg (fun h => hne (by rw [h.1, h.2]; rfl)), digitsVal_eq, suffix_reads hx]
    rfl

theorem mantissa_start {a : Str} {d n : Nat} (h : Mantissa a d n) : ∃ c r, a = c :: r ∧ (isDigit c = true ∨ c = '.') := by
  cases h with
  | whole _ hne hd =>
    cases a with
    | nil => exact absurd rfl hne
    | cons c r => exact ⟨c, r, rfl, .inl (hd c (List.mem_cons_self ..))⟩
  | point a b hne hd =>
    cases a with
    | nil => exact ⟨'.', b, rfl, .inr rfl⟩
    | cons c r => exact ⟨c, _, rfl, .inl (hd c (List.mem_cons_self ..))⟩

/-- A number is read as the nearest float. -/
theorem parse_reads {t : Str} {neg : Bool} {d : Nat} {k : Int} (h : NumberText t neg d k) : parse t = some (ofDecimal neg d k) := by
  cases h with
  | mk s a x neg d n k hs ha hx =>
    obtain ⟨c, r, hc, hcd⟩ := mantissa_start ha
    have hsign : sign (s ++ (a ++ x)) = (neg, a ++ x) := by
      cases hs with
      | plus => rfl
      | minus => rfl
      | none =>
        subst hc
        show sign (c :: (r ++ x)) = (false, c :: (r ++ x))
        unfold sign
        split
        · rename_i e; injection e with e _; subst e; exact absurd hcd (by decide)
        · rename_i e; injection e with e _; subst e; exact absurd hcd (by decide)
        · rfl
    unfold parse
    rw [hsign]
    dsimp only
    have hl : ∀ (b : Char) (w : Str), lower b = b → (b = 'i' ∨ b = 'n') → (a ++ x).map lower ≠ b :: w := by
      intro b w hb hin e
      subst hc
      have e1 : lower c = b := by injection e
      rcases hcd with h | h
      · obtain ⟨h1, _, _, _, h2, h3, _⟩ := digit_not_letter h
        rw [h1] at e1
        rcases hin with h | h <;> subst h <;> contradiction
      · subst h
        rw [show lower '.' = '.' from by decide] at e1
        rcases hin with h | h <;> subst h <;> revert e1 <;> decide
    rw [if_neg (fun h => h.elim (hl 'i' _ (by decide) (.inl rfl)) (hl 'i' _ (by decide) (.inl rfl))), if_neg (hl 'n' _ (by decide) (.inr rfl))]
    exact number_reads neg ha hx

/-! ## Nothing else is read -/

theorem lower_eq (c : Char) : lower c = c.toLower := by
  unfold lower Char.toLower
  by_cases h : 'A' ≤ c ∧ c ≤ 'Z'
  · rw [if_pos h]
    refine Eq.trans ?_ (dif_pos h).symm
    apply Char.ext
    have h2 : c.val.toNat ≤ 90 := h.2
    have h1 : c.val.toNat + 32 < 2 ^ 32 := by omega
    have h3 : (c.toNat + 32).isValidChar := Or.inl (by have : c.toNat = c.val.toNat := rfl; omega)
    simp only [Char.ofNat, dif_pos h3]
    apply UInt32.toNat_inj.1
    show _ = (c.val + 32).toNat
    rw [UInt32.toNat_add]
    show c.val.toNat + 32 = (c.val.toNat + 32) % 2 ^ 32
    omega
  · rw [if_neg h]
    split
    · rename_i g; exact absurd g h
    · rfl

theorem lower_map (s : Str) : s.map lower = s.map Char.toLower := List.map_congr_left fun c _ => lower_eq c

theorem sign_some (s : Str) : ∃ a, Sign a (sign s).1 ∧ s = a ++ (sign s).2 := by
  unfold sign
  split
  · exact ⟨_, .minus, rfl⟩
  · exact ⟨_, .plus, rfl⟩
  · exact ⟨_, .none, rfl⟩

theorem suffix_some {x : Str} {k : Int} (h : suffix x = some k) : Exponent x k := by
  unfold suffix at h
  split at h
  · injection h with h; subst h; exact .none
  · rename_i c t
    split at h
    · rename_i he
      unfold exponent at h
      dsimp only at h
      split at h
      · rename_i hd
        injection h with h
        rw [digitsVal_eq] at h
        obtain ⟨a, h1, h2⟩ := sign_some t
        have hall := List.all_eq_true.1 hd.2
        generalize (sign t).1 = neg at *
        generalize (sign t).2 = ds at *
        subst h2 h
        cases h1 with
        | none => exact .plain c ds he hd.1 hall
        | plus => exact .plus c ds he hd.1 hall
        | minus => exact .minus c ds he hd.1 hall
      · cases h
    · cases h

theorem takeWhile_digits (s : Str) : ∀ c ∈ s.takeWhile isDigit, isDigit c = true := by
  intro c hc
  induction s with
  | nil => cases hc
  | cons a s ih =>
    rw [List.takeWhile_cons] at hc
    split at hc
    · rename_i h
      rcases List.mem_cons.1 hc with rfl | hc
      · exact h
      · exact ih hc
    · cases hc

theorem fraction_cases (r : Str) : (∃ t, r = '.' :: t ∧ fraction r = (t.takeWhile isDigit, t.dropWhile isDigit)) ∨ fraction r = ([], r) := by
  unfold fraction
  split
  · exact .inl ⟨_, rfl, rfl⟩
  · exact .inr rfl

theorem number_some {neg : Bool} {s : Str} {f : F64} (h : number neg s = some f) : ∃ a x d n k, Mantissa a d n ∧ Exponent x k ∧ s = a ++ x ∧ f = ofDecimal neg d (k - (n : Nat)) := by
  unfold number at h
  dsimp only at h
  split at h
  · cases h
  · rename_i hne
    have hs : s = s.takeWhile isDigit ++ s.dropWhile isDigit := List.takeWhile_append_dropWhile.symm
    have hw := takeWhile_digits s
    generalize s.takeWhile isDigit = w at *
    generalize s.dropWhile isDigit = r at *
    obtain ⟨k, hk, h⟩ := Option.map_eq_some_iff.1 h
    subst h hs
    have hx := suffix_some hk
    rw [digitsVal_eq]
    rcases fraction_cases r with ⟨t, rfl, hr⟩ | hr
    · rw [hr] at hne hx ⊢
      clear hk hr
      have ht : t = t.takeWhile isDigit ++ t.dropWhile isDigit := List.takeWhile_append_dropWhile.symm
      have hf := takeWhile_digits t
      dsimp only at *
      generalize t.takeWhile isDigit = b at *
      generalize t.dropWhile isDigit = y at *
      subst ht
      refine ⟨w ++ '.' :: b, y, _, _, k, .point w b (fun h => hne (List.append_eq_nil_iff.1 h)) (fun c hc => (List.mem_append.1 hc).elim (hw c) (hf c)), hx, by simp, rfl⟩
    · rw [hr] at hne hx ⊢
      clear hk hr
      dsimp only at *
      refine ⟨w, r, _, 0, k, .whole w (fun h => hne ⟨h, rfl⟩) hw, hx, rfl, ?_⟩
      rw [List.append_nil]
      rfl

/-- Whatever `parse` accepts says a number or is a name. -/
theorem parse_some {t : Str} {f : F64} (h : parse t = some f) : FloatText t f := by
  unfold parse at h
  dsimp only at h
  obtain ⟨a, h1, h2⟩ := sign_some t
  generalize (sign t).1 = neg at *
  generalize (sign t).2 = w at *
  subst h2
  rw [lower_map] at h
  split at h
  · rename_i hw
    injection h with h
    subst h
    exact .name _ _ (.inf a w neg h1 hw)
  · split at h
    · rename_i hw
      injection h with h
      subst h
      exact .name _ _ (.nan a w neg h1 hw)
    · obtain ⟨m, x, d, n, k, g1, g2, rfl, rfl⟩ := number_some h
      exact .number _ neg d (k - n) _ (.mk a m x neg d n k h1 g1 g2) (ofDecimal_isFloat ..)

theorem sign_letters {a w : Str} {neg : Bool} (hs : Sign a neg) {c : Char} {r : Str} (h : w.map Char.toLower = c :: r) (h1 : c ≠ '-') (h2 : c ≠ '+') : sign (a ++ w) = (neg, w) := by
  cases hs with
  | plus => rfl
  | minus => rfl
  | none =>
    cases w with
    | nil => cases h
    | cons b w =>
      have hb : b.toLower = c := by injection h
      show sign (b :: w) = (false, b :: w)
      unfold sign
      split
      · rename_i e; injection e with e _; subst e; exact absurd hb.symm h1
      · rename_i e; injection e with e _; subst e; exact absurd hb.symm h2
      · rfl

/-- `parse` accepts exactly the texts that say a float, and returns that float. -/
theorem parse_iff (t : Str) (f : F64) : parse t = some f ↔ FloatText t f := by
  refine ⟨parse_some, fun h => ?_⟩
  cases h with
  | number _ neg d k hn hf => rw [parse_reads hn]; exact congrArg some (isFloat_unique (ofDecimal_isFloat ..) hf)
  | name _ hn =>
    cases hn with
    | inf s w neg hs hw =>
      have hg : sign (s ++ w) = (neg, w) := hw.elim (fun h => sign_letters hs h (by decide) (by decide)) (fun h => sign_letters hs h (by decide) (by decide))
      unfold parse
      rw [hg]
      dsimp only
      rw [lower_map, if_pos hw]
    | nan s w neg hs hw =>
      unfold parse
      rw [sign_letters hs hw (by decide) (by decide)]
      dsimp only
      rw [lower_map, if_neg (by rw [hw]; decide), if_pos hw]

/-! ## Printing -/

theorem decimal_replicate (n : Nat) : decimal (List.replicate n '0') = 0 := by
  induction n with
  | zero => rfl
  | succ n ih => rw [List.replicate_succ]; show (48 - 48) * _ + _ = 0; rw [ih]; simp

theorem zeros_digits (n : Nat) : ∀ c ∈ List.replicate n '0', isDigit c = true := fun c hc => by
  rw [(List.mem_replicate.1 hc).2]; decide

theorem minus_sign (neg : Bool) : Sign (minus neg) neg := by cases neg; exact .none; exact .minus

/-- The text without exponent says the number. -/
theorem plain_says (point neg : Bool) (d : Nat) (k : Int) : ∃ d' k', NumberText (minus neg ++ plain point d k) neg d' k' ∧ ofDecimal neg d' k' = ofDecimal neg d k := by
  unfold plain
  dsimp only
  by_cases hk : 0 ≤ k
  · rw [if_pos hk]
    have hz : decimal (natStr d ++ List.replicate k.toNat '0') = d * 10 ^ k.toNat := by
      rw [decimal_append, decimal_natStr, decimal_replicate, List.length_replicate, Nat.add_zero]
    have hd : ∀ c ∈ natStr d ++ List.replicate k.toNat '0', isDigit c = true := fun c hc =>
      (List.mem_append.1 hc).elim (natStr_digits d c) (zeros_digits _ c)
    have hne : natStr d ++ List.replicate k.toNat '0' ≠ [] := fun h => natStr_ne_nil d (List.append_eq_nil_iff.1 h).1
    cases point with
    | false =>
      refine ⟨d * 10 ^ k.toNat, 0 - (0 : Nat), ?_, ?_⟩
      · rw [← hz]
        have := NumberText.mk _ _ _ neg _ _ _ (minus_sign neg) (Mantissa.whole _ hne hd) .none
        rw [List.append_nil] at this
        simpa using this
      · rw [ofDecimal_shift]
        congr 1
        omega
    | true =>
      have hd0 : ∀ c ∈ (natStr d ++ List.replicate k.toNat '0') ++ c!"0", isDigit c = true := fun c hc =>
        (List.mem_append.1 hc).elim (hd c) fun h => by rw [List.mem_singleton.1 h]; decide
      have hz0 : decimal ((natStr d ++ List.replicate k.toNat '0') ++ c!"0") = d * 10 ^ (k.toNat + 1) := by
        rw [decimal_append, hz, Nat.pow_succ, ← Nat.mul_assoc]; rfl
      refine ⟨d * 10 ^ (k.toNat + 1), 0 - (1 : Nat), ?_, ?_⟩
      · rw [← hz0]
        have := NumberText.mk _ _ _ neg _ _ _ (minus_sign neg) (Mantissa.point _ c!"0" (fun h => hne (List.append_eq_nil_iff.1 h).1) hd0) .none
        rw [List.append_nil] at this
        exact this
      · rw [ofDecimal_shift]
        congr 1
        omega
  · rw [if_neg hk]
    by_cases hn : (-k).toNat < (natStr d).length
    · rw [if_pos hn]
      refine ⟨d, 0 - (((natStr d).drop ((natStr d).length - (-k).toNat)).length : Nat), ?_, ?_⟩
      · have he : (natStr d).take ((natStr d).length - (-k).toNat) ++ (natStr d).drop ((natStr d).length - (-k).toNat) = natStr d := List.take_append_drop _ _
        have := NumberText.mk _ _ _ neg _ _ _ (minus_sign neg) (Mantissa.point ((natStr d).take ((natStr d).length - (-k).toNat)) ((natStr d).drop ((natStr d).length - (-k).toNat))
          (by rw [he]; exact natStr_ne_nil d) (by rw [he]; exact natStr_digits d)) .none
        rw [he, decimal_natStr, List.append_nil] at this
        exact this
      · congr 1
        rw [List.length_drop]
        omega
    · rw [if_neg hn]
      refine ⟨d, 0 - ((List.replicate ((-k).toNat - (natStr d).length) '0' ++ natStr d).length : Nat), ?_, ?_⟩
      · have hd0 : ∀ c ∈ c!"0" ++ (List.replicate ((-k).toNat - (natStr d).length) '0' ++ natStr d), isDigit c = true := fun c hc => by
          rcases List.mem_append.1 hc with h | h
          · rw [List.mem_singleton.1 h]; decide
          · exact (List.mem_append.1 h).elim (zeros_digits _ c) (natStr_digits d c)
        have hz : decimal (c!"0" ++ (List.replicate ((-k).toNat - (natStr d).length) '0' ++ natStr d)) = d := by
          rw [decimal_append, decimal_append, decimal_replicate, decimal_natStr]
          show (0 * 10 ^ 0 + 0) * _ + _ = d
          simp
        have := NumberText.mk _ _ _ neg _ _ _ (minus_sign neg) (Mantissa.point c!"0" (List.replicate ((-k).toNat - (natStr d).length) '0' ++ natStr d) (by simp) hd0) .none
        rw [hz, List.append_nil] at this
        have e : c!"0." ++ List.replicate ((-k).toNat - (natStr d).length) '0' ++ natStr d = c!"0" ++ '.' :: (List.replicate ((-k).toNat - (natStr d).length) '0' ++ natStr d) := by
          simp
        rw [e]
        exact this
      · congr 1
        rw [List.length_append, List.length_replicate]
        omega

/-- The exponent that is printed. -/
theorem intStr_exponent (x : Int) : Exponent ('e' :: intStr x) x := by
  unfold intStr
  by_cases h : x < 0
  · rw [if_pos h]
    have := Exponent.minus 'e' (natStr x.natAbs) (.inl rfl) (natStr_ne_nil _) (natStr_digits _)
    rw [decimal_natStr] at this
    have e : (-(x.natAbs : Int)) = x := by omega
    rw [e] at this
    exact this
  · rw [if_neg h]
    have := Exponent.plain 'e' (natStr x.natAbs) (.inl rfl) (natStr_ne_nil _) (natStr_digits _)
    rw [decimal_natStr] at this
    have e : (x.natAbs : Int) = x := by omega
    rw [e] at this
    exact this

/-- The text with exponent says the number. -/
theorem scientific_says (neg : Bool) (d : Nat) (k : Int) : NumberText (minus neg ++ scientific d k) neg d k := by
  unfold scientific
  dsimp only
  have hn := natStr_ne_nil d
  have hd := natStr_digits d
  have hv := decimal_natStr d
  generalize natStr d = s at *
  cases s with
  | nil => exact absurd rfl hn
  | cons c r =>
    have hx := intStr_exponent (k + ((c :: r).length : Int) - 1)
    cases r with
    | nil =>
      have := NumberText.mk _ _ _ neg _ _ _ (minus_sign neg) (Mantissa.whole [c] hn hd) hx
      rw [hv] at this
      simpa using this
    | cons b r =>
      have := NumberText.mk _ _ _ neg _ _ _ (minus_sign neg) (Mantissa.point [c] (b :: r) hn hd) hx
      have h1 : ((c :: b :: r).length = 1) = False := by simp
      have h2 : k + ((c :: b :: r).length : Int) - 1 - ((b :: r).length : Nat) = k := by simp only [List.length_cons]; omega
      rw [h2] at this
      rw [show [c] ++ b :: r = c :: b :: r from rfl, hv] at this
      simpa [h1] using this

theorem ofDecimal_neg (neg : Bool) (d : Nat) (k : Int) {m e : Nat} {hc : Canon m e} (h : ofDecimal false d k = .fin false m e hc) : ofDecimal neg d k = .fin neg m e hc := by
  rw [ofDecimal_eq] at *
  have key : ∀ s, round s (d * 10 ^ k.toNat * one) (10 ^ (-k).toNat) = make s (halfEven (d * 10 ^ k.toNat * one) (10 ^ (-k).toNat * 2 ^ (Nat.log2 (d * 10 ^ k.toNat * one / 10 ^ (-k).toNat) - 52))) (Nat.log2 (d * 10 ^ k.toNat * one / 10 ^ (-k).toNat) - 52) := fun _ => rfl
  rw [key] at *
  generalize halfEven _ _ = a at *
  generalize Nat.log2 _ - 52 = b at *
  unfold make at *
  split at h
  · rename_i hh
    injection h with _ h1 h2
    subst h1 h2
    rw [dif_pos hh]
  · rename_i hh
    rw [dif_neg hh]
    split at h
    · rename_i hh'
      injection h with _ h1 h2
      subst h1 h2
      rw [dif_pos hh']
    · cases h

theorem ofDecimal_zero (d : Nat) (k : Int) (hd : d = 0) (hc : Canon 0 0) : ofDecimal false d k = .fin false 0 0 hc := by
  subst hd
  rw [ofDecimal_eq, Nat.zero_mul, Nat.zero_mul]
  have h := round_exact false 0 0 hc
  rw [← h]
  exact round_ratio false (Nat.pow_pos (by decide)) (by decide) (by simp)

/-- What `Display` prints reads back as the same float. -/
theorem parse_disp (f : F64) : parse f.disp = some f := by
  cases f with
  | nan => decide
  | inf s => cases s <;> decide
  | fin neg m e hc =>
    unfold disp
    dsimp only
    by_cases hm : m = 0
    · subst hm
      have he : e = 0 := by rcases hc.2.2 with h | h; exact h; exact absurd h (by decide)
      subst he
      rw [if_pos rfl]
      have := parse_reads (NumberText.mk _ _ _ neg _ _ _ (minus_sign neg) (Mantissa.whole c!"0" (by decide) (by decide)) .none)
      rw [List.append_nil] at this
      rw [this]
      exact congrArg some (ofDecimal_neg neg _ _ (ofDecimal_zero _ _ (by decide) hc))
    · rw [if_neg hm]
      obtain ⟨d', k', h1, h2⟩ := plain_says false neg (shortest m e hc).1 (shortest m e hc).2
      rw [parse_reads h1, h2]
      exact congrArg some (ofDecimal_neg neg _ _ (shortest_spec hc hm).1)

/-- What `Debug` prints reads back as the same float. -/
theorem parse_debug (f : F64) : parse f.debug = some f := by
  cases f with
  | nan => decide
  | inf s => cases s <;> decide
  | fin neg m e hc =>
    unfold debug
    dsimp only
    by_cases hm : m = 0
    · subst hm
      have he : e = 0 := by rcases hc.2.2 with h | h; exact h; exact absurd h (by decide)
      subst he
      rw [if_pos rfl]
      have := parse_reads (NumberText.mk _ _ _ neg _ _ _ (minus_sign neg) (Mantissa.point c!"0" c!"0" (by decide) (by decide)) .none)
      rw [List.append_nil] at this
      rw [show c!"0.0" = c!"0" ++ '.' :: c!"0" from rfl, this]
      exact congrArg some (ofDecimal_neg neg _ _ (ofDecimal_zero _ _ (by decide) hc))
    · rw [if_neg hm]
      split
      · rw [parse_reads (scientific_says neg _ _)]
        exact congrArg some (ofDecimal_neg neg _ _ (shortest_spec hc hm).1)
      · obtain ⟨d', k', h1, h2⟩ := plain_says true neg (shortest m e hc).1 (shortest m e hc).2
        rw [parse_reads h1, h2]
        exact congrArg some (ofDecimal_neg neg _ _ (shortest_spec hc hm).1)

end F64
end Am
