import Verif.Proofs.Stack
/-! # How much room a text that can be read needs -/
set_option linter.unusedSimpArgs false
set_option linter.unusedSectionVars false
namespace Am
open Spec
variable {F : Type} [Rt F]

/-! ## No deeper than the room -/

/-- Everything `pe` reads is nested at most `d` deep. -/
def DeepPE (d : Nat) (pe : PE F) : Prop := ∀ p s e s', pe p s = .ok (e, s') → nesting e ≤ d

theorem parseListLoop_deep {d : Nat} {pe : PE F} (hd : DeepPE d pe) {endK : Kind} (n : Nat) :
    ∀ (s : PS) (es : List (Expr F)) (s' : PS), parseListLoop pe endK n s = .ok (es, s') → nestingAll es ≤ d := by
  induction n with
  | zero => intro s es s' h; cases h
  | succ n ih =>
    intro s es s' h
    simp only [parseListLoop] at h
    split at h
    · simp [Res.pure_eq] at h
      obtain ⟨rfl, rfl⟩ := h
      simp [nestingAll]
    · obtain ⟨⟨e, s1⟩, h1, h⟩ := Res.bind_ok h
      dsimp only at h
      split at h
      all_goals
        obtain ⟨s2, h2, h⟩ := Res.bind_ok h
        obtain ⟨⟨es', s3⟩, h3, h⟩ := Res.bind_ok h
        simp [Res.pure_eq] at h
        obtain ⟨rfl, rfl⟩ := h
        have := hd _ _ _ _ h1
        have := ih _ _ _ h3
        simp only [nestingAll]
        omega

theorem parseList_deep {d : Nat} {pe : PE F} (hd : DeepPE d pe) {endK : Kind} {n : Nat} {s : PS} {es : List (Expr F)} {s' : PS}
    (h : parseList pe n endK s = .ok (es, s')) : nestingAll es ≤ d := by
  simp only [parseList] at h
  obtain ⟨⟨es1, s1⟩, h1, h⟩ := Res.bind_ok h
  obtain ⟨s2, h2, h⟩ := Res.bind_ok h
  simp [Res.pure_eq] at h
  obtain ⟨rfl, rfl⟩ := h
  exact parseListLoop_deep hd n _ _ _ h1

theorem parsePairsLoop_deep {d : Nat} {pe : PE F} (hd : DeepPE d pe) (n : Nat) :
    ∀ (s : PS) (ps : List (Expr F × Expr F)) (s' : PS), parsePairsLoop pe n s = .ok (ps, s') → nestingPairs ps ≤ d := by
  induction n with
  | zero => intro s es s' h; cases h
  | succ n ih =>
    intro s es s' h
    simp only [parsePairsLoop] at h
    split at h
    · simp [Res.pure_eq] at h
      obtain ⟨rfl, rfl⟩ := h
      simp [nestingPairs]
    · obtain ⟨⟨k, s1⟩, h1, h⟩ := Res.bind_ok h
      obtain ⟨s2, h2, h⟩ := Res.bind_ok h
      obtain ⟨⟨v, s3⟩, h3, h⟩ := Res.bind_ok h
      dsimp only at h
      split at h
      all_goals
        obtain ⟨s4, h4, h⟩ := Res.bind_ok h
        obtain ⟨⟨ps, s5⟩, h5, h⟩ := Res.bind_ok h
        simp [Res.pure_eq] at h
        obtain ⟨rfl, rfl⟩ := h
        have := hd _ _ _ _ h1
        have := hd _ _ _ _ h3
        have := ih _ _ _ h5
        simp only [nestingPairs]
        omega

theorem parseBlockLoop_deep {d : Nat} {pe : PE F} (hd : DeepPE d pe) (n : Nat) :
    ∀ (s : PS) (es : List (Expr F)) (s' : PS), parseBlockLoop pe n s = .ok (es, s') → nestingAll es ≤ d := by
  induction n with
  | zero => intro s es s' h; cases h
  | succ n ih =>
    intro s es s' h
    simp only [parseBlockLoop] at h
    split at h
    · simp [Res.pure_eq] at h
      obtain ⟨rfl, rfl⟩ := h
      simp [nestingAll]
    · obtain ⟨⟨e, s1⟩, h1, h⟩ := Res.bind_ok h
      obtain ⟨⟨es', s3⟩, h3, h⟩ := Res.bind_ok h
      simp [Res.pure_eq] at h
      obtain ⟨rfl, rfl⟩ := h
      have := hd _ _ _ _ h1
      have := ih _ _ _ h3
      simp only [nestingAll]
      omega

theorem parseBlock_deep {d : Nat} {pe : PE F} (hd : DeepPE d pe) {n : Nat} {s : PS} {es : List (Expr F)} {s' : PS}
    (h : parseBlock pe n s = .ok (es, s')) : nestingAll es ≤ d := by
  simp only [parseBlock] at h
  obtain ⟨s1, h1, h⟩ := Res.bind_ok h
  obtain ⟨⟨es1, s2⟩, h2, h⟩ := Res.bind_ok h
  obtain ⟨s3, h3, h⟩ := Res.bind_ok h
  simp [Res.pure_eq] at h
  obtain ⟨rfl, rfl⟩ := h
  exact parseBlockLoop_deep hd n _ _ _ h2

theorem parsePrefix_deep {d n prec : Nat} {pe : PE F} (hd : DeepPE d pe) {s : PS} {e : Expr F} {p : Nat} {s' : PS}
    (h : parsePrefix pe n prec s = .ok (e, p, s')) : nesting e ≤ d + 1 := by
  simp only [parsePrefix] at h
  split at h
  case h_1 => cases h; simp [nesting]
  case h_2 =>
    obtain ⟨a, h1, h⟩ := Res.bind_ok h
    cases h
    simp only [parseInteger] at h1
    split at h1 <;> cases h1
    simp [nesting]
  case h_3 =>
    obtain ⟨a, h1, h⟩ := Res.bind_ok h
    cases h
    simp only [parseFloat] at h1
    split at h1 <;> cases h1
    simp [nesting]
  case h_4 =>
    obtain ⟨a, h1, h⟩ := Res.bind_ok h
    cases h
    simp only [parseBoolean] at h1
    split at h1 <;> cases h1
    simp [nesting]
  case h_5 =>
    obtain ⟨a, h1, h⟩ := Res.bind_ok h
    cases h
    simp only [parseBoolean] at h1
    split at h1 <;> cases h1
    simp [nesting]
  case h_6 => cases h; simp [nesting]
  case h_7 =>
    obtain ⟨⟨a, s1⟩, h1, h⟩ := Res.bind_ok h
    cases h
    simp only [parseLet] at h1
    obtain ⟨s2, h2, h1⟩ := Res.bind_ok h1
    obtain ⟨s3, h3, h1⟩ := Res.bind_ok h1
    obtain ⟨⟨v, s4⟩, h4, h1⟩ := Res.bind_ok h1
    cases h1
    have := hd _ _ _ _ h4
    simp only [nesting]; omega
  case h_8 =>
    obtain ⟨⟨a, s1⟩, h1, h⟩ := Res.bind_ok h
    cases h
    simp only [parseUnary] at h1
    obtain ⟨⟨v, s4⟩, h4, h1⟩ := Res.bind_ok h1
    cases h1
    have := hd _ _ _ _ h4
    simp only [nesting]; omega
  case h_9 =>
    obtain ⟨⟨a, s1⟩, h1, h⟩ := Res.bind_ok h
    cases h
    simp only [parseUnary] at h1
    obtain ⟨⟨v, s4⟩, h4, h1⟩ := Res.bind_ok h1
    cases h1
    have := hd _ _ _ _ h4
    simp only [nesting]; omega
  case h_10 =>
    obtain ⟨⟨a, s1⟩, h1, h⟩ := Res.bind_ok h
    cases h
    simp only [parseParen] at h1
    obtain ⟨⟨v, s4⟩, h4, h1⟩ := Res.bind_ok h1
    obtain ⟨s5, h5, h1⟩ := Res.bind_ok h1
    cases h1
    have := hd _ _ _ _ h4
    simp only [nesting]; omega
  case h_11 =>
    obtain ⟨⟨a, s1⟩, h1, h⟩ := Res.bind_ok h
    cases h
    simp only [parseIf] at h1
    obtain ⟨s2, h2, h1⟩ := Res.bind_ok h1
    obtain ⟨⟨c, s3⟩, h3, h1⟩ := Res.bind_ok h1
    obtain ⟨s4, h4, h1⟩ := Res.bind_ok h1
    obtain ⟨⟨t, s5⟩, h5, h1⟩ := Res.bind_ok h1
    have := hd _ _ _ _ h3
    have := parseBlock_deep hd h5
    dsimp only at h1
    split at h1
    · obtain ⟨⟨el, s6⟩, h6, h1⟩ := Res.bind_ok h1
      cases h1
      have := parseBlock_deep hd h6
      simp only [nesting]; omega
    · cases h1
      simp only [nesting, nestingAll]; omega
  case h_12 =>
    obtain ⟨⟨a, s1⟩, h1, h⟩ := Res.bind_ok h
    cases h
    simp only [parseArray] at h1
    obtain ⟨⟨v, s4⟩, h4, h1⟩ := Res.bind_ok h1
    cases h1
    have := parseList_deep hd h4
    simp only [nesting]; omega
  case h_13 =>
    obtain ⟨⟨a, s1⟩, h1, h⟩ := Res.bind_ok h
    cases h
    simp only [parseMap] at h1
    obtain ⟨⟨v, s4⟩, h4, h1⟩ := Res.bind_ok h1
    obtain ⟨s5, h5, h1⟩ := Res.bind_ok h1
    cases h1
    have := parsePairsLoop_deep hd _ _ _ _ h4
    simp only [nesting]; omega
  all_goals cases h

/-- The loop only wraps: the result is at least as deep as what it began with. -/
theorem parseLoop_grows {pe : PE F} {prec : Nat} (n : Nat) : ∀ (left : Expr F) (s : PS) (e : Expr F) (s' : PS),
    parseLoop pe prec n left s = .ok (e, s') → nesting left ≤ nesting e := by
  induction n with
  | zero => intro left s e s' h; cases h
  | succ n ih =>
    intro left s e s' h
    simp only [parseLoop] at h
    split at h
    · split at h
      · split at h
        · obtain ⟨⟨e1, s1⟩, h1, h⟩ := Res.bind_ok h
          simp only [parseBinary] at h1
          obtain ⟨⟨v, s4⟩, h4, h1⟩ := Res.bind_ok h1
          cases h1
          have := ih _ _ _ _ h
          simp only [nesting] at this; omega
        · split at h
          · obtain ⟨⟨e1, s1⟩, h1, h⟩ := Res.bind_ok h
            simp only [parseCall] at h1
            obtain ⟨⟨v, s4⟩, h4, h1⟩ := Res.bind_ok h1
            dsimp only at h1
            split at h1 <;> cases h1
            have := ih _ _ _ _ h
            simp only [nesting] at this ⊢; omega
          · split at h
            · obtain ⟨⟨e1, s1⟩, h1, h⟩ := Res.bind_ok h
              simp only [parseIndex] at h1
              obtain ⟨⟨v, s4⟩, h4, h1⟩ := Res.bind_ok h1
              obtain ⟨s5, h5, h1⟩ := Res.bind_ok h1
              cases h1
              have := ih _ _ _ _ h
              simp only [nesting] at this; omega
            · split at h
              · obtain ⟨⟨e1, s1⟩, h1, h⟩ := Res.bind_ok h
                simp only [parseField] at h1
                obtain ⟨s5, h5, h1⟩ := Res.bind_ok h1
                cases h1
                have := ih _ _ _ _ h
                simpa only [nesting] using this
              · exact ih _ _ _ _ h
      · exact ih _ _ _ _ h
    · cases h; exact Nat.le_refl _

theorem parseLoop_deep {d : Nat} {pe : PE F} (hd : DeepPE d pe) {prec : Nat} (n : Nat) : ∀ (left : Expr F) (s : PS) (e : Expr F) (s' : PS),
    nesting left ≤ d + 1 → parseLoop pe prec n left s = .ok (e, s') → nesting e ≤ d + 1 := by
  induction n with
  | zero => intro left s e s' _ h; cases h
  | succ n ih =>
    intro left s e s' hl h
    simp only [parseLoop] at h
    split at h
    · split at h
      · split at h
        · obtain ⟨⟨e1, s1⟩, h1, h⟩ := Res.bind_ok h
          simp only [parseBinary] at h1
          obtain ⟨⟨v, s4⟩, h4, h1⟩ := Res.bind_ok h1
          cases h1
          have := hd _ _ _ _ h4
          exact ih _ _ _ _ (by simp only [nesting]; omega) h
        · split at h
          · obtain ⟨⟨e1, s1⟩, h1, h⟩ := Res.bind_ok h
            simp only [parseCall] at h1
            obtain ⟨⟨v, s4⟩, h4, h1⟩ := Res.bind_ok h1
            have := parseList_deep hd h4
            dsimp only at h1
            split at h1 <;> cases h1
            exact ih _ _ _ _ (by simp only [nesting]; omega) h
          · split at h
            · obtain ⟨⟨e1, s1⟩, h1, h⟩ := Res.bind_ok h
              simp only [parseIndex] at h1
              obtain ⟨⟨v, s4⟩, h4, h1⟩ := Res.bind_ok h1
              obtain ⟨s5, h5, h1⟩ := Res.bind_ok h1
              cases h1
              have := hd _ _ _ _ h4
              exact ih _ _ _ _ (by simp only [nesting]; omega) h
            · split at h
              · obtain ⟨⟨e1, s1⟩, h1, h⟩ := Res.bind_ok h
                simp only [parseField] at h1
                obtain ⟨s5, h5, h1⟩ := Res.bind_ok h1
                cases h1
                exact ih _ _ _ _ (by simp only [nesting]; omega) h
              · exact ih _ _ _ _ hl h
      · exact ih _ _ _ _ hl h
    · cases h; exact hl

theorem parseExprIn_deep (n d : Nat) : DeepPE (F := F) d (parseExprIn n d) := by
  induction d with
  | zero => intro p s e s' h; cases h
  | succ d ih =>
    intro p s e s' h
    simp only [parseExprIn] at h
    obtain ⟨⟨left, p', s1⟩, h1, h⟩ := Res.bind_ok h
    exact parseLoop_deep ih n _ _ _ _ (parsePrefix_deep ih h1) h

/-! ## As deep as the room -/

/-- What `pe'` reads and is nested at most `d` deep, `pe` reads too. -/
def QuietPE (d : Nat) (pe pe' : PE F) : Prop := ∀ p s e s', pe' p s = .ok (e, s') → nesting e ≤ d → pe p s = .ok (e, s')

theorem parseListLoop_quiet {d : Nat} {pe pe' : PE F} (hq : QuietPE d pe pe') {endK : Kind} (n : Nat) :
    ∀ (s : PS) (es : List (Expr F)) (s' : PS), parseListLoop pe' endK n s = .ok (es, s') → nestingAll es ≤ d →
      parseListLoop pe endK n s = .ok (es, s') := by
  induction n with
  | zero => intro s es s' h; cases h
  | succ n ih =>
    intro s es s' h hd
    simp only [parseListLoop] at h ⊢
    split at h
    · rename_i hp
      rw [if_pos hp]; exact h
    · rename_i hp
      rw [if_neg hp]
      obtain ⟨⟨e, s1⟩, h1, h⟩ := Res.bind_ok h
      dsimp only at h
      split at h
      · rename_i hc
        obtain ⟨s2, h2, h⟩ := Res.bind_ok h
        obtain ⟨⟨es', s3⟩, h3, h⟩ := Res.bind_ok h
        simp [Res.pure_eq] at h
        obtain ⟨rfl, rfl⟩ := h
        simp only [nestingAll] at hd
        rw [hq _ _ _ _ h1 (by omega), Res.ok_bind]
        dsimp only
        rw [if_pos hc, h2, Res.ok_bind, ih _ _ _ h3 (by omega)]
        rfl
      · rename_i hc
        obtain ⟨s2, h2, h⟩ := Res.bind_ok h
        obtain ⟨⟨es', s3⟩, h3, h⟩ := Res.bind_ok h
        simp [Res.pure_eq] at h
        obtain ⟨rfl, rfl⟩ := h
        simp only [nestingAll] at hd
        rw [hq _ _ _ _ h1 (by omega), Res.ok_bind]
        dsimp only
        rw [if_neg hc, h2, Res.ok_bind, ih _ _ _ h3 (by omega)]
        rfl

theorem parseList_quiet {d : Nat} {pe pe' : PE F} (hq : QuietPE d pe pe') {endK : Kind} {n : Nat} {s : PS} {es : List (Expr F)} {s' : PS}
    (h : parseList pe' n endK s = .ok (es, s')) (hd : nestingAll es ≤ d) : parseList pe n endK s = .ok (es, s') := by
  simp only [parseList] at h ⊢
  obtain ⟨⟨es1, s1⟩, h1, h⟩ := Res.bind_ok h
  obtain ⟨s2, h2, h⟩ := Res.bind_ok h
  simp [Res.pure_eq] at h
  obtain ⟨rfl, rfl⟩ := h
  rw [parseListLoop_quiet hq n _ _ _ h1 hd, Res.ok_bind]
  dsimp only at h2 ⊢
  rw [h2]; rfl

theorem parsePairsLoop_quiet {d : Nat} {pe pe' : PE F} (hq : QuietPE d pe pe') (n : Nat) :
    ∀ (s : PS) (ps : List (Expr F × Expr F)) (s' : PS), parsePairsLoop pe' n s = .ok (ps, s') → nestingPairs ps ≤ d →
      parsePairsLoop pe n s = .ok (ps, s') := by
  induction n with
  | zero => intro s es s' h; cases h
  | succ n ih =>
    intro s es s' h hd
    simp only [parsePairsLoop] at h ⊢
    split at h
    · rename_i hp
      rw [if_pos hp]; exact h
    · rename_i hp
      rw [if_neg hp]
      obtain ⟨⟨k, s1⟩, h1, h⟩ := Res.bind_ok h
      obtain ⟨s2, h2, h⟩ := Res.bind_ok h
      obtain ⟨⟨v, s3⟩, h3, h⟩ := Res.bind_ok h
      dsimp only at h
      split at h
      · rename_i hc
        obtain ⟨s4, h4, h⟩ := Res.bind_ok h
        obtain ⟨⟨ps, s5⟩, h5, h⟩ := Res.bind_ok h
        simp [Res.pure_eq] at h
        obtain ⟨rfl, rfl⟩ := h
        simp only [nestingPairs] at hd
        rw [hq _ _ _ _ h1 (by omega), Res.ok_bind]
        dsimp only at h2 ⊢
        rw [h2, Res.ok_bind, hq _ _ _ _ h3 (by omega), Res.ok_bind]
        dsimp only
        rw [if_pos hc, h4, Res.ok_bind, ih _ _ _ h5 (by omega)]
        rfl
      · rename_i hc
        obtain ⟨s4, h4, h⟩ := Res.bind_ok h
        obtain ⟨⟨ps, s5⟩, h5, h⟩ := Res.bind_ok h
        simp [Res.pure_eq] at h
        obtain ⟨rfl, rfl⟩ := h
        simp only [nestingPairs] at hd
        rw [hq _ _ _ _ h1 (by omega), Res.ok_bind]
        dsimp only at h2 ⊢
        rw [h2, Res.ok_bind, hq _ _ _ _ h3 (by omega), Res.ok_bind]
        dsimp only
        rw [if_neg hc, h4, Res.ok_bind, ih _ _ _ h5 (by omega)]
        rfl

theorem parseBlockLoop_quiet {d : Nat} {pe pe' : PE F} (hq : QuietPE d pe pe') (n : Nat) :
    ∀ (s : PS) (es : List (Expr F)) (s' : PS), parseBlockLoop pe' n s = .ok (es, s') → nestingAll es ≤ d →
      parseBlockLoop pe n s = .ok (es, s') := by
  induction n with
  | zero => intro s es s' h; cases h
  | succ n ih =>
    intro s es s' h hd
    simp only [parseBlockLoop] at h ⊢
    split at h
    · rename_i hp
      rw [if_pos hp]; exact h
    · rename_i hp
      rw [if_neg hp]
      obtain ⟨⟨e, s1⟩, h1, h⟩ := Res.bind_ok h
      obtain ⟨⟨es', s3⟩, h3, h⟩ := Res.bind_ok h
      simp [Res.pure_eq] at h
      obtain ⟨rfl, rfl⟩ := h
      simp only [nestingAll] at hd
      rw [hq _ _ _ _ h1 (by omega), Res.ok_bind]
      dsimp only
      rw [ih _ _ _ h3 (by omega)]
      rfl

theorem parseBlock_quiet {d : Nat} {pe pe' : PE F} (hq : QuietPE d pe pe') {n : Nat} {s : PS} {es : List (Expr F)} {s' : PS}
    (h : parseBlock pe' n s = .ok (es, s')) (hd : nestingAll es ≤ d) : parseBlock pe n s = .ok (es, s') := by
  simp only [parseBlock] at h ⊢
  obtain ⟨s1, h1, h⟩ := Res.bind_ok h
  obtain ⟨⟨es1, s2⟩, h2, h⟩ := Res.bind_ok h
  obtain ⟨s3, h3, h⟩ := Res.bind_ok h
  simp [Res.pure_eq] at h
  obtain ⟨rfl, rfl⟩ := h
  rw [h1, Res.ok_bind, parseBlockLoop_quiet hq n _ _ _ h2 hd, Res.ok_bind]
  dsimp only at h3 ⊢
  rw [h3]; rfl

theorem parsePrefix_quiet {d n prec : Nat} {pe pe' : PE F} (hq : QuietPE d pe pe') {s : PS} {e : Expr F} {p : Nat} {s' : PS}
    (h : parsePrefix pe' n prec s = .ok (e, p, s')) (hd : nesting e ≤ d + 1) : parsePrefix pe n prec s = .ok (e, p, s') := by
  simp only [parsePrefix] at h ⊢
  split at h
  case h_7 hk =>
    obtain ⟨⟨a, s1⟩, h1, h⟩ := Res.bind_ok h
    cases h
    simp only [hk]
    simp only [parseLet] at h1 ⊢
    obtain ⟨s2, h2, h1⟩ := Res.bind_ok h1
    obtain ⟨s3, h3, h1⟩ := Res.bind_ok h1
    obtain ⟨⟨v, s4⟩, h4, h1⟩ := Res.bind_ok h1
    cases h1
    simp only [nesting] at hd
    rw [h2, Res.ok_bind, h3, Res.ok_bind, hq _ _ _ _ h4 (by omega)]
    rfl
  case h_8 hk =>
    obtain ⟨⟨a, s1⟩, h1, h⟩ := Res.bind_ok h
    cases h
    simp only [hk]
    simp only [parseUnary] at h1 ⊢
    obtain ⟨⟨v, s4⟩, h4, h1⟩ := Res.bind_ok h1
    cases h1
    simp only [nesting] at hd
    rw [hq _ _ _ _ h4 (by omega)]
    rfl
  case h_9 hk =>
    obtain ⟨⟨a, s1⟩, h1, h⟩ := Res.bind_ok h
    cases h
    simp only [hk]
    simp only [parseUnary] at h1 ⊢
    obtain ⟨⟨v, s4⟩, h4, h1⟩ := Res.bind_ok h1
    cases h1
    simp only [nesting] at hd
    rw [hq _ _ _ _ h4 (by omega)]
    rfl
  case h_10 hk =>
    obtain ⟨⟨a, s1⟩, h1, h⟩ := Res.bind_ok h
    cases h
    simp only [hk]
    simp only [parseParen] at h1 ⊢
    obtain ⟨⟨v, s4⟩, h4, h1⟩ := Res.bind_ok h1
    obtain ⟨s5, h5, h1⟩ := Res.bind_ok h1
    cases h1
    simp only [nesting] at hd
    rw [hq _ _ _ _ h4 (by omega), Res.ok_bind]
    dsimp only at h5 ⊢
    rw [h5]; rfl
  case h_11 hk =>
    obtain ⟨⟨a, s1⟩, h1, h⟩ := Res.bind_ok h
    cases h
    simp only [hk]
    simp only [parseIf] at h1 ⊢
    obtain ⟨s2, h2, h1⟩ := Res.bind_ok h1
    obtain ⟨⟨c, s3⟩, h3, h1⟩ := Res.bind_ok h1
    obtain ⟨s4, h4, h1⟩ := Res.bind_ok h1
    obtain ⟨⟨t, s5⟩, h5, h1⟩ := Res.bind_ok h1
    dsimp only at h1
    split at h1
    · rename_i hel
      obtain ⟨⟨el, s6⟩, h6, h1⟩ := Res.bind_ok h1
      cases h1
      simp only [nesting] at hd
      rw [h2, Res.ok_bind, hq _ _ _ _ h3 (by omega), Res.ok_bind]
      dsimp only at h4 ⊢
      rw [h4, Res.ok_bind, parseBlock_quiet hq h5 (by omega), Res.ok_bind]
      dsimp only
      rw [if_pos hel, parseBlock_quiet hq h6 (by omega)]
      rfl
    · rename_i hel
      cases h1
      simp only [nesting] at hd
      rw [h2, Res.ok_bind, hq _ _ _ _ h3 (by omega), Res.ok_bind]
      dsimp only at h4 ⊢
      rw [h4, Res.ok_bind, parseBlock_quiet hq h5 (by omega), Res.ok_bind]
      dsimp only
      rw [if_neg hel]
      rfl
  case h_12 hk =>
    obtain ⟨⟨a, s1⟩, h1, h⟩ := Res.bind_ok h
    cases h
    simp only [hk]
    simp only [parseArray] at h1 ⊢
    obtain ⟨⟨v, s4⟩, h4, h1⟩ := Res.bind_ok h1
    cases h1
    simp only [nesting] at hd
    rw [parseList_quiet hq h4 (by omega)]
    rfl
  case h_13 hk =>
    obtain ⟨⟨a, s1⟩, h1, h⟩ := Res.bind_ok h
    cases h
    simp only [hk]
    simp only [parseMap] at h1 ⊢
    obtain ⟨⟨v, s4⟩, h4, h1⟩ := Res.bind_ok h1
    obtain ⟨s5, h5, h1⟩ := Res.bind_ok h1
    cases h1
    simp only [nesting] at hd
    rw [parsePairsLoop_quiet hq _ _ _ _ h4 (by omega), Res.ok_bind]
    dsimp only at h5 ⊢
    rw [h5]; rfl
  all_goals first | (cases h; done) | exact h | (rename_i hk; rw [hk]; exact h)

theorem parseLoop_quiet {d : Nat} {pe pe' : PE F} (hq : QuietPE d pe pe') {prec : Nat} (n : Nat) :
    ∀ (left : Expr F) (s : PS) (e : Expr F) (s' : PS), parseLoop pe' prec n left s = .ok (e, s') → nesting e ≤ d + 1 →
      parseLoop pe prec n left s = .ok (e, s') := by
  induction n with
  | zero => intro left s e s' h; cases h
  | succ n ih =>
    intro left s e s' h hd
    simp only [parseLoop] at h ⊢
    split at h
    · rename_i hc
      rw [if_pos hc]
      split at h
      · split at h
        · rename_i hb
          rw [if_pos hb]
          obtain ⟨⟨e1, s1⟩, h1, h⟩ := Res.bind_ok h
          simp only [parseBinary] at h1 ⊢
          obtain ⟨⟨v, s4⟩, h4, h1⟩ := Res.bind_ok h1
          cases h1
          have := parseLoop_grows _ _ _ _ _ h
          simp only [nesting] at this
          rw [hq _ _ _ _ h4 (by omega), Res.ok_bind]
          exact ih _ _ _ _ h hd
        · rename_i hb
          rw [if_neg hb]
          split at h
          · rename_i hb
            rw [if_pos hb]
            obtain ⟨⟨e1, s1⟩, h1, h⟩ := Res.bind_ok h
            simp only [parseCall] at h1 ⊢
            obtain ⟨⟨v, s4⟩, h4, h1⟩ := Res.bind_ok h1
            dsimp only at h1
            split at h1 <;> cases h1
            have := parseLoop_grows _ _ _ _ _ h
            simp only [nesting] at this
            rw [parseList_quiet hq h4 (by omega), Res.ok_bind]
            exact ih _ _ _ _ h hd
          · rename_i hb
            rw [if_neg hb]
            split at h
            · rename_i hb
              rw [if_pos hb]
              obtain ⟨⟨e1, s1⟩, h1, h⟩ := Res.bind_ok h
              simp only [parseIndex] at h1 ⊢
              obtain ⟨⟨v, s4⟩, h4, h1⟩ := Res.bind_ok h1
              obtain ⟨s5, h5, h1⟩ := Res.bind_ok h1
              cases h1
              have := parseLoop_grows _ _ _ _ _ h
              simp only [nesting] at this
              rw [hq _ _ _ _ h4 (by omega), Res.ok_bind]
              dsimp only at h5 ⊢
              rw [h5]
              exact ih _ _ _ _ h hd
            · rename_i hb
              rw [if_neg hb]
              split at h
              · rename_i hb
                rw [if_pos hb]
                obtain ⟨⟨e1, s1⟩, h1, h⟩ := Res.bind_ok h
                rw [h1]
                exact ih _ _ _ _ h hd
              · rename_i hb
                rw [if_neg hb]
                exact ih _ _ _ _ h hd
      · exact ih _ _ _ _ h hd
    · rename_i hc
      rw [if_neg hc]
      exact h

theorem nesting_pos (e : Expr F) : 1 ≤ nesting e := by
  induction e using Expr.rec (motive_2 := fun _ => True) (motive_3 := fun _ => True) (motive_4 := fun _ => True) <;> first | trivial | (simp only [nesting]; omega)

theorem parseExprIn_quiet (n d : Nat) : ∀ D, d ≤ D → QuietPE (F := F) d (parseExprIn n d) (parseExprIn n D) := by
  induction d with
  | zero => intro D _ p s e s' h hd; have := nesting_pos e; omega
  | succ d ih =>
    intro D hD p s e s' h hd
    cases D with
    | zero => omega
    | succ D =>
      simp only [parseExprIn] at h ⊢
      obtain ⟨⟨left, p', s1⟩, h1, h⟩ := Res.bind_ok h
      rw [parsePrefix_quiet (ih D (by omega)) h1 (Nat.le_trans (parseLoop_grows _ _ _ _ _ h) hd), Res.ok_bind]
      exact parseLoop_quiet (ih D (by omega)) n _ _ _ _ h hd

/-! ## Whole texts -/

theorem nestingAll_append (a b : List (Expr F)) : nestingAll (a ++ b) = max (nestingAll a) (nestingAll b) := by
  induction a with
  | nil => simp [nestingAll]
  | cons e l ih => simp only [List.cons_append, nestingAll, ih]; omega

theorem amInsert_not_nil {α : Type} (k : Str) (v : α) (m : List (Str × α)) : amInsert k v m ≠ [] := by
  cases m with
  | nil => simp [amInsert]
  | cons a m => simp only [amInsert]; split <;> simp

theorem parseItemBy_grows {pe : PE F} {n : Nat} {src : Source F} {s : PS} {src' : Source F} {s' : PS}
    (h : parseItemBy pe n src s = .ok (src', s')) : (src'.requests = [] → src.requests = []) ∧ (src'.tests = [] → src.tests = []) ∧
      nestingAll src.exprs ≤ nestingAll src'.exprs := by
  simp only [parseItemBy] at h
  split at h
  · obtain ⟨⟨⟨a, b, c⟩, s1⟩, h1, h⟩ := Res.bind_ok h
    cases h
    exact ⟨fun h => absurd h (amInsert_not_nil _ _ _), id, Nat.le_refl _⟩
  · obtain ⟨⟨⟨a, b⟩, s1⟩, h1, h⟩ := Res.bind_ok h
    cases h
    exact ⟨id, fun h => absurd h (amInsert_not_nil _ _ _), Nat.le_refl _⟩
  · obtain ⟨⟨e, s1⟩, h1, h⟩ := Res.bind_ok h
    cases h
    exact ⟨id, id, by dsimp only; rw [nestingAll_append]; omega⟩

theorem parseTopBy_grows {pe : PE F} {n : Nat} (k : Nat) : ∀ {src : Source F} {s : PS} {src' : Source F}, parseTopBy pe n k src s = .ok src' →
    (src'.requests = [] → src.requests = []) ∧ (src'.tests = [] → src.tests = []) ∧ nestingAll src.exprs ≤ nestingAll src'.exprs := by
  induction k with
  | zero => intro src s src' h; cases h
  | succ k ih =>
    intro src s src' h
    simp only [parseTopBy] at h
    split at h
    · cases h; exact ⟨id, id, Nat.le_refl _⟩
    · obtain ⟨⟨src1, s1⟩, h1, h⟩ := Res.bind_ok h
      obtain ⟨a1, a2, a3⟩ := parseItemBy_grows h1
      obtain ⟨b1, b2, b3⟩ := ih h
      exact ⟨a1 ∘ b1, a2 ∘ b2, Nat.le_trans a3 b3⟩

theorem parseTopBy_quiet {d : Nat} {pe pe' : PE F} (hq : QuietPE d pe pe') {n : Nat} (k : Nat) : ∀ (src : Source F) (s : PS) (src' : Source F),
    parseTopBy pe' n k src s = .ok src' → src'.requests = [] → src'.tests = [] → nestingAll src'.exprs ≤ d →
      parseTopBy pe n k src s = .ok src' := by
  induction k with
  | zero => intro src s src' h; cases h
  | succ k ih =>
    intro src s src' h hr ht hd
    simp only [parseTopBy] at h ⊢
    split at h
    · rename_i he
      rw [if_pos he]; exact h
    · rename_i he
      rw [if_neg he]
      obtain ⟨⟨src1, s1⟩, h1, h⟩ := Res.bind_ok h
      obtain ⟨b1, b2, b3⟩ := parseTopBy_grows k h
      have : parseItemBy pe n src s = .ok (src1, s1) := by
        simp only [parseItemBy] at h1 ⊢
        split at h1
        · obtain ⟨⟨⟨a, b, c⟩, s1⟩, h2, h1⟩ := Res.bind_ok h1
          cases h1
          exact absurd (b1 hr) (amInsert_not_nil _ _ _)
        · obtain ⟨⟨⟨a, b⟩, s1⟩, h2, h1⟩ := Res.bind_ok h1
          cases h1
          exact absurd (b2 ht) (amInsert_not_nil _ _ _)
        · obtain ⟨⟨e, s1⟩, h2, h1⟩ := Res.bind_ok h1
          cases h1
          dsimp only at b3
          rw [nestingAll_append] at b3
          simp only [nestingAll] at b3
          rw [hq _ _ _ _ h2 (by omega)]
          rfl
      rw [this, Res.ok_bind]
      exact ih _ _ _ h hr ht hd

theorem parseTopBy_deep {d : Nat} {pe : PE F} (hp : DeepPE d pe) {n : Nat} (k : Nat) : ∀ (src : Source F) (s : PS) (src' : Source F),
    nestingAll src.exprs ≤ d → parseTopBy pe n k src s = .ok src' → nestingAll src'.exprs ≤ d := by
  induction k with
  | zero => intro src s src' _ h; cases h
  | succ k ih =>
    intro src s src' hd h
    simp only [parseTopBy] at h
    split at h
    · cases h; exact hd
    · obtain ⟨⟨src1, s1⟩, h1, h⟩ := Res.bind_ok h
      refine ih _ _ _ ?_ h
      simp only [parseItemBy] at h1
      split at h1
      · obtain ⟨⟨⟨a, b, c⟩, s1⟩, h2, h1⟩ := Res.bind_ok h1
        cases h1
        exact hd
      · obtain ⟨⟨⟨a, b⟩, s1⟩, h2, h1⟩ := Res.bind_ok h1
        cases h1
        exact hd
      · obtain ⟨⟨e, s1⟩, h2, h1⟩ := Res.bind_ok h1
        cases h1
        have := hp _ _ _ _ h2
        dsimp only
        rw [nestingAll_append]
        simp only [nestingAll]
        omega

/-- What is read is nested no deeper than there was room. -/
theorem parseIn_deep {d : Nat} {text : Str} {src : Source F} (h : parseIn d text = .ok src) : nestingAll src.exprs ≤ d := by
  unfold parseIn at h
  split at h
  · cases h
  · exact parseTopBy_deep (parseExprIn_deep _ d) _ _ _ _ (by simp [nestingAll]) h

/-- A text without requests and tests needs exactly as much room as its expressions are nested deep. -/
theorem parseIn_exact {text : Str} {es : List (Expr F)} (h : parse text = .ok ⟨es, [], []⟩) (d : Nat) :
    parseIn d text = if nestingAll es ≤ d then .ok ⟨es, [], []⟩ else .panic := by
  by_cases hd : nestingAll es ≤ d
  · rw [if_pos hd]
    have h1 := parseIn_enough (F := F) (max d (segment text).length) text (by omega)
    rw [h] at h1
    unfold parseIn at h1 ⊢
    split at h1
    · cases h1
    · exact parseTopBy_quiet (parseExprIn_quiet _ d _ (by omega)) _ _ _ _ h1 rfl rfl hd
  · rw [if_neg hd]
    rcases parseIn_same (F := F) d text with h1 | h1
    · exact h1
    · rw [h] at h1
      exact absurd (parseIn_deep h1) hd

end Am
