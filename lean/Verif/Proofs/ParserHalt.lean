import Verif.Proofs.ParserFuel
/-!
# When the parser halts

If no `!` directly follows an operand and no `let` directly follows an operator, `parseExpr` never runs out of fuel.
-/
set_option linter.unusedSimpArgs false
set_option linter.unusedSectionVars false
namespace Am
open Spec
variable {F : Type} [Rt F]

/-- The result is not `hang`, and if it is a value then `P` holds of it. -/
def Res.Fine {α : Type} (P : α → Prop) : Res α → Prop
  | .ok a => P a
  | .hang => False
  | _ => True

theorem Res.Fine.bind {α β : Type} {P : α → Prop} {Q : β → Prop} {x : Res α} {f : α → Res β} (h : Res.Fine P x)
    (hf : ∀ a, x = .ok a → P a → Res.Fine Q (f a)) : Res.Fine Q (x >>= f) := by
  cases x with
  | ok a => exact hf a rfl h
  | err m => trivial
  | panic => trivial
  | hang => exact h

theorem Res.Fine.mono {α : Type} {P Q : α → Prop} {x : Res α} (h : Res.Fine P x) (hPQ : ∀ a, P a → Q a) : Res.Fine Q x := by
  cases x with
  | ok a => exact hPQ a h
  | err m => trivial
  | panic => trivial
  | hang => exact h

/-- A live state with at most `L` tokens after the current one and no clash from here on. -/
def Good (L : Nat) (s : PS) : Prop := EndsEof s.rest ∧ NoClash (s.cur :: s.rest) ∧ s.rest.length ≤ L

theorem noClash_tail {a : Token} {l : List Token} (h : NoClash (a :: l)) : NoClash l := by
  cases l with
  | nil => trivial
  | cons b r => exact h.2

theorem expect_fine {L : Nat} {s : PS} {k : Kind} (hk : k ≠ .Eof) (h : Good (L + 1) s) :
    Res.Fine (fun s' => Good L s' ∧ s'.cur.kind = k) (s.expect k) := by
  cases he : s.expect k with
  | ok s' =>
    obtain ⟨hr, hc, hE⟩ := expect_live hk h.1 he
    refine ⟨⟨hE, ?_, ?_⟩, hc⟩
    · have := noClash_tail h.2.1; rwa [hr] at this
    · have := h.2.2; rw [hr] at this; simp at this; omega
  | err m => trivial
  | panic => trivial
  | hang =>
    simp only [PS.expect] at he
    split at he
    · split at he <;> cases he
    · cases he

/-- The recursive call halts on states with fewer than `L` tokens left, and unless it starts at `let` it ends at an operand's last token. -/
def Halts (L : Nat) (pe : PE F) : Prop :=
  ∀ prec s, EndsEof (s.cur :: s.rest) → NoClash (s.cur :: s.rest) → s.rest.length < L →
    Res.Fine (fun a => Good s.rest.length a.2 ∧ (s.cur.kind = .Let ∨ endsOperand a.2.cur.kind = true)) (pe prec s)

theorem halts_next {L : Nat} {pe : PE F} (hp : Halts (L + 1) pe) (prec : Nat) {K : Nat} {s : PS} (h : Good (K + 1) s) (hK : K ≤ L) :
    Res.Fine (fun a => Good K a.2 ∧ (s.next.cur.kind = .Let ∨ endsOperand a.2.cur.kind = true)) (pe prec s.next) := by
  obtain ⟨hE, hN, hl⟩ := h
  obtain ⟨t, r, hr⟩ := endsEof_cases hE
  rw [next_of hr]
  rw [hr] at hE hN hl
  simp at hl
  refine (hp prec ⟨t, r⟩ hE hN.2 (by dsimp only; omega)).mono ?_
  intro a ⟨⟨h1, h2, h3⟩, h4⟩
  exact ⟨⟨h1, h2, by dsimp only at h3; omega⟩, h4⟩

theorem skipSemi_good {L : Nat} {s : PS} (h : Good L s) : Good L (skipSemi s) := by
  unfold skipSemi
  split
  · rename_i hp
    obtain ⟨t, r, h1, h2⟩ := peekIs_true hp
    obtain ⟨hE, hN, hl⟩ := h
    rw [next_of h1]
    rw [h1] at hE hN hl
    refine ⟨endsEof_tail hE (by rw [h2]; decide), hN.2, ?_⟩
    simp at hl
    dsimp only
    omega
  · exact h

theorem good_pos {s : PS} {L : Nat} (h : Good L s) : 0 < L := by
  have := live_pos h.1
  have := h.2.2
  omega

theorem parseListLoop_halt {L : Nat} {pe : PE F} (hp : Halts (L + 1) pe) (endK : Kind) (n : Nat) :
    ∀ (K : Nat) (s : PS), Good K s → K ≤ n → K ≤ L + 1 → Res.Fine (fun a => Good K a.2) (parseListLoop pe endK n s) := by
  induction n with
  | zero => intro K s h hn; have := good_pos h; omega
  | succ n ih =>
    intro K s h hn hL
    obtain ⟨K, rfl⟩ : ∃ K', K = K' + 1 := ⟨K - 1, by have := good_pos h; omega⟩
    simp only [parseListLoop]
    split
    · exact h
    · refine (halts_next hp 0 h (by omega)).bind ?_
      rintro ⟨e, s1⟩ _ ⟨h1, _⟩
      dsimp only
      split
      · rw [Res.pure_eq, Res.ok_bind]
        refine (ih K s1 h1 (by omega) (by omega)).bind ?_
        rintro ⟨es, s2⟩ _ h2
        exact ⟨h2.1, h2.2.1, by have := h2.2.2; dsimp only at this ⊢; omega⟩
      · obtain ⟨K, rfl⟩ : ∃ K', K = K' + 1 := ⟨K - 1, by have := good_pos h1; omega⟩
        refine (expect_fine (by decide) h1).bind ?_
        rintro s2 _ ⟨h2, _⟩
        refine (ih K s2 h2 (by omega) (by omega)).bind ?_
        rintro ⟨es, s3⟩ _ h3
        exact ⟨h3.1, h3.2.1, by have := h3.2.2; dsimp only at this ⊢; omega⟩

theorem Good.weaken {L K : Nat} {s : PS} (h : Good L s) (hk : L ≤ K) : Good K s := ⟨h.1, h.2.1, by have := h.2.2; omega⟩

theorem parseList_halt {L : Nat} {pe : PE F} (hp : Halts (L + 1) pe) {endK : Kind} (hk : endK ≠ .Eof) {n K : Nat} {s : PS}
    (h : Good K s) (hn : K ≤ n) (hL : K ≤ L + 1) : Res.Fine (fun a => Good K a.2 ∧ a.2.cur.kind = endK) (parseList pe n endK s) := by
  simp only [parseList]
  refine (parseListLoop_halt hp endK n K s h hn hL).bind ?_
  rintro ⟨es, s1⟩ _ h1
  obtain ⟨K, rfl⟩ : ∃ K', K = K' + 1 := ⟨K - 1, by have := good_pos h1; omega⟩
  refine (expect_fine hk h1).bind ?_
  rintro s2 _ ⟨h2, h3⟩
  exact ⟨h2.weaken (by omega), h3⟩

theorem parsePairsLoop_halt {L : Nat} {pe : PE F} (hp : Halts (L + 1) pe) (n : Nat) :
    ∀ (K : Nat) (s : PS), Good K s → K ≤ n → K ≤ L + 1 → Res.Fine (fun a => Good K a.2) (parsePairsLoop pe n s) := by
  induction n with
  | zero => intro K s h hn; have := good_pos h; omega
  | succ n ih =>
    intro K s h hn hL
    obtain ⟨K, rfl⟩ : ∃ K', K = K' + 1 := ⟨K - 1, by have := good_pos h; omega⟩
    simp only [parsePairsLoop]
    split
    · exact h
    · refine (halts_next hp 0 h (by omega)).bind ?_
      rintro ⟨k, s1⟩ _ ⟨h1, _⟩
      obtain ⟨K, rfl⟩ : ∃ K', K = K' + 1 := ⟨K - 1, by have := good_pos h1; omega⟩
      refine (expect_fine (by decide) h1).bind ?_
      rintro s2 _ ⟨h2, _⟩
      obtain ⟨K, rfl⟩ : ∃ K', K = K' + 1 := ⟨K - 1, by have := good_pos h2; omega⟩
      refine (halts_next hp 0 h2 (by omega)).bind ?_
      rintro ⟨v, s3⟩ _ ⟨h3, _⟩
      dsimp only
      split
      · rw [Res.pure_eq, Res.ok_bind]
        refine (ih K s3 h3 (by omega) (by omega)).bind ?_
        rintro ⟨es, s4⟩ _ h4
        exact Good.weaken h4 (by omega)
      · obtain ⟨K, rfl⟩ : ∃ K', K = K' + 1 := ⟨K - 1, by have := good_pos h3; omega⟩
        refine (expect_fine (by decide) h3).bind ?_
        rintro s4 _ ⟨h4, _⟩
        refine (ih K s4 h4 (by omega) (by omega)).bind ?_
        rintro ⟨es, s5⟩ _ h5
        exact Good.weaken h5 (by omega)

theorem parseBlockLoop_halt {L : Nat} {pe : PE F} (hp : Halts (L + 1) pe) (n : Nat) :
    ∀ (K : Nat) (s : PS), Good K s → K ≤ n → K ≤ L + 1 → Res.Fine (fun a => Good K a.2) (parseBlockLoop pe n s) := by
  induction n with
  | zero => intro K s h hn; have := good_pos h; omega
  | succ n ih =>
    intro K s h hn hL
    obtain ⟨K, rfl⟩ : ∃ K', K = K' + 1 := ⟨K - 1, by have := good_pos h; omega⟩
    simp only [parseBlockLoop]
    split
    · exact h
    · refine (halts_next hp 0 h (by omega)).bind ?_
      rintro ⟨k, s1⟩ _ ⟨h1, _⟩
      refine (ih K _ (skipSemi_good h1) (by omega) (by omega)).bind ?_
      rintro ⟨es, s2⟩ _ h2
      exact Good.weaken h2 (by omega)

theorem parseBlock_halt {L : Nat} {pe : PE F} (hp : Halts (L + 1) pe) {n K : Nat} {s : PS}
    (h : Good K s) (hn : K ≤ n) (hL : K ≤ L + 1) : Res.Fine (fun a => Good K a.2 ∧ a.2.cur.kind = .Rb) (parseBlock pe n s) := by
  simp only [parseBlock]
  obtain ⟨K, rfl⟩ : ∃ K', K = K' + 1 := ⟨K - 1, by have := good_pos h; omega⟩
  refine (expect_fine (by decide) h).bind ?_
  rintro s1 _ ⟨h1, _⟩
  refine (parseBlockLoop_halt hp n K s1 h1 (by omega) (by omega)).bind ?_
  rintro ⟨es, s2⟩ _ h2
  obtain ⟨K, rfl⟩ : ∃ K', K = K' + 1 := ⟨K - 1, by have := good_pos h2; omega⟩
  refine (expect_fine (by decide) h2).bind ?_
  rintro s3 _ ⟨h3, h4⟩
  exact ⟨h3.weaken (by omega), h4⟩

/-- No `let` comes directly after an operator. -/
theorem next_not_let {K : Nat} {s : PS} (h : Good K s) (hop : isOperator s.cur.kind = true) : s.next.cur.kind ≠ .Let := by
  obtain ⟨hE, hN, _⟩ := h
  obtain ⟨t, r, hr⟩ := endsEof_cases hE
  rw [next_of hr]
  rw [hr] at hN
  intro hk
  exact hN.1 (Or.inr ⟨hop, hk⟩)

theorem parseUnary_halt {L : Nat} {pe : PE F} (hp : Halts (L + 1) pe) {K : Nat} {s : PS} (h : Good K s) (hK : K ≤ L + 1)
    (hk : isOperator s.cur.kind = true) : Res.Fine (fun a => Good K a.2 ∧ endsOperand a.2.cur.kind = true) (parseUnary pe s) := by
  simp only [parseUnary]
  obtain ⟨K, rfl⟩ : ∃ K', K = K' + 1 := ⟨K - 1, by have := good_pos h; omega⟩
  refine (halts_next hp _ h (by omega)).bind ?_
  rintro ⟨e, s1⟩ _ ⟨h1, h2⟩
  refine ⟨Good.weaken h1 (by omega), ?_⟩
  rcases h2 with h2 | h2
  · exact absurd h2 (next_not_let h hk)
  · exact h2

theorem parsePrefix_halt {L : Nat} {pe : PE F} (hp : Halts (L + 1) pe) {n prec : Nat} {s : PS} (hE : EndsEof (s.cur :: s.rest))
    (hN : NoClash (s.cur :: s.rest)) (hn : s.rest.length ≤ n) (hL : s.rest.length ≤ L + 1) :
    Res.Fine (fun a => Good s.rest.length a.2.2 ∧ (s.cur.kind = .Let ∧ a.2.1 = 255 ∨ endsOperand a.2.2.cur.kind = true)) (parsePrefix pe n prec s) := by
  have live : ∀ {k : Kind}, s.cur.kind = k → k ≠ .Eof → Good s.rest.length s :=
    fun h1 h2 => ⟨endsEof_tail hE (by rw [h1]; exact h2), hN, Nat.le_refl _⟩
  simp only [parsePrefix]
  split
  case h_1 hk => exact ⟨live hk (by decide), Or.inr (by dsimp only; rw [hk]; rfl)⟩
  case h_2 hk =>
    simp only [parseInteger]
    split
    · exact ⟨live hk (by decide), Or.inr (by dsimp only; rw [hk]; rfl)⟩
    · trivial
  case h_3 hk =>
    simp only [parseFloat]
    split
    · exact ⟨live hk (by decide), Or.inr (by dsimp only; rw [hk]; rfl)⟩
    · trivial
  case h_4 hk =>
    simp only [parseBoolean]
    split
    · exact ⟨live hk (by decide), Or.inr (by dsimp only; rw [hk]; rfl)⟩
    · trivial
  case h_5 hk =>
    simp only [parseBoolean]
    split
    · exact ⟨live hk (by decide), Or.inr (by dsimp only; rw [hk]; rfl)⟩
    · trivial
  case h_6 hk => exact ⟨live hk (by decide), Or.inr (by dsimp only; rw [hk]; rfl)⟩
  case h_7 hk =>
    have hg := live hk (by decide)
    revert hg hL hn
    generalize s.rest.length = K
    intro hL hn hg
    refine Res.Fine.bind (P := fun a => Good K a.2) ?_ ?_
    · simp only [parseLet]
      obtain ⟨K, rfl⟩ : ∃ K', K = K' + 1 := ⟨K - 1, by have := good_pos hg; omega⟩
      refine (expect_fine (by decide) hg).bind ?_
      rintro s1 _ ⟨h1, _⟩
      obtain ⟨K, rfl⟩ : ∃ K', K = K' + 1 := ⟨K - 1, by have := good_pos h1; omega⟩
      refine (expect_fine (by decide) h1).bind ?_
      rintro s2 _ ⟨h2, _⟩
      obtain ⟨K, rfl⟩ : ∃ K', K = K' + 1 := ⟨K - 1, by have := good_pos h2; omega⟩
      refine (halts_next hp _ h2 (by omega)).bind ?_
      rintro ⟨e, s3⟩ _ ⟨h3, _⟩
      exact (skipSemi_good h3).weaken (by omega)
    · rintro ⟨e, s1⟩ _ h1
      exact ⟨h1, Or.inl ⟨hk, rfl⟩⟩
  case h_8 hk =>
    refine (parseUnary_halt hp (live hk (by decide)) hL (by rw [hk]; rfl)).bind ?_
    rintro ⟨e, s1⟩ _ ⟨h1, h2⟩
    exact ⟨h1, Or.inr h2⟩
  case h_9 hk =>
    refine (parseUnary_halt hp (live hk (by decide)) hL (by rw [hk]; rfl)).bind ?_
    rintro ⟨e, s1⟩ _ ⟨h1, h2⟩
    exact ⟨h1, Or.inr h2⟩
  case h_10 hk =>
    have hg := live hk (by decide)
    revert hg hL hn
    generalize s.rest.length = K
    intro hL hn hg
    refine Res.Fine.bind (P := fun a => Good K a.2 ∧ a.2.cur.kind = .Rp) ?_ ?_
    · simp only [parseParen]
      obtain ⟨K, rfl⟩ : ∃ K', K = K' + 1 := ⟨K - 1, by have := good_pos hg; omega⟩
      refine (halts_next hp _ hg (by omega)).bind ?_
      rintro ⟨e, s3⟩ _ ⟨h3, _⟩
      obtain ⟨K, rfl⟩ : ∃ K', K = K' + 1 := ⟨K - 1, by have := good_pos h3; omega⟩
      refine (expect_fine (by decide) h3).bind ?_
      rintro s2 _ ⟨h2, h4⟩
      exact ⟨h2.weaken (by omega), h4⟩
    · rintro ⟨e, s1⟩ _ ⟨h1, h2⟩
      exact ⟨h1, Or.inr (by dsimp only at h2 ⊢; rw [h2]; rfl)⟩
  case h_11 hk =>
    have hg := live hk (by decide)
    revert hg hL hn
    generalize s.rest.length = K
    intro hL hn hg
    refine Res.Fine.bind (P := fun a => Good K a.2 ∧ a.2.cur.kind = .Rb) ?_ ?_
    · simp only [parseIf]
      obtain ⟨K, rfl⟩ : ∃ K', K = K' + 1 := ⟨K - 1, by have := good_pos hg; omega⟩
      refine (expect_fine (by decide) hg).bind ?_
      rintro s1 _ ⟨h1, _⟩
      obtain ⟨K, rfl⟩ : ∃ K', K = K' + 1 := ⟨K - 1, by have := good_pos h1; omega⟩
      refine (halts_next hp _ h1 (by omega)).bind ?_
      rintro ⟨c, s2⟩ _ ⟨h2, _⟩
      obtain ⟨K, rfl⟩ : ∃ K', K = K' + 1 := ⟨K - 1, by have := good_pos h2; omega⟩
      refine (expect_fine (by decide) h2).bind ?_
      rintro s3 _ ⟨h3, _⟩
      refine (parseBlock_halt hp h3 (by omega) (by omega)).bind ?_
      rintro ⟨t, s4⟩ _ ⟨h4, h4'⟩
      dsimp only
      split
      · rename_i hel
        obtain ⟨el, rl, hr5, hc5⟩ := peekIs_true hel
        rw [next_of hr5]
        have h5 : Good K ⟨el, rl⟩ := by
          obtain ⟨hE4, hN4, hl4⟩ := h4
          dsimp only at hE4 hN4 hl4
          rw [hr5] at hE4 hN4 hl4
          exact ⟨endsEof_tail hE4 (by rw [hc5]; decide), hN4.2, by simp at hl4; dsimp only; omega⟩
        refine (parseBlock_halt hp h5 (by omega) (by omega)).bind ?_
        rintro ⟨e, s6⟩ _ ⟨h6, h6'⟩
        exact ⟨Good.weaken h6 (by omega), h6'⟩
      · exact ⟨Good.weaken h4 (by omega), h4'⟩
    · rintro ⟨e, s1⟩ _ ⟨h1, h2⟩
      exact ⟨h1, Or.inr (by dsimp only at h2 ⊢; rw [h2]; rfl)⟩
  case h_12 hk =>
    refine Res.Fine.bind (P := fun a => Good s.rest.length a.2 ∧ a.2.cur.kind = .Rs) ?_ ?_
    · simp only [parseArray]
      refine (parseList_halt hp (by decide) (live hk (by decide)) hn hL).bind ?_
      rintro ⟨e, s1⟩ _ h1
      exact h1
    · rintro ⟨e, s1⟩ _ ⟨h1, h2⟩
      exact ⟨h1, Or.inr (by dsimp only at h2 ⊢; rw [h2]; rfl)⟩
  case h_13 hk =>
    have hg := live hk (by decide)
    revert hg hL hn
    generalize s.rest.length = K
    intro hL hn hg
    refine Res.Fine.bind (P := fun a => Good K a.2 ∧ a.2.cur.kind = .Rb) ?_ ?_
    · simp only [parseMap]
      refine (parsePairsLoop_halt hp n K s hg (by omega) (by omega)).bind ?_
      rintro ⟨ps, s1⟩ _ h1
      obtain ⟨K, rfl⟩ : ∃ K', K = K' + 1 := ⟨K - 1, by have := good_pos h1; omega⟩
      refine (expect_fine (by decide) h1).bind ?_
      rintro s2 _ ⟨h2, h4⟩
      exact ⟨h2.weaken (by omega), h4⟩
    · rintro ⟨e, s1⟩ _ ⟨h1, h2⟩
      exact ⟨h1, Or.inr (by dsimp only at h2 ⊢; rw [h2]; rfl)⟩
  case h_14 => trivial

theorem unhandled_is_not {k : Kind} (h : 0 < k.precedence) (hb : k.isBinary = false) (h1 : k ≠ .Lp) (h2 : k ≠ .Ls) (h3 : k ≠ .Dot) :
    k = .Not := by
  cases k <;> simp_all [Kind.precedence, Kind.isBinary]

theorem parseLoop_halt {L : Nat} {pe : PE F} (hp : Halts (L + 1) pe) (prec : Nat) (n : Nat) :
    ∀ (K : Nat) (left : Expr F) (s : PS), Good K s → K ≤ n → K ≤ L + 1 → endsOperand s.cur.kind = true →
      Res.Fine (fun a => Good K a.2 ∧ endsOperand a.2.cur.kind = true) (parseLoop pe prec n left s) := by
  induction n with
  | zero => intro K left s h hn; have := good_pos h; omega
  | succ n ih =>
    intro K left s h hn hL hend
    obtain ⟨K, rfl⟩ : ∃ K', K = K' + 1 := ⟨K - 1, by have := good_pos h; omega⟩
    have hg := h
    obtain ⟨hE, hN, hl⟩ := h
    obtain ⟨c, l⟩ := s
    obtain ⟨t, r, hl'⟩ := endsEof_cases hE
    simp at hl'
    subst hl'
    have weak : ∀ {J : Nat} {x : Res (Expr F × PS)}, J ≤ K + 1 → Res.Fine (fun a => Good J a.2 ∧ endsOperand a.2.cur.kind = true) x →
        Res.Fine (fun a => Good (K + 1) a.2 ∧ endsOperand a.2.cur.kind = true) x :=
      fun hJ hx => hx.mono (fun a ha => ⟨ha.1.weaken hJ, ha.2⟩)
    by_cases hcond : (!(PS.mk c (t :: r)).peekIs .Semi && decide (prec < (PS.mk c (t :: r)).peekPrec)) = true
    · have hc : t.kind ≠ .Semi ∧ prec < t.kind.precedence := by
        rw [peekIs_cons] at hcond
        have h1 : (PS.mk c (t :: r)).peekPrec = t.kind.precedence := rfl
        simp [h1] at hcond
        exact hcond
      have hEr : t.kind ≠ .Eof := by intro h1; rw [h1] at hc; simp [Kind.precedence] at hc
      have hg1 : Good K ⟨t, r⟩ := ⟨endsEof_tail hE hEr, hN.2, by simp at hl; dsimp only; omega⟩
      simp only [parseLoop, if_pos hcond, PS.peek, List.head?_cons, next_cons]
      by_cases hb : t.kind.isBinary = true
      · rw [if_pos hb]
        obtain ⟨K, rfl⟩ : ∃ K', K = K' + 1 := ⟨K - 1, by have := good_pos hg1; omega⟩
        simp only [parseBinary]
        refine Res.Fine.bind (P := fun a => Good K a.2 ∧ endsOperand a.2.cur.kind = true) ?_ ?_
        · refine (halts_next hp _ hg1 (by omega)).bind ?_
          rintro ⟨e, s1⟩ _ ⟨h1, h2⟩
          refine ⟨h1, ?_⟩
          rcases h2 with h2 | h2
          · exact absurd h2 (next_not_let hg1 (by simp [isOperator, hb]))
          · exact h2
        · rintro ⟨e, s1⟩ _ ⟨h1, h2⟩
          exact weak (by omega) (ih K e s1 h1 (by omega) (by omega) h2)
      · rw [if_neg hb]
        by_cases hpp : t.kind = .Lp
        · rw [if_pos hpp]
          simp only [parseCall]
          refine Res.Fine.bind (P := fun a => Good K a.2 ∧ endsOperand a.2.cur.kind = true) ?_ ?_
          · refine (parseList_halt hp (by decide) hg1 (by omega) (by omega)).bind ?_
            rintro ⟨e, s1⟩ _ ⟨h1, h2⟩
            dsimp only
            split
            · exact ⟨h1, by dsimp only at h2 ⊢; rw [h2]; rfl⟩
            · trivial
          · rintro ⟨e, s1⟩ _ ⟨h1, h2⟩
            exact weak (by omega) (ih K e s1 h1 (by omega) (by omega) h2)
        · rw [if_neg hpp]
          by_cases hq : t.kind = .Ls
          · rw [if_pos hq]
            obtain ⟨K, rfl⟩ : ∃ K', K = K' + 1 := ⟨K - 1, by have := good_pos hg1; omega⟩
            simp only [parseIndex]
            refine Res.Fine.bind (P := fun a => Good K a.2 ∧ endsOperand a.2.cur.kind = true) ?_ ?_
            · refine (halts_next hp _ hg1 (by omega)).bind ?_
              rintro ⟨e, s1⟩ _ ⟨h1, h2⟩
              obtain ⟨K, rfl⟩ : ∃ K', K = K' + 1 := ⟨K - 1, by have := good_pos h1; omega⟩
              refine (expect_fine (by decide) h1).bind ?_
              rintro s2 _ ⟨h3, h4⟩
              exact ⟨h3.weaken (by omega), by dsimp only; rw [h4]; rfl⟩
            · rintro ⟨e, s1⟩ _ ⟨h1, h2⟩
              exact weak (by omega) (ih K e s1 h1 (by omega) (by omega) h2)
          · rw [if_neg hq]
            by_cases hd : t.kind = .Dot
            · rw [if_pos hd]
              obtain ⟨K, rfl⟩ : ∃ K', K = K' + 1 := ⟨K - 1, by have := good_pos hg1; omega⟩
              simp only [parseField]
              refine Res.Fine.bind (P := fun a => Good K a.2 ∧ endsOperand a.2.cur.kind = true) ?_ ?_
              · refine (expect_fine (by decide) hg1).bind ?_
                rintro s2 _ ⟨h3, h4⟩
                exact ⟨h3, by dsimp only; rw [h4]; rfl⟩
              · rintro ⟨e, s1⟩ _ ⟨h1, h2⟩
                exact weak (by omega) (ih K e s1 h1 (by omega) (by omega) h2)
            · exfalso
              have hnot := unhandled_is_not (by omega) (by simpa using hb) hpp hq hd
              exact hN.1 (Or.inl ⟨hend, hnot⟩)
    · simp only [parseLoop, if_neg hcond]
      exact ⟨hg, hend⟩

theorem parseExpr_halt (L : Nat) : ∀ n, L ≤ n → Halts (F := F) L (parseExpr n) := by
  induction L with
  | zero => intro n _ prec s _ _ h; omega
  | succ L ih =>
    intro n hn prec s hE hN hlen
    cases n with
    | zero => omega
    | succ n =>
      by_cases hk : s.cur.kind = .Eof
      · simp only [parseExpr, parsePrefix, hk]; trivial
      · have hlive := endsEof_tail hE hk
        obtain ⟨L, rfl⟩ : ∃ L', L = L' + 1 := ⟨L - 1, by have := live_pos hlive; omega⟩
        have hH := ih n (by omega)
        simp only [parseExpr]
        refine (parsePrefix_halt hH hE hN (by omega) (by omega)).bind ?_
        rintro ⟨left, p, s1⟩ _ ⟨hg, hp⟩
        dsimp only at hg hp ⊢
        rcases hp with ⟨hk, rfl⟩ | hp
        · cases n with
          | zero => omega
          | succ n =>
            have := peekPrec_le s1
            simp only [parseLoop]
            rw [if_neg (by simp; intro _; omega)]
            exact ⟨hg, Or.inl hk⟩
        · exact (parseLoop_halt hH p n s.rest.length left s1 hg (by omega) (by omega) hp).mono (fun a h => ⟨h.1, Or.inr h.2⟩)

theorem parseItem_halt {n : Nat} {src : Source F} {s : PS} (hE : EndsEof (s.cur :: s.rest)) (hN : NoClash (s.cur :: s.rest))
    (hk : s.cur.kind ≠ .Eof) (hn : s.rest.length < n) : Res.Fine (fun a => Good s.rest.length a.2) (parseItem n src s) := by
  have hH : Halts (F := F) (s.rest.length + 1) (parseExpr n) := parseExpr_halt _ n hn
  have hg : Good s.rest.length s := ⟨endsEof_tail hE hk, hN, Nat.le_refl _⟩
  simp only [parseItem]
  split
  · revert hg hn hH
    generalize s.rest.length = K
    intro hn hH hg
    refine Res.Fine.bind (P := fun a => Good K a.2) ?_ ?_
    · simp only [parseRequest]
      obtain ⟨K, rfl⟩ : ∃ K', K = K' + 1 := ⟨K - 1, by have := good_pos hg; omega⟩
      refine (expect_fine (by decide) hg).bind ?_
      rintro s1 _ ⟨h1, _⟩
      obtain ⟨K, rfl⟩ : ∃ K', K = K' + 1 := ⟨K - 1, by have := good_pos h1; omega⟩
      refine (expect_fine (by decide) h1).bind ?_
      rintro s2 _ ⟨h2, _⟩
      split
      · rename_i hel
        obtain ⟨el, rl, hr5, hc5⟩ := peekIs_true hel
        rw [next_of hr5]
        have h5 : Good K ⟨el, rl⟩ := by
          obtain ⟨hE4, hN4, hl4⟩ := h2
          rw [hr5] at hE4 hN4 hl4
          exact ⟨endsEof_tail hE4 (by rw [hc5]; decide), hN4.2, by simp at hl4; dsimp only; omega⟩
        refine (parseList_halt hH (by decide) h5 (by omega) (by omega)).bind ?_
        rintro ⟨e, s6⟩ _ ⟨h6, h6'⟩
        exact Good.weaken h6 (by omega)
      · exact Good.weaken h2 (by omega)
    · rintro ⟨e, s1⟩ _ h1
      exact h1
  · revert hg hn hH
    generalize s.rest.length = K
    intro hn hH hg
    refine Res.Fine.bind (P := fun a => Good K a.2) ?_ ?_
    · simp only [parseTest]
      obtain ⟨K, rfl⟩ : ∃ K', K = K' + 1 := ⟨K - 1, by have := good_pos hg; omega⟩
      refine (expect_fine (by decide) hg).bind ?_
      rintro s1 _ ⟨h1, _⟩
      refine (parseBlock_halt hH h1 (by omega) (by omega)).bind ?_
      rintro ⟨e, s6⟩ _ ⟨h6, h6'⟩
      exact Good.weaken h6 (by omega)
    · rintro ⟨e, s1⟩ _ h1
      exact h1
  · refine (hH 0 s hE hN (by omega)).bind ?_
    rintro ⟨e, s1⟩ _ ⟨h1, _⟩
    exact h1

theorem parseTop_halt {n : Nat} (k : Nat) : ∀ (src : Source F) (s : PS), EndsEof (s.cur :: s.rest) → NoClash (s.cur :: s.rest) →
    s.rest.length < n → s.rest.length < k → Res.Fine (fun _ => True) (parseTop n k src s) := by
  induction k with
  | zero => intro src s _ _ _ h; omega
  | succ k ih =>
    intro src s hE hN hn hk
    simp only [parseTop]
    split
    · trivial
    · rename_i hne
      refine (parseItem_halt hE hN hne hn).bind ?_
      rintro ⟨src1, s1⟩ _ h1
      have h2 := skipSemi_good h1
      dsimp only at h2 ⊢
      obtain ⟨hE3, hl3, he3⟩ := next_len h2.1
      have hN3 := noClash_tail h2.2.1
      rw [he3] at hN3
      have := h2.2.2
      exact ih src1 _ hE3 hN3 (by omega) (by omega)

end Am
