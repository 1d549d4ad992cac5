import Verif.Proofs.Stack
/-! # Room for nested calls by the number of openings -/
set_option linter.unusedSimpArgs false
set_option linter.unusedSectionVars false
namespace Am
open Spec
variable {F : Type} [Rt F]

/-- No crash. -/
def Res.Calm {α : Type} (x : Res α) : Prop := x ≠ .panic

theorem Res.Calm.bind {α β : Type} {x : Res α} {f : α → Res β} (h : x.Calm) (hf : ∀ a, x = .ok a → (f a).Calm) : (x >>= f).Calm := by
  cases x with
  | ok a => exact hf a rfl
  | err m => exact fun h => nomatch h
  | panic => exact absurd rfl h
  | hang => exact fun h => nomatch h

theorem Res.Calm.pure {α : Type} {a : α} : (Pure.pure a : Res α).Calm := fun h => nomatch h
theorem Res.Calm.err {α : Type} {m : Str} : (Res.err m : Res α).Calm := fun h => nomatch h
theorem Res.Calm.hang {α : Type} : (Res.hang : Res α).Calm := fun h => nomatch h

theorem openings_append (a b : List Token) : openings (a ++ b) = openings a + openings b := by simp [openings]

theorem openings_cons (t : Token) (r : List Token) : openings (t :: r) = (if opens t.kind then 1 else 0) + openings r := by
  simp only [openings, List.filter_cons]
  split <;> simp <;> omega

theorem openings_suffix {a b c : List Token} (h : a = b ++ c) : openings c ≤ openings a := by rw [h, openings_append]; omega

theorem expect_calm (s : PS) (k : Kind) : (s.expect k).Calm := by
  simp only [PS.expect]
  split
  · split <;> exact fun h => nomatch h
  · exact .err

theorem sound_next_op {pe : PE F} (hs : SoundPE pe) {prec : Nat} {s : PS} {e : Expr F} {s' : PS} (h : EndsEof s.rest)
    (hp : pe prec s.next = .ok (e, s')) : EndsEof s'.rest ∧ openings s'.rest ≤ openings s.rest := by
  obtain ⟨ts, h1, _, h2, _⟩ := sound_next hs h hp
  exact ⟨h2, openings_suffix h1⟩

theorem expect_op {s s' : PS} {k : Kind} (hk : k ≠ .Eof) (h : EndsEof s.rest) (he : s.expect k = .ok s') :
    EndsEof s'.rest ∧ openings s.rest = (if opens k then 1 else 0) + openings s'.rest := by
  obtain ⟨h1, h2, h3⟩ := expect_live hk h he
  exact ⟨h3, by rw [h1, openings_cons, h2]⟩

theorem skipSemi_op {s : PS} (h : EndsEof s.rest) : EndsEof (skipSemi s).rest ∧ openings (skipSemi s).rest ≤ openings s.rest := by
  obtain ⟨sm, h1, _, h2⟩ := skipSemi_spec s h
  exact ⟨h2, openings_suffix h1⟩

/-- `pe` does not crash where fewer than `o` openings are left. -/
def CalmPE (o : Nat) (pe : PE F) : Prop := ∀ prec s, EndsEof (s.cur :: s.rest) → openings (s.cur :: s.rest) < o → (pe prec s).Calm

theorem calm_next {o : Nat} {pe : PE F} (hc : CalmPE o pe) {prec : Nat} {s : PS} (hE : EndsEof s.rest) (ho : openings s.rest < o) :
    (pe prec s.next).Calm := by
  obtain ⟨t, r, h1⟩ := endsEof_cases hE
  rw [next_of h1]
  rw [h1] at hE ho
  exact hc _ _ hE ho

theorem parseListLoop_calm {o : Nat} {pe : PE F} (hs : SoundPE pe) (hc : CalmPE o pe) (endK : Kind) (n : Nat) :
    ∀ (s : PS), EndsEof s.rest → openings s.rest < o → (parseListLoop pe endK n s).Calm := by
  induction n with
  | zero => intro s _ _; exact .hang
  | succ n ih =>
    intro s hE ho
    simp only [parseListLoop]
    split
    · exact .pure
    · refine .bind (calm_next hc hE ho) ?_
      rintro ⟨e, s1⟩ h1
      obtain ⟨hE1, ho1⟩ := sound_next_op hs hE h1
      dsimp only
      split
      · refine .bind .pure ?_
        intro s2 h2
        cases h2
        exact .bind (ih _ hE1 (by omega)) fun _ _ => .pure
      · refine .bind (expect_calm _ _) ?_
        intro s2 h2
        obtain ⟨hE2, ho2⟩ := expect_op (by decide) hE1 h2
        exact .bind (ih _ hE2 (by omega)) fun _ _ => .pure

theorem parseList_calm {o n : Nat} {pe : PE F} (hs : SoundPE pe) (hc : CalmPE o pe) (endK : Kind) {s : PS} (hE : EndsEof s.rest)
    (ho : openings s.rest < o) : (parseList pe n endK s).Calm := by
  simp only [parseList]
  exact .bind (parseListLoop_calm hs hc endK n s hE ho) fun _ _ => .bind (expect_calm _ _) fun _ _ => .pure

theorem parsePairsLoop_calm {o : Nat} {pe : PE F} (hs : SoundPE pe) (hc : CalmPE o pe) (n : Nat) :
    ∀ (s : PS), EndsEof s.rest → openings s.rest < o → (parsePairsLoop pe n s).Calm := by
  induction n with
  | zero => intro s _ _; exact .hang
  | succ n ih =>
    intro s hE ho
    simp only [parsePairsLoop]
    split
    · exact .pure
    · refine .bind (calm_next hc hE ho) ?_
      rintro ⟨k, s1⟩ h1
      obtain ⟨hE1, ho1⟩ := sound_next_op hs hE h1
      refine .bind (expect_calm _ _) ?_
      intro s2 h2
      obtain ⟨hE2, ho2⟩ := expect_op (by decide) hE1 h2
      refine .bind (calm_next hc hE2 (by omega)) ?_
      rintro ⟨v, s3⟩ h3
      obtain ⟨hE3, ho3⟩ := sound_next_op hs hE2 h3
      dsimp only
      split
      · refine .bind .pure ?_
        intro s4 h4
        cases h4
        exact .bind (ih _ hE3 (by omega)) fun _ _ => .pure
      · refine .bind (expect_calm _ _) ?_
        intro s4 h4
        obtain ⟨hE4, ho4⟩ := expect_op (by decide) hE3 h4
        exact .bind (ih _ hE4 (by omega)) fun _ _ => .pure

theorem parseBlockLoop_calm {o : Nat} {pe : PE F} (hs : SoundPE pe) (hc : CalmPE o pe) (n : Nat) :
    ∀ (s : PS), EndsEof s.rest → openings s.rest < o → (parseBlockLoop pe n s).Calm := by
  induction n with
  | zero => intro s _ _; exact .hang
  | succ n ih =>
    intro s hE ho
    simp only [parseBlockLoop]
    split
    · exact .pure
    · refine .bind (calm_next hc hE ho) ?_
      rintro ⟨e, s1⟩ h1
      obtain ⟨hE1, ho1⟩ := sound_next_op hs hE h1
      obtain ⟨hE2, ho2⟩ := skipSemi_op hE1
      exact .bind (ih _ hE2 (by dsimp only; omega)) fun _ _ => .pure

theorem parseBlock_calm {o n : Nat} {pe : PE F} (hs : SoundPE pe) (hc : CalmPE o pe) {s : PS} (hE : EndsEof s.rest)
    (ho : openings s.rest ≤ o) : (parseBlock pe n s).Calm := by
  simp only [parseBlock]
  refine .bind (expect_calm _ _) ?_
  intro s1 h1
  obtain ⟨hE1, ho1⟩ := expect_op (by decide) hE h1
  simp [opens] at ho1
  exact .bind (parseBlockLoop_calm hs hc n s1 hE1 (by omega)) fun _ _ => .bind (expect_calm _ _) fun _ _ => .pure

theorem parseBlock_op {pe : PE F} (hs : SoundPE pe) {n : Nat} {s : PS} {es : List (Expr F)} {s' : PS} (hE : EndsEof s.rest)
    (h : parseBlock pe n s = .ok (es, s')) : EndsEof s'.rest ∧ openings s'.rest ≤ openings s.rest := by
  obtain ⟨ts, h1, h2, _⟩ := parseBlock_sound hs hE h
  exact ⟨h2, openings_suffix h1⟩

theorem parsePrefix_calm {o n prec : Nat} {pe : PE F} (hs : SoundPE pe) (hc : CalmPE o pe) {s : PS} (hE0 : EndsEof (s.cur :: s.rest))
    (ho : openings (s.cur :: s.rest) ≤ o) : (parsePrefix pe n prec s).Calm := by
  have live : ∀ {k : Kind}, s.cur.kind = k → k ≠ .Eof → EndsEof s.rest := fun h1 h2 => endsEof_tail hE0 (by rw [h1]; exact h2)
  have op : ∀ {k : Kind}, s.cur.kind = k → opens k = true → openings s.rest < o := by
    intro k h1 h2
    rw [openings_cons, h1, h2, if_pos rfl] at ho
    omega
  simp only [parsePrefix]
  split
  case h_2 => exact .bind (by simp only [parseInteger]; split <;> exact fun h => nomatch h) fun _ _ => .pure
  case h_3 => exact .bind (by simp only [parseFloat]; split <;> exact fun h => nomatch h) fun _ _ => .pure
  case h_4 => exact .bind (by simp only [parseBoolean]; split <;> exact fun h => nomatch h) fun _ _ => .pure
  case h_5 => exact .bind (by simp only [parseBoolean]; split <;> exact fun h => nomatch h) fun _ _ => .pure
  case h_7 hk =>
    refine .bind ?_ fun _ _ => .pure
    simp only [parseLet]
    refine .bind (expect_calm _ _) ?_
    intro s1 h1
    obtain ⟨hE1, ho1⟩ := expect_op (by decide) (live hk (by decide)) h1
    refine .bind (expect_calm _ _) ?_
    intro s2 h2
    obtain ⟨hE2, ho2⟩ := expect_op (by decide) hE1 h2
    have := op hk rfl
    exact .bind (calm_next hc hE2 (by omega)) fun _ _ => .pure
  case h_8 hk =>
    exact .bind (.bind (calm_next hc (live hk (by decide)) (op hk rfl)) fun _ _ => .pure) fun _ _ => .pure
  case h_9 hk =>
    exact .bind (.bind (calm_next hc (live hk (by decide)) (op hk rfl)) fun _ _ => .pure) fun _ _ => .pure
  case h_10 hk =>
    exact .bind (.bind (calm_next hc (live hk (by decide)) (op hk rfl)) fun _ _ => .bind (expect_calm _ _) fun _ _ => .pure) fun _ _ => .pure
  case h_11 hk =>
    refine .bind ?_ fun _ _ => .pure
    rw [openings_cons, hk] at ho
    simp [opens] at ho
    simp only [parseIf]
    refine .bind (expect_calm _ _) ?_
    intro s1 h1
    obtain ⟨hE1, ho1⟩ := expect_op (by decide) (live hk (by decide)) h1
    simp [opens] at ho1
    refine .bind (calm_next hc hE1 (by omega)) ?_
    rintro ⟨c, s2⟩ h2
    obtain ⟨hE2, ho2⟩ := sound_next_op hs hE1 h2
    refine .bind (expect_calm _ _) ?_
    intro s3 h3
    obtain ⟨hE3, ho3⟩ := expect_op (by decide) hE2 h3
    refine .bind (parseBlock_calm hs hc hE3 (by omega)) ?_
    rintro ⟨t, s4⟩ h4
    obtain ⟨hE4, ho4⟩ := parseBlock_op hs hE3 h4
    dsimp only
    split
    · rename_i hel
      obtain ⟨el, rl, hr5, hc5⟩ := peekIs_true hel
      rw [next_of hr5]
      rw [hr5] at hE4 ho4
      rw [openings_cons] at ho4
      exact .bind (parseBlock_calm hs hc (s := ⟨el, rl⟩) (endsEof_tail hE4 (by rw [hc5]; decide)) (by dsimp only; omega)) fun _ _ => .pure
    · exact .pure
  case h_12 hk =>
    exact .bind (.bind (parseList_calm hs hc _ (live hk (by decide)) (op hk rfl)) fun _ _ => .pure) fun _ _ => .pure
  case h_13 hk =>
    exact .bind (.bind (parsePairsLoop_calm hs hc _ _ (live hk (by decide)) (op hk rfl)) fun _ _ => .bind (expect_calm _ _) fun _ _ => .pure)
      fun _ _ => .pure
  all_goals first | exact .pure | exact .err

theorem binary_prec {k : Kind} (h : k.isBinary = true) : k.precedence ≤ 10 := by cases k <;> first | decide | cases h

theorem parseLoop_calm {o : Nat} {pe : PE F} (hs : SoundPE pe) (hc : CalmPE o pe) (prec : Nat)
    (hb : ∀ p s, prec < p → p ≤ 10 → EndsEof (s.cur :: s.rest) → openings (s.cur :: s.rest) ≤ o → (pe p s).Calm) (n : Nat) :
    ∀ (left : Expr F) (s : PS), EndsEof s.rest → openings s.rest ≤ o → (parseLoop pe prec n left s).Calm := by
  induction n with
  | zero => intro left s _ _; exact .hang
  | succ n ih =>
    intro left s hE ho
    obtain ⟨c, l⟩ := s
    obtain ⟨t, r, hl⟩ := endsEof_cases hE
    simp at hl
    subst hl
    by_cases hcond : (!(PS.mk c (t :: r)).peekIs .Semi && decide (prec < (PS.mk c (t :: r)).peekPrec)) = true
    · have hcc : t.kind ≠ .Semi ∧ prec < t.kind.precedence := by
        rw [peekIs_cons] at hcond
        have h1 : (PS.mk c (t :: r)).peekPrec = t.kind.precedence := rfl
        simp [h1] at hcond
        exact hcond
      have hEr : t.kind ≠ .Eof := by intro h1; rw [h1] at hcc; simp [Kind.precedence] at hcc
      have hE1 : EndsEof r := endsEof_tail hE hEr
      dsimp only at ho
      rw [openings_cons] at ho
      simp only [parseLoop, if_pos hcond, PS.peek, List.head?_cons, next_cons]
      by_cases hbin : t.kind.isBinary = true
      · rw [if_pos hbin]
        simp only [parseBinary]
        obtain ⟨t2, r2, h2⟩ := endsEof_cases hE1
        refine .bind (.bind ?_ fun _ _ => .pure) ?_
        · rw [next_of h2]
          rw [h2] at hE1 ho
          exact hb _ _ hcc.2 (binary_prec hbin) hE1 (by dsimp only; omega)
        · rintro a h1
          obtain ⟨⟨rt, s1⟩, h2, h1⟩ := Res.bind_ok h1
          simp [Res.pure_eq] at h1
          subst h1
          obtain ⟨hE2, ho2⟩ := sound_next_op hs (s := ⟨t, r⟩) hE1 h2
          exact ih _ _ hE2 (by dsimp only at *; omega)
      · rw [if_neg hbin]
        by_cases hp : t.kind = .Lp
        · rw [if_pos hp]
          rw [hp] at ho
          simp [opens] at ho
          refine .bind ?_ ?_
          · simp only [parseCall]
            refine .bind (parseList_calm hs hc _ (s := ⟨t, r⟩) hE1 (by dsimp only; omega)) fun _ _ => ?_
            split
            · exact .pure
            · exact .err
          · rintro ⟨e1, s1⟩ h1
            obtain ⟨_, _, ts, _, _, hr, _, hE2, _⟩ := parseCall_sound hs (s := ⟨t, r⟩) hE1 h1
            have : openings s1.rest ≤ openings r := openings_suffix (b := ts ++ [s1.cur]) (by simpa using hr)
            exact ih _ _ hE2 (by dsimp only; omega)
        · rw [if_neg hp]
          by_cases hq : t.kind = .Ls
          · rw [if_pos hq]
            rw [hq] at ho
            simp [opens] at ho
            simp only [parseIndex]
            refine .bind (.bind (calm_next hc (s := ⟨t, r⟩) hE1 (by dsimp only; omega)) fun _ _ => .bind (expect_calm _ _) fun _ _ => .pure) ?_
            intro a h1
            obtain ⟨⟨i, s1⟩, h2, h1⟩ := Res.bind_ok h1
            obtain ⟨s2, h3, h1⟩ := Res.bind_ok h1
            simp [Res.pure_eq] at h1
            subst h1
            obtain ⟨hE2, ho2⟩ := sound_next_op hs (s := ⟨t, r⟩) hE1 h2
            obtain ⟨hE3, ho3⟩ := expect_op (by decide) hE2 h3
            exact ih _ _ hE3 (by dsimp only at *; omega)
          · rw [if_neg hq]
            by_cases hd : t.kind = .Dot
            · rw [if_pos hd]
              simp only [parseField]
              refine .bind (.bind (expect_calm _ _) fun _ _ => .pure) ?_
              intro a h1
              obtain ⟨s2, h3, h1⟩ := Res.bind_ok h1
              simp [Res.pure_eq] at h1
              subst h1
              obtain ⟨hE3, ho3⟩ := expect_op (s := ⟨t, r⟩) (by decide) hE1 h3
              exact ih _ _ hE3 (by dsimp only at *; omega)
            · rw [if_neg hd, parseLoop_stuck n hcc.1 hcc.2 (by simpa using hbin) hp hq hd]
              exact .hang
    · simp only [parseLoop, if_neg hcond]
      exact .pure

/-- Eleven calls per opening are enough. -/
theorem parseExprIn_calm (n d : Nat) : ∀ (prec : Nat) (s : PS), EndsEof (s.cur :: s.rest) →
    11 * openings (s.cur :: s.rest) + max 1 (11 - prec) ≤ d → (parseExprIn (F := F) n d prec s).Calm := by
  induction d with
  | zero => intro prec s _ h; omega
  | succ d ih =>
    intro prec s hE ho
    have hc : CalmPE (F := F) (openings (s.cur :: s.rest)) (parseExprIn n d) := fun p s' hE' ho' => ih p s' hE' (by omega)
    have hs := parseExprIn_sound (F := F) n d
    simp only [parseExprIn]
    refine .bind (parsePrefix_calm hs hc hE (by omega)) ?_
    rintro ⟨left, p', s1⟩ h1
    obtain ⟨more, hr, hI, hp⟩ := parsePrefix_sound hs hE h1
    have hle : openings s1.rest ≤ openings (s.cur :: s.rest) := openings_suffix (b := s.cur :: more) (by rw [hr]; rfl)
    refine parseLoop_calm hs hc p' (fun p s' hp1 hp2 hE' ho' => ih p s' hE' ?_) n left s1 hI.1 hle
    rcases hp with rfl | ⟨rfl, _⟩ <;> omega

theorem parseItemBy_calm {o n : Nat} {pe : PE F} (hs : SoundPE pe) (hc : CalmPE o pe) {src : Source F} {s : PS} (hE : EndsEof (s.cur :: s.rest))
    (hk : s.cur.kind ≠ .Eof) (ho : openings (s.cur :: s.rest) < o) : (parseItemBy pe n src s).Calm := by
  have hLive : EndsEof s.rest := endsEof_tail hE hk
  have ho' : openings s.rest < o := by rw [openings_cons] at ho; omega
  simp only [parseItemBy]
  split
  · refine .bind ?_ fun _ _ => .pure
    simp only [parseRequestBy]
    refine .bind (expect_calm _ _) ?_
    intro s1 h1
    obtain ⟨hE1, hl1⟩ := expect_op (by decide) hLive h1
    refine .bind (expect_calm _ _) ?_
    intro s2 h2
    obtain ⟨hE2, hl2⟩ := expect_op (by decide) hE1 h2
    split
    · rename_i hp
      obtain ⟨lb, r4, hr4, hk4⟩ := peekIs_true hp
      rw [next_of hr4]
      rw [hr4] at hE2 hl2
      rw [openings_cons] at hl2
      exact .bind (parseList_calm hs hc _ (s := ⟨lb, r4⟩) (endsEof_tail hE2 (by rw [hk4]; decide)) (by dsimp only; omega)) fun _ _ => .pure
    · exact .pure
  · refine .bind ?_ fun _ _ => .pure
    simp only [parseTestBy]
    refine .bind (expect_calm _ _) ?_
    intro s1 h1
    obtain ⟨hE1, hl1⟩ := expect_op (by decide) hLive h1
    exact .bind (parseBlock_calm hs hc hE1 (by omega)) fun _ _ => .pure
  · exact .bind (hc 0 s hE ho) fun _ _ => .pure

theorem parseItemIn_op {n d : Nat} {src : Source F} {s : PS} {src' : Source F} {s' : PS} (hE : EndsEof (s.cur :: s.rest)) (hk : s.cur.kind ≠ .Eof)
    (hn : s.rest.length < n) (h : parseItemBy (parseExprIn n d) n src s = .ok (src', s')) :
    EndsEof s'.rest ∧ ∃ more, s.rest = more ++ s'.rest := by
  have h1 := parseItemBy_under (parseExprIn_under (F := F) n d (max d (s.rest.length + 1)) (by omega)) n src s
  rw [h] at h1
  rcases h1 with h1 | h1
  · cases h1
  · rw [parseItemBy_agree (parseExprIn_sound _ _) (parseExprIn_enough (s.rest.length + 1) n _ n (by omega) (by omega) (by omega)) hE hk (by omega) hn,
      parseItemBy_expr] at h1
    obtain ⟨_, more, h2, h3, _⟩ := parseItem_sound hE hk h1.symm
    exact ⟨h3, more, h2⟩

theorem parseTopIn_calm {o n d : Nat} (hc : CalmPE (F := F) o (parseExprIn n d)) (k : Nat) : ∀ (src : Source F) (s : PS), EndsEof (s.cur :: s.rest) →
    s.rest.length < n → openings (s.cur :: s.rest) < o → (parseTopBy (parseExprIn n d) n k src s).Calm := by
  induction k with
  | zero => intro src s _ _ _; exact .hang
  | succ k ih =>
    intro src s hE hn ho
    simp only [parseTopBy]
    split
    · exact .pure
    · rename_i hne
      refine .bind (parseItemBy_calm (parseExprIn_sound n d) hc hE hne ho) ?_
      rintro ⟨src1, s1⟩ h1
      obtain ⟨hE1, more, hm⟩ := parseItemIn_op hE hne hn h1
      obtain ⟨hE2, hl2⟩ := skipSemi_len hE1
      obtain ⟨sm, h3, _, _⟩ := skipSemi_spec s1 hE1
      obtain ⟨hE3, hl3, _⟩ := next_len hE2
      have hl1 : s.rest.length = more.length + s1.rest.length := by rw [hm]; simp
      refine ih src1 _ hE3 (by dsimp only; omega) ?_
      dsimp only
      obtain ⟨t2, r2, h4⟩ := endsEof_cases hE2
      rw [next_of h4, ← h4]
      have : openings (skipSemi s1).rest ≤ openings (s.cur :: s.rest) := openings_suffix (b := s.cur :: (more ++ sm)) (by rw [hm, h3]; simp)
      omega

/-- With room for eleven calls and eleven more for every opening, nothing changes. -/
theorem parseIn_room (d : Nat) (text : Str) (h : 11 * openings (segment text) + 11 ≤ d) : parseIn (F := F) d text = parse text := by
  rcases parseIn_same (F := F) d text with h1 | h1
  · exfalso
    obtain ⟨t, r, hs, hE, _⟩ := segment_endsEof text
    unfold parseIn at h1
    rw [hs] at h1 h
    refine parseTopIn_calm (o := openings (t :: r) + 1) (fun p s hE' ho => parseExprIn_calm _ d p s hE' (by omega)) _ _ ⟨t, r⟩ hE ?_ ?_ h1
    · dsimp only; omega
    · dsimp only; omega
  · exact h1

end Am
