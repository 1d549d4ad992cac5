import Verif.Proofs.Parser
import Verif.Proofs.Lexer
/-!
# Fuel

Enough fuel is enough (`parseExpr_fuel`): beyond the number of remaining tokens the result does not change. More fuel never changes a
result other than `hang` (`parseExpr_mono`). So `parse text = hang` means that the Rust loop does not end.
-/
set_option linter.unusedSimpArgs false
set_option linter.unusedSectionVars false
namespace Am
open Spec
variable {F : Type} [Rt F]

theorem Res.bind_congr {α β : Type} {x x' : Res α} {f f' : α → Res β} (h : x = x') (hf : ∀ a, x = .ok a → f a = f' a) :
    (x >>= f) = (x' >>= f') := by
  subst h
  cases x with
  | ok a => exact hf a rfl
  | err m => rfl
  | panic => rfl
  | hang => rfl

/-- Two recursive calls agree on states with fewer than `L` remaining tokens. -/
def Agree (L : Nat) (pe pe' : PE F) : Prop :=
  ∀ prec s, EndsEof (s.cur :: s.rest) → s.rest.length < L → pe prec s = pe' prec s

theorem agree_next {L : Nat} {pe pe' : PE F} (ha : Agree L pe pe') {prec : Nat} {s : PS} (hE : EndsEof s.rest)
    (hl : s.rest.length ≤ L) : pe prec s.next = pe' prec s.next := by
  obtain ⟨t, r, h⟩ := endsEof_cases hE
  rw [next_of h]
  rw [h] at hE hl
  exact ha prec ⟨t, r⟩ hE (by simp at hl ⊢; omega)

theorem sound_next_len {pe : PE F} (hs : SoundPE pe) {prec : Nat} {s : PS} {e : Expr F} {s' : PS} (h : EndsEof s.rest)
    (hp : pe prec s.next = .ok (e, s')) : EndsEof s'.rest ∧ s'.rest.length < s.rest.length := by
  obtain ⟨ts, h1, h2, h3, _⟩ := sound_next hs h hp
  have : 0 < ts.length := List.length_pos_iff.2 h2
  exact ⟨h3, by rw [h1]; simp; omega⟩

theorem expect_len {s s' : PS} {k : Kind} (hk : k ≠ .Eof) (h : EndsEof s.rest) (he : s.expect k = .ok s') :
    EndsEof s'.rest ∧ s'.rest.length < s.rest.length := by
  obtain ⟨h1, h2, h3⟩ := expect_live hk h he
  exact ⟨h3, by rw [h1]; simp⟩

theorem skipSemi_len {s : PS} (h : EndsEof s.rest) : EndsEof (skipSemi s).rest ∧ (skipSemi s).rest.length ≤ s.rest.length := by
  obtain ⟨sm, h1, _, h3⟩ := skipSemi_spec s h
  exact ⟨h3, by conv => rhs; rw [h1]
                simp⟩

theorem live_pos {s : PS} (h : EndsEof s.rest) : 0 < s.rest.length := List.length_pos_iff.2 (endsEof_ne h)

theorem parseListLoop_fuel {L : Nat} {pe pe' : PE F} (hs : SoundPE pe) (ha : Agree L pe pe') (endK : Kind) (n : Nat) :
    ∀ (m : Nat) (s : PS), EndsEof s.rest → s.rest.length ≤ L → s.rest.length ≤ n → s.rest.length ≤ m →
      parseListLoop pe endK n s = parseListLoop pe' endK m s := by
  induction n with
  | zero => intro m s hE _ hn; have := live_pos hE; omega
  | succ n ih =>
    intro m s hE hL hn hm
    cases m with
    | zero => have := live_pos hE; omega
    | succ m =>
      simp only [parseListLoop]
      split
      · rfl
      · refine Res.bind_congr (agree_next ha hE hL) ?_
        intro a ha1
        obtain ⟨e, s1⟩ := a
        obtain ⟨hE1, hl1⟩ := sound_next_len hs hE ha1
        dsimp only
        split
        · refine Res.bind_congr rfl ?_
          intro s2 h2
          simp [Res.pure_eq] at h2
          subst h2
          refine Res.bind_congr (ih m s1 hE1 (by omega) (by omega) (by omega)) (fun _ _ => rfl)
        · refine Res.bind_congr rfl ?_
          intro s2 h2
          obtain ⟨hE2, hl2⟩ := expect_len (by decide) hE1 h2
          refine Res.bind_congr (ih m s2 hE2 (by omega) (by omega) (by omega)) (fun _ _ => rfl)

theorem parseList_fuel {L n m : Nat} {pe pe' : PE F} (hs : SoundPE pe) (ha : Agree L pe pe') (endK : Kind) {s : PS}
    (hE : EndsEof s.rest) (hL : s.rest.length ≤ L) (hn : s.rest.length ≤ n) (hm : s.rest.length ≤ m) :
    parseList pe n endK s = parseList pe' m endK s := by
  simp only [parseList]
  exact Res.bind_congr (parseListLoop_fuel hs ha endK n m s hE hL hn hm) (fun _ _ => rfl)

theorem parsePairsLoop_fuel {L : Nat} {pe pe' : PE F} (hs : SoundPE pe) (ha : Agree L pe pe') (n : Nat) :
    ∀ (m : Nat) (s : PS), EndsEof s.rest → s.rest.length ≤ L → s.rest.length ≤ n → s.rest.length ≤ m →
      parsePairsLoop pe n s = parsePairsLoop pe' m s := by
  induction n with
  | zero => intro m s hE _ hn; have := live_pos hE; omega
  | succ n ih =>
    intro m s hE hL hn hm
    cases m with
    | zero => have := live_pos hE; omega
    | succ m =>
      simp only [parsePairsLoop]
      split
      · rfl
      · refine Res.bind_congr (agree_next ha hE hL) ?_
        intro a ha1
        obtain ⟨e, s1⟩ := a
        obtain ⟨hE1, hl1⟩ := sound_next_len hs hE ha1
        refine Res.bind_congr rfl ?_
        intro s2 h2
        obtain ⟨hE2, hl2⟩ := expect_len (by decide) hE1 h2
        refine Res.bind_congr (agree_next ha hE2 (by omega)) ?_
        intro a ha1
        obtain ⟨v, s3⟩ := a
        obtain ⟨hE3, hl3⟩ := sound_next_len hs hE2 ha1
        dsimp only
        split
        · refine Res.bind_congr rfl ?_
          intro s4 h4
          simp [Res.pure_eq] at h4
          subst h4
          refine Res.bind_congr (ih m s3 hE3 (by omega) (by omega) (by omega)) (fun _ _ => rfl)
        · refine Res.bind_congr rfl ?_
          intro s4 h4
          obtain ⟨hE4, hl4⟩ := expect_len (by decide) hE3 h4
          refine Res.bind_congr (ih m s4 hE4 (by omega) (by omega) (by omega)) (fun _ _ => rfl)

theorem parseBlockLoop_fuel {L : Nat} {pe pe' : PE F} (hs : SoundPE pe) (ha : Agree L pe pe') (n : Nat) :
    ∀ (m : Nat) (s : PS), EndsEof s.rest → s.rest.length ≤ L → s.rest.length ≤ n → s.rest.length ≤ m →
      parseBlockLoop pe n s = parseBlockLoop pe' m s := by
  induction n with
  | zero => intro m s hE _ hn; have := live_pos hE; omega
  | succ n ih =>
    intro m s hE hL hn hm
    cases m with
    | zero => have := live_pos hE; omega
    | succ m =>
      simp only [parseBlockLoop]
      split
      · rfl
      · refine Res.bind_congr (agree_next ha hE hL) ?_
        intro a ha1
        obtain ⟨e, s1⟩ := a
        obtain ⟨hE1, hl1⟩ := sound_next_len hs hE ha1
        obtain ⟨hE2, hl2⟩ := skipSemi_len hE1
        dsimp only
        refine Res.bind_congr (ih m _ hE2 (by omega) (by omega) (by omega)) (fun _ _ => rfl)

theorem parseBlock_fuel {L n m : Nat} {pe pe' : PE F} (hs : SoundPE pe) (ha : Agree L pe pe') {s : PS}
    (hE : EndsEof s.rest) (hL : s.rest.length ≤ L) (hn : s.rest.length ≤ n) (hm : s.rest.length ≤ m) :
    parseBlock pe n s = parseBlock pe' m s := by
  simp only [parseBlock]
  refine Res.bind_congr rfl ?_
  intro s1 h1
  obtain ⟨hE1, hl1⟩ := expect_len (by decide) hE h1
  exact Res.bind_congr (parseBlockLoop_fuel hs ha n m s1 hE1 (by omega) (by omega) (by omega)) (fun _ _ => rfl)

theorem parseBlock_len {pe : PE F} (hs : SoundPE pe) {n : Nat} {s : PS} {es : List (Expr F)} {s' : PS} (hE : EndsEof s.rest)
    (h : parseBlock pe n s = .ok (es, s')) : EndsEof s'.rest ∧ s'.rest.length ≤ s.rest.length := by
  obtain ⟨ts, h1, h2, _⟩ := parseBlock_sound hs hE h
  exact ⟨h2, by rw [h1]; simp⟩

theorem parseList_len {pe : PE F} (hs : SoundPE pe) {endK : Kind} (hk : endK ≠ .Eof) {n : Nat} {s : PS} {es : List (Expr F)} {s' : PS}
    (hE : EndsEof s.rest) (h : parseList pe n endK s = .ok (es, s')) : EndsEof s'.rest ∧ s'.rest.length < s.rest.length := by
  obtain ⟨ts, h1, _, h2, _⟩ := parseList_sound hs hk hE h
  exact ⟨h2, by rw [h1]; simp; omega⟩

theorem parsePrefix_fuel {L n m prec : Nat} {pe pe' : PE F} (hs : SoundPE pe) (ha : Agree L pe pe') {s : PS}
    (hE0 : EndsEof (s.cur :: s.rest)) (hL : s.rest.length ≤ L) (hn : s.rest.length ≤ n) (hm : s.rest.length ≤ m) :
    parsePrefix pe n prec s = parsePrefix pe' m prec s := by
  have live : ∀ {k : Kind}, s.cur.kind = k → k ≠ .Eof → EndsEof s.rest := fun h1 h2 => endsEof_tail hE0 (by rw [h1]; exact h2)
  simp only [parsePrefix]
  split
  case h_7 hk =>
    refine Res.bind_congr ?_ (fun _ _ => rfl)
    simp only [parseLet]
    refine Res.bind_congr rfl ?_
    intro s1 h1
    obtain ⟨hE1, hl1⟩ := expect_len (by decide) (live hk (by decide)) h1
    refine Res.bind_congr rfl ?_
    intro s2 h2
    obtain ⟨hE2, hl2⟩ := expect_len (by decide) hE1 h2
    exact Res.bind_congr (agree_next ha hE2 (by omega)) (fun _ _ => rfl)
  case h_8 hk =>
    refine Res.bind_congr ?_ (fun _ _ => rfl)
    simp only [parseUnary]
    exact Res.bind_congr (agree_next ha (live hk (by decide)) hL) (fun _ _ => rfl)
  case h_9 hk =>
    refine Res.bind_congr ?_ (fun _ _ => rfl)
    simp only [parseUnary]
    exact Res.bind_congr (agree_next ha (live hk (by decide)) hL) (fun _ _ => rfl)
  case h_10 hk =>
    refine Res.bind_congr ?_ (fun _ _ => rfl)
    simp only [parseParen]
    exact Res.bind_congr (agree_next ha (live hk (by decide)) hL) (fun _ _ => rfl)
  case h_11 hk =>
    refine Res.bind_congr ?_ (fun _ _ => rfl)
    simp only [parseIf]
    refine Res.bind_congr rfl ?_
    intro s1 h1
    obtain ⟨hE1, hl1⟩ := expect_len (by decide) (live hk (by decide)) h1
    refine Res.bind_congr (agree_next ha hE1 (by omega)) ?_
    intro a h2
    obtain ⟨c, s2⟩ := a
    obtain ⟨hE2, hl2⟩ := sound_next_len hs hE1 h2
    refine Res.bind_congr rfl ?_
    intro s3 h3
    obtain ⟨hE3, hl3⟩ := expect_len (by decide) hE2 h3
    refine Res.bind_congr (parseBlock_fuel hs ha hE3 (by omega) (by omega) (by omega)) ?_
    intro a h4
    obtain ⟨t, s4⟩ := a
    obtain ⟨hE4, hl4⟩ := parseBlock_len hs hE3 h4
    dsimp only
    split
    · rename_i hel
      obtain ⟨el, rl, hr5, hc5⟩ := peekIs_true hel
      rw [next_of hr5]
      rw [hr5] at hE4 hl4
      simp at hl4
      exact Res.bind_congr (parseBlock_fuel hs ha (s := ⟨el, rl⟩) (endsEof_tail hE4 (by rw [hc5]; decide)) (by simp; omega)
        (by simp; omega) (by simp; omega)) (fun _ _ => rfl)
    · rfl
  case h_12 hk =>
    refine Res.bind_congr ?_ (fun _ _ => rfl)
    simp only [parseArray]
    exact Res.bind_congr (parseList_fuel hs ha _ (live hk (by decide)) hL hn hm) (fun _ _ => rfl)
  case h_13 hk =>
    refine Res.bind_congr ?_ (fun _ _ => rfl)
    simp only [parseMap]
    exact Res.bind_congr (parsePairsLoop_fuel hs ha _ _ _ (live hk (by decide)) hL hn hm) (fun _ _ => rfl)
  all_goals rfl

/-- A loop standing before a token it does not handle never ends. -/
theorem parseLoop_stuck {pe : PE F} {prec : Nat} (n : Nat) {left : Expr F} {c t : Token} {r : List Token}
    (h1 : t.kind ≠ .Semi) (h2 : prec < t.kind.precedence) (h3 : t.kind.isBinary = false) (h4 : t.kind ≠ .Lp) (h5 : t.kind ≠ .Ls)
    (h6 : t.kind ≠ .Dot) : parseLoop pe prec n left ⟨c, t :: r⟩ = .hang := by
  induction n with
  | zero => rfl
  | succ n ih =>
    simp only [parseLoop, peekIs_cons, PS.peek, List.head?_cons, h3, h4, h5, h6, h1, PS.peekPrec, Token.precedence, h2, decide_false,
      Bool.not_false, decide_true, Bool.and_self, if_true, if_false, Bool.false_eq_true]
    exact ih

theorem parseLoop_fuel {L : Nat} {pe pe' : PE F} (hs : SoundPE pe) (ha : Agree L pe pe') (prec : Nat) (n : Nat) :
    ∀ (m : Nat) (left : Expr F) (s : PS), EndsEof s.rest → s.rest.length ≤ L → s.rest.length ≤ n → s.rest.length ≤ m →
      parseLoop pe prec n left s = parseLoop pe' prec m left s := by
  induction n with
  | zero => intro m left s hE _ hn; have := live_pos hE; omega
  | succ n ih =>
    intro m left s hE hL hn hm
    cases m with
    | zero => have := live_pos hE; omega
    | succ m =>
      obtain ⟨c, l⟩ := s
      obtain ⟨t, r, hl⟩ := endsEof_cases hE
      simp at hl
      subst hl
      by_cases hcond : (!(PS.mk c (t :: r)).peekIs .Semi && decide (prec < (PS.mk c (t :: r)).peekPrec)) = true
      · have hc : t.kind ≠ .Semi ∧ prec < t.kind.precedence := by
          rw [peekIs_cons] at hcond
          have h1 : (PS.mk c (t :: r)).peekPrec = t.kind.precedence := rfl
          simp [h1] at hcond
          exact hcond
        have hEr : t.kind ≠ .Eof := by intro h1; rw [h1] at hc; simp [Kind.precedence] at hc
        have hE1 : EndsEof r := endsEof_tail hE hEr
        simp at hL hn hm
        have hA : ∀ p, pe p (PS.mk t r).next = pe' p (PS.mk t r).next := fun p => agree_next ha (s := ⟨t, r⟩) hE1 (by simp; omega)
        simp only [parseLoop, if_pos hcond, PS.peek, List.head?_cons, next_cons]
        by_cases hb : t.kind.isBinary = true
        · rw [if_pos hb, if_pos hb]
          simp only [parseBinary]
          refine Res.bind_congr ?_ ?_
          · exact Res.bind_congr (hA _) (fun _ _ => rfl)
          · intro a h1
            obtain ⟨⟨rt, s1⟩, h2, h1⟩ := Res.bind_ok h1
            simp [Res.pure_eq] at h1
            subst h1
            obtain ⟨hE2, hl2⟩ := sound_next_len hs (s := ⟨t, r⟩) hE1 h2
            simp at hl2
            exact ih m _ _ hE2 (by dsimp only; omega) (by dsimp only; omega) (by dsimp only; omega)
        · rw [if_neg hb, if_neg hb]
          by_cases hp : t.kind = .Lp
          · rw [if_pos hp, if_pos hp]
            refine Res.bind_congr ?_ ?_
            · simp only [parseCall]
              exact Res.bind_congr (parseList_fuel hs ha _ (s := ⟨t, r⟩) hE1 (by simp; omega) (by simp; omega) (by simp; omega)) (fun _ _ => rfl)
            · intro a h1
              obtain ⟨e1, s1⟩ := a
              obtain ⟨_, _, ts, _, _, hr, _, hE2, _⟩ := parseCall_sound hs (s := ⟨t, r⟩) hE1 h1
              simp at hr
              have : r.length = ts.length + (s1.rest.length + 1) := by rw [hr]; simp
              exact ih m _ _ hE2 (by dsimp only; omega) (by dsimp only; omega) (by dsimp only; omega)
          · rw [if_neg hp, if_neg hp]
            by_cases hq : t.kind = .Ls
            · rw [if_pos hq, if_pos hq]
              simp only [parseIndex]
              refine Res.bind_congr ?_ ?_
              · exact Res.bind_congr (hA _) (fun _ _ => rfl)
              · intro a h1
                obtain ⟨⟨i, s1⟩, h2, h1⟩ := Res.bind_ok h1
                obtain ⟨s2, h3, h1⟩ := Res.bind_ok h1
                simp [Res.pure_eq] at h1
                subst h1
                obtain ⟨hE2, hl2⟩ := sound_next_len hs (s := ⟨t, r⟩) hE1 h2
                obtain ⟨hE3, hl3⟩ := expect_len (by decide) hE2 h3
                simp at hl2
                exact ih m _ _ hE3 (by dsimp only; omega) (by dsimp only; omega) (by dsimp only; omega)
            · rw [if_neg hq, if_neg hq]
              by_cases hd : t.kind = .Dot
              · rw [if_pos hd, if_pos hd]
                refine Res.bind_congr rfl ?_
                intro a h1
                simp only [parseField] at h1
                obtain ⟨s2, h3, h1⟩ := Res.bind_ok h1
                simp [Res.pure_eq] at h1
                subst h1
                obtain ⟨hE3, hl3⟩ := expect_len (s := ⟨t, r⟩) (by decide) hE1 h3
                simp at hl3
                exact ih m _ _ hE3 (by dsimp only; omega) (by dsimp only; omega) (by dsimp only; omega)
              · rw [if_neg hd, if_neg hd]
                rw [parseLoop_stuck n hc.1 hc.2 (by simpa using hb) hp hq hd, parseLoop_stuck m hc.1 hc.2 (by simpa using hb) hp hq hd]
      · simp only [parseLoop, if_neg hcond]

/-- Fuel beyond the number of remaining tokens does not matter. -/
theorem parseExpr_fuel (L : Nat) : ∀ n m, L ≤ n → L ≤ m → Agree (F := F) L (parseExpr n) (parseExpr m) := by
  induction L with
  | zero => intro n m _ _ prec s _ h; omega
  | succ L ih =>
    intro n m hn hm prec s hE hlen
    cases n with
    | zero => omega
    | succ n =>
      cases m with
      | zero => omega
      | succ m =>
        have hA := ih n m (by omega) (by omega)
        simp only [parseExpr]
        refine Res.bind_congr (parsePrefix_fuel (parseExpr_sound n) hA hE (by omega) (by omega) (by omega)) ?_
        intro a h1
        obtain ⟨left, p, s1⟩ := a
        obtain ⟨more, hr, hI, _⟩ := parsePrefix_sound (parseExpr_sound n) hE h1
        have : s.rest.length = more.length + s1.rest.length := by rw [hr]; simp
        exact parseLoop_fuel (parseExpr_sound n) hA p n m left s1 hI.1 (by omega) (by omega) (by omega)

/-! ## Fuel at the top level -/

theorem parseItem_sound {n : Nat} {src : Source F} {s : PS} {src' : Source F} {s' : PS} (hE : EndsEof (s.cur :: s.rest))
    (hk : s.cur.kind ≠ .Eof) (h : parseItem n src s = .ok (src', s')) :
    ∃ item more, s.rest = more ++ s'.rest ∧ EndsEof s'.rest ∧ ReadsItem item (s.cur :: more) ∧
      match item with
      | .expr e => Grouped EndsInLet e ∧ src' = { src with exprs := src.exprs ++ [e] }
      | .request nm m as => GroupedAll EndsInLet as ∧ src' = { src with requests := amInsert nm (m, as) src.requests }
      | .test nm b => GroupedAll EndsInLet b ∧ src' = { src with tests := amInsert nm b src.tests } := by
  have hL : EndsEof s.rest := endsEof_tail hE hk
  simp only [parseItem] at h
  split at h
  · rename_i hr
    obtain ⟨⟨⟨nm, m, as⟩, s1⟩, h1, h⟩ := Res.bind_ok h
    simp [Res.pure_eq] at h
    obtain ⟨rfl, rfl⟩ := h
    simp only [parseRequest] at h1
    obtain ⟨s2, h2, h1⟩ := Res.bind_ok h1
    obtain ⟨s3, h3, h1⟩ := Res.bind_ok h1
    obtain ⟨hr2, hc2, hE2⟩ := expect_live (by decide) hL h2
    obtain ⟨hr3, hc3, hE3⟩ := expect_live (by decide) hE2 h3
    split at h1
    · rename_i hp
      obtain ⟨⟨as', s4⟩, h4, h1⟩ := Res.bind_ok h1
      simp [Res.pure_eq] at h1
      obtain ⟨⟨rfl, rfl, rfl⟩, rfl⟩ := h1
      obtain ⟨lb, r4, hr4, hk4⟩ := peekIs_true hp
      rw [next_of hr4] at h4
      obtain ⟨ts, hr5, hc5, hE5, hR5, hG5⟩ := parseList_sound (parseExpr_sound n) (by decide) (s := ⟨lb, r4⟩)
        (by rw [hr4] at hE3; exact endsEof_tail hE3 (by rw [hk4]; decide)) h4
      refine ⟨.request s2.cur.literal s3.cur.literal as', s2.cur :: s3.cur :: lb :: (ts ++ [s4.cur]), ?_, hE5,
        .requestAsserts _ _ _ _ _ _ _ hr hc2 hc3 hk4 hc5 hR5, hG5, rfl⟩
      simp at hr5
      rw [hr2, hr3, hr4, hr5]; simp
    · simp [Res.pure_eq] at h1
      obtain ⟨⟨rfl, rfl, rfl⟩, rfl⟩ := h1
      refine ⟨.request s2.cur.literal s3.cur.literal [], [s2.cur, s3.cur], ?_, hE3, .request _ _ _ hr hc2 hc3, .nil, rfl⟩
      rw [hr2, hr3]; simp
  · rename_i hr
    obtain ⟨⟨⟨nm, b⟩, s1⟩, h1, h⟩ := Res.bind_ok h
    simp [Res.pure_eq] at h
    obtain ⟨rfl, rfl⟩ := h
    simp only [parseTest] at h1
    obtain ⟨s2, h2, h1⟩ := Res.bind_ok h1
    obtain ⟨⟨b', s3⟩, h3, h1⟩ := Res.bind_ok h1
    simp [Res.pure_eq] at h1
    obtain ⟨⟨rfl, rfl⟩, rfl⟩ := h1
    obtain ⟨hr2, hc2, hE2⟩ := expect_live (by decide) hL h2
    obtain ⟨ts, hr3, hE3, hR3, hG3⟩ := parseBlock_sound (parseExpr_sound n) hE2 h3
    refine ⟨.test s2.cur.literal b', s2.cur :: ts, by rw [hr2, hr3]; simp, hE3, .test _ _ _ _ hr hc2 hR3, hG3, rfl⟩
  · obtain ⟨⟨e, s1⟩, h1, h⟩ := Res.bind_ok h
    simp [Res.pure_eq] at h
    obtain ⟨rfl, rfl⟩ := h
    obtain ⟨more, hr, hE1, hR, hG, _, _⟩ := parseExpr_sound n 0 s e s1 hE h1
    exact ⟨.expr e, more, hr, hE1, .expr _ _ hR, hG, rfl⟩

theorem parseItem_len {n : Nat} {src : Source F} {s : PS} {src' : Source F} {s' : PS} (hE : EndsEof (s.cur :: s.rest))
    (hk : s.cur.kind ≠ .Eof) (h : parseItem n src s = .ok (src', s')) : EndsEof s'.rest ∧ s'.rest.length ≤ s.rest.length := by
  obtain ⟨_, more, hr, hE1, _⟩ := parseItem_sound hE hk h
  exact ⟨hE1, by rw [hr]; simp⟩

theorem next_len {s : PS} (h : EndsEof s.rest) : EndsEof (s.next.cur :: s.next.rest) ∧ s.next.rest.length < s.rest.length ∧
    s.rest = s.next.cur :: s.next.rest := by
  obtain ⟨t, r, h1⟩ := endsEof_cases h
  rw [next_of h1]
  rw [h1] at h ⊢
  exact ⟨h, by simp, rfl⟩

theorem parseItem_fuel {n m : Nat} {src : Source F} {s : PS} (hE : EndsEof (s.cur :: s.rest)) (hk : s.cur.kind ≠ .Eof)
    (hn : s.rest.length < n) (hm : s.rest.length < m) : parseItem n src s = parseItem m src s := by
  have hA : Agree (F := F) (s.rest.length + 1) (parseExpr n) (parseExpr m) := parseExpr_fuel _ n m hn hm
  have hL : EndsEof s.rest := endsEof_tail hE hk
  simp only [parseItem]
  split
  · refine Res.bind_congr ?_ (fun _ _ => rfl)
    simp only [parseRequest]
    refine Res.bind_congr rfl ?_
    intro s1 h1
    obtain ⟨hE1, hl1⟩ := expect_len (by decide) hL h1
    refine Res.bind_congr rfl ?_
    intro s2 h2
    obtain ⟨hE2, hl2⟩ := expect_len (by decide) hE1 h2
    split
    · rename_i hp
      obtain ⟨lb, r4, hr4, hk4⟩ := peekIs_true hp
      rw [next_of hr4]
      rw [hr4] at hE2 hl2
      simp at hl2
      exact Res.bind_congr (parseList_fuel (parseExpr_sound n) hA _ (s := ⟨lb, r4⟩) (endsEof_tail hE2 (by rw [hk4]; decide))
        (by dsimp only; omega) (by dsimp only; omega) (by dsimp only; omega)) (fun _ _ => rfl)
    · rfl
  · refine Res.bind_congr ?_ (fun _ _ => rfl)
    simp only [parseTest]
    refine Res.bind_congr rfl ?_
    intro s1 h1
    obtain ⟨hE1, hl1⟩ := expect_len (by decide) hL h1
    exact Res.bind_congr (parseBlock_fuel (parseExpr_sound n) hA hE1 (by omega) (by omega) (by omega)) (fun _ _ => rfl)
  · exact Res.bind_congr (hA 0 s hE (by omega)) (fun _ _ => rfl)

theorem parseTop_fuel {n m : Nat} (k : Nat) : ∀ (j : Nat) (src : Source F) (s : PS), EndsEof (s.cur :: s.rest) → s.rest.length < n →
    s.rest.length < m → s.rest.length < k → s.rest.length < j → parseTop n k src s = parseTop m j src s := by
  induction k with
  | zero => intro j src s _ _ _ h; omega
  | succ k ih =>
    intro j src s hE hn hm hk hj
    cases j with
    | zero => omega
    | succ j =>
      simp only [parseTop]
      split
      · rfl
      · rename_i hne
        refine Res.bind_congr (parseItem_fuel hE hne hn hm) ?_
        intro a h1
        obtain ⟨src1, s1⟩ := a
        obtain ⟨hE1, hl1⟩ := parseItem_len hE hne h1
        obtain ⟨hE2, hl2⟩ := skipSemi_len hE1
        obtain ⟨hE3, hl3, _⟩ := next_len hE2
        dsimp only
        exact ih j src1 _ hE3 (by omega) (by omega) (by omega) (by omega)

/-! ## More fuel never changes a result other than `hang` -/

/-- `x` is `hang` or equal to `y`. -/
def Res.Le {α : Type} (x y : Res α) : Prop := x = .hang ∨ x = y

theorem Res.Le.rfl' {α : Type} {x : Res α} : Res.Le x x := Or.inr rfl

theorem Res.Le.bind {α β : Type} {x x' : Res α} {f f' : α → Res β} (h : Res.Le x x') (hf : ∀ a, Res.Le (f a) (f' a)) :
    Res.Le (x >>= f) (x' >>= f') := by
  rcases h with h | h
  · subst h; exact Or.inl rfl
  · subst h
    cases x with
    | ok a => exact hf a
    | err m => exact Or.inr rfl
    | panic => exact Or.inr rfl
    | hang => exact Or.inl rfl

/-- `pe` is less defined than `pe'`. -/
def PLe (pe pe' : PE F) : Prop := ∀ p s, Res.Le (pe p s) (pe' p s)

theorem parseListLoop_mono {pe pe' : PE F} (h : PLe pe pe') (endK : Kind) (n : Nat) :
    ∀ (m : Nat) (s : PS), n ≤ m → Res.Le (parseListLoop pe endK n s) (parseListLoop pe' endK m s) := by
  induction n with
  | zero => intro m s _; exact Or.inl rfl
  | succ n ih =>
    intro m s hm
    cases m with
    | zero => omega
    | succ m =>
      simp only [parseListLoop]
      split
      · exact .rfl'
      · refine .bind (h _ _) (fun a => ?_)
        split
        · exact .bind .rfl' (fun s2 => .bind (ih m s2 (by omega)) (fun _ => .rfl'))
        · exact .bind .rfl' (fun s2 => .bind (ih m s2 (by omega)) (fun _ => .rfl'))

theorem parseList_mono {pe pe' : PE F} (h : PLe pe pe') (endK : Kind) {n m : Nat} (s : PS) (hm : n ≤ m) :
    Res.Le (parseList pe n endK s) (parseList pe' m endK s) := by
  simp only [parseList]
  exact .bind (parseListLoop_mono h endK n m s hm) (fun _ => .rfl')

theorem parsePairsLoop_mono {pe pe' : PE F} (h : PLe pe pe') (n : Nat) :
    ∀ (m : Nat) (s : PS), n ≤ m → Res.Le (parsePairsLoop pe n s) (parsePairsLoop pe' m s) := by
  induction n with
  | zero => intro m s _; exact Or.inl rfl
  | succ n ih =>
    intro m s hm
    cases m with
    | zero => omega
    | succ m =>
      simp only [parsePairsLoop]
      split
      · exact .rfl'
      · refine .bind (h _ _) (fun a => .bind .rfl' (fun s2 => .bind (h _ _) (fun b => ?_)))
        split
        · exact .bind .rfl' (fun s2 => .bind (ih m s2 (by omega)) (fun _ => .rfl'))
        · exact .bind .rfl' (fun s2 => .bind (ih m s2 (by omega)) (fun _ => .rfl'))

theorem parseBlockLoop_mono {pe pe' : PE F} (h : PLe pe pe') (n : Nat) :
    ∀ (m : Nat) (s : PS), n ≤ m → Res.Le (parseBlockLoop pe n s) (parseBlockLoop pe' m s) := by
  induction n with
  | zero => intro m s _; exact Or.inl rfl
  | succ n ih =>
    intro m s hm
    cases m with
    | zero => omega
    | succ m =>
      simp only [parseBlockLoop]
      split
      · exact .rfl'
      · exact .bind (h _ _) (fun a => .bind (ih m _ (by omega)) (fun _ => .rfl'))

theorem parseBlock_mono {pe pe' : PE F} (h : PLe pe pe') {n m : Nat} (s : PS) (hm : n ≤ m) :
    Res.Le (parseBlock pe n s) (parseBlock pe' m s) := by
  simp only [parseBlock]
  exact .bind .rfl' (fun s1 => .bind (parseBlockLoop_mono h n m s1 hm) (fun _ => .rfl'))

theorem parsePrefix_mono {pe pe' : PE F} (h : PLe pe pe') {n m : Nat} (prec : Nat) (s : PS) (hm : n ≤ m) :
    Res.Le (parsePrefix pe n prec s) (parsePrefix pe' m prec s) := by
  simp only [parsePrefix]
  split
  case h_7 => exact .bind (.bind .rfl' fun s1 => .bind .rfl' fun s2 => .bind (h _ _) fun _ => .rfl') (fun _ => .rfl')
  case h_8 => exact .bind (.bind (h _ _) fun _ => .rfl') (fun _ => .rfl')
  case h_9 => exact .bind (.bind (h _ _) fun _ => .rfl') (fun _ => .rfl')
  case h_10 => exact .bind (.bind (h _ _) fun _ => .rfl') (fun _ => .rfl')
  case h_11 =>
    refine .bind ?_ (fun _ => .rfl')
    simp only [parseIf]
    refine .bind .rfl' fun s1 => .bind (h _ _) fun a => .bind .rfl' fun s3 => .bind (parseBlock_mono h s3 hm) fun b => ?_
    split
    · exact .bind (parseBlock_mono h _ hm) fun _ => .rfl'
    · exact .rfl'
  case h_12 => exact .bind (.bind (parseList_mono h _ _ hm) fun _ => .rfl') (fun _ => .rfl')
  case h_13 => exact .bind (.bind (parsePairsLoop_mono h n m _ hm) fun _ => .rfl') (fun _ => .rfl')
  all_goals exact .rfl'

theorem parseLoop_mono {pe pe' : PE F} (h : PLe pe pe') (prec : Nat) (n : Nat) :
    ∀ (m : Nat) (left : Expr F) (s : PS), n ≤ m → Res.Le (parseLoop pe prec n left s) (parseLoop pe' prec m left s) := by
  induction n with
  | zero => intro m left s _; exact Or.inl rfl
  | succ n ih =>
    intro m left s hm
    cases m with
    | zero => omega
    | succ m =>
      have hm' : n ≤ m := by omega
      simp only [parseLoop]
      split
      · cases s.peek with
        | none => exact ih m _ _ hm'
        | some t =>
          dsimp only
          split
          · exact .bind (.bind (h _ _) fun _ => .rfl') fun _ => ih m _ _ hm'
          · split
            · exact .bind (.bind (parseList_mono h _ _ hm') fun _ => .rfl') fun _ => ih m _ _ hm'
            · split
              · exact .bind (.bind (h _ _) fun _ => .rfl') fun _ => ih m _ _ hm'
              · split
                · exact .bind .rfl' fun _ => ih m _ _ hm'
                · exact ih m _ _ hm'
      · exact .rfl'

theorem parseExpr_mono (n : Nat) : ∀ m, n ≤ m → PLe (F := F) (parseExpr n) (parseExpr m) := by
  induction n with
  | zero => intro m _ p s; exact Or.inl rfl
  | succ n ih =>
    intro m hm p s
    cases m with
    | zero => omega
    | succ m =>
      have hm' : n ≤ m := by omega
      simp only [parseExpr]
      exact .bind (parsePrefix_mono (ih m hm') p s hm') fun a => parseLoop_mono (ih m hm') _ n m _ _ hm'

theorem parseTop_mono {n m : Nat} (hm : n ≤ m) (k : Nat) :
    ∀ (j : Nat) (src : Source F) (s : PS), k ≤ j → Res.Le (parseTop n k src s) (parseTop m j src s) := by
  induction k with
  | zero => intro j src s _; exact Or.inl rfl
  | succ k ih =>
    intro j src s hj
    cases j with
    | zero => omega
    | succ j =>
      simp only [parseTop]
      split
      · exact .rfl'
      · refine .bind ?_ fun a => ih j _ _ (by omega)
        simp only [parseItem]
        split
        · refine .bind ?_ fun _ => .rfl'
          simp only [parseRequest]
          refine .bind .rfl' fun s1 => .bind .rfl' fun s2 => ?_
          split
          · exact .bind (parseList_mono (parseExpr_mono n m hm) _ _ hm) fun _ => .rfl'
          · exact .rfl'
        · exact .bind (.bind .rfl' fun s1 => .bind (parseBlock_mono (parseExpr_mono n m hm) _ hm) fun _ => .rfl') fun _ => .rfl'
        · exact .bind (parseExpr_mono n m hm _ _) fun _ => .rfl'

end Am
