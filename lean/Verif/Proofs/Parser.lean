import Verif.Spec.Syntax
import Verif.Proofs.IntText
/-!
# Parser soundness

Whatever `parseExpr` returns is a reading of exactly the tokens it consumed (`Reads`), grouped as the precedence table says
(`Grouped`), and the parser stopped where the table says it must (`Stop`). One induction over the parser's functions.
-/
set_option linter.unusedSimpArgs false
set_option linter.unusedSectionVars false
namespace Am
open Spec

theorem Res.bind_ok {α β : Type} {x : Res α} {f : α → Res β} {b : β} (h : (x >>= f) = .ok b) :
    ∃ a, x = .ok a ∧ f a = .ok b := by
  cases x with
  | ok a => exact ⟨a, rfl, h⟩
  | err m => cases h
  | panic => cases h
  | hang => cases h

theorem Res.pure_eq {α : Type} (a : α) : (pure a : Res α) = .ok a := rfl
theorem Res.ok_bind {α β : Type} (a : α) (f : α → Res β) : ((Res.ok a) >>= f) = f a := rfl
theorem Res.err_bind {α β : Type} (m : Str) (f : α → Res β) : ((Res.err m) >>= f) = .err m := rfl
theorem Res.panic_bind {α β : Type} (f : α → Res β) : ((Res.panic : Res α) >>= f) = .panic := rfl
theorem Res.hang_bind {α β : Type} (f : α → Res β) : ((Res.hang : Res α) >>= f) = .hang := rfl

/-- The token list ends with the end marker. -/
def EndsEof (l : List Token) : Prop := ∃ init e, l = init ++ [e] ∧ e.kind = .Eof

theorem endsEof_tail {t : Token} {l : List Token} (h : EndsEof (t :: l)) (hk : t.kind ≠ .Eof) : EndsEof l := by
  obtain ⟨init, e, h1, h2⟩ := h
  cases init with
  | nil => simp at h1; rw [h1.1] at hk; exact absurd h2 hk
  | cons a init => simp at h1; exact ⟨init, e, h1.2, h2⟩

theorem endsEof_ne {l : List Token} (h : EndsEof l) : l ≠ [] := by
  obtain ⟨init, e, h1, h2⟩ := h
  rw [h1]; simp

theorem endsEof_cases {l : List Token} (h : EndsEof l) : ∃ t r, l = t :: r := by
  cases l with
  | nil => exact absurd rfl (endsEof_ne h)
  | cons t r => exact ⟨t, r, rfl⟩

theorem endsEof_suffix {a l : List Token} (h : EndsEof (a ++ l)) (hl : l ≠ []) : EndsEof l := by
  obtain ⟨init, e, h1, h2⟩ := h
  have h3 : (a ++ l).getLast? = some e := by rw [h1]; simp
  have h4 : l.getLast? = some e := by
    rw [List.getLast?_append] at h3
    cases hx : l.getLast? with
    | none => simp at hx; exact absurd hx hl
    | some y => rw [hx] at h3; simpa using h3
  obtain ⟨ys, hy⟩ := List.getLast?_eq_some_iff.1 h4
  exact ⟨ys, e, hy, h2⟩

theorem peekIs_cons (c t : Token) (r : List Token) (k : Kind) : (PS.mk c (t :: r)).peekIs k = decide (t.kind = k) := by
  simp [PS.peekIs, PS.peek]
  by_cases h : t.kind = k <;> simp [h]

theorem peekIs_true {s : PS} {k : Kind} (h : s.peekIs k = true) : ∃ t r, s.rest = t :: r ∧ t.kind = k := by
  obtain ⟨c, l⟩ := s
  cases l with
  | nil => simp [PS.peekIs, PS.peek] at h
  | cons t r => rw [peekIs_cons] at h; exact ⟨t, r, rfl, by simpa using h⟩

theorem expect_ok {s s' : PS} {k : Kind} (h : s.expect k = .ok s') : ∃ r, s.rest = s'.cur :: r ∧ s'.cur.kind = k ∧ s'.rest = r := by
  obtain ⟨c, l⟩ := s
  cases l with
  | nil => simp [PS.expect, PS.peek] at h
  | cons t r =>
    simp only [PS.expect, PS.peek, List.head?_cons] at h
    split at h
    · rename_i hk
      simp [PS.next] at h
      subst h
      exact ⟨r, rfl, hk, rfl⟩
    · cases h

theorem next_cons (c t : Token) (r : List Token) : (PS.mk c (t :: r)).next = ⟨t, r⟩ := rfl

theorem next_of {s : PS} {t : Token} {r : List Token} (h : s.rest = t :: r) : s.next = ⟨t, r⟩ := by
  obtain ⟨c, l⟩ := s
  subst h; rfl

/-- `skipSemi` reads an optional semicolon. -/
theorem skipSemi_spec (s : PS) (h : EndsEof s.rest) :
    ∃ sm, s.rest = sm ++ (skipSemi s).rest ∧ OptSemi sm ∧ EndsEof (skipSemi s).rest := by
  unfold skipSemi
  split
  · rename_i hp
    obtain ⟨t, r, h1, h2⟩ := peekIs_true hp
    rw [next_of h1, h1]
    refine ⟨[t], rfl, .some t h2, ?_⟩
    rw [h1] at h
    exact endsEof_tail h (by rw [h2]; decide)
  · exact ⟨[], rfl, .none, h⟩

variable {F : Type} [Rt F]

/-- Where `parse_expr(prec)` may stop: before a semicolon, before a token that does not bind tighter than `prec`, or after a `let`. -/
def Stop (prec : Nat) (e : Expr F) (s : PS) : Prop := s.peekIs .Semi = true ∨ s.peekPrec ≤ prec ∨ EndsInLet e

/-- What a successful `parse_expr(prec)` guarantees. -/
def Post (prec : Nat) (s : PS) (e : Expr F) (s' : PS) : Prop :=
  ∃ more, s.rest = more ++ s'.rest ∧ EndsEof s'.rest ∧ Reads e (s.cur :: more) ∧ Grouped EndsInLet e ∧
    (prec < strength e ∨ 11 ≤ strength e) ∧ Stop prec e s'

/-- A recursive call that meets its guarantee on every well-formed state. -/
def SoundPE (pe : PE F) : Prop :=
  ∀ prec s e s', EndsEof (s.cur :: s.rest) → pe prec s = .ok (e, s') → Post prec s e s'

/-- Reading one more expression after a live state: `pe prec s.next`. -/
theorem sound_next {pe : PE F} (hs : SoundPE pe) {prec : Nat} {s : PS} {e : Expr F} {s' : PS} (h : EndsEof s.rest)
    (hp : pe prec s.next = .ok (e, s')) :
    ∃ ts, s.rest = ts ++ s'.rest ∧ ts ≠ [] ∧ EndsEof s'.rest ∧ Reads e ts ∧ Grouped EndsInLet e ∧
      (prec < strength e ∨ 11 ≤ strength e) ∧ Stop prec e s' := by
  obtain ⟨t, r, h1⟩ := endsEof_cases h
  rw [next_of h1] at hp
  obtain ⟨more, h2, h3, h4, h5, h6, h7⟩ := hs prec ⟨t, r⟩ e s' (by rw [h1] at h; exact h) hp
  refine ⟨t :: more, ?_, by simp, h3, h4, h5, h6, h7⟩
  rw [h1]; simp at h2; simp [h2]

theorem expect_live {s s' : PS} {k : Kind} (hk : k ≠ .Eof) (h : EndsEof s.rest) (he : s.expect k = .ok s') :
    s.rest = s'.cur :: s'.rest ∧ s'.cur.kind = k ∧ EndsEof s'.rest := by
  obtain ⟨r, h1, h2, h3⟩ := expect_ok he
  subst h3
  refine ⟨h1, h2, ?_⟩
  rw [h1] at h
  exact endsEof_tail h (by rw [h2]; exact hk)

theorem parseListLoop_sound {pe : PE F} (hs : SoundPE pe) {endK : Kind} (n : Nat) :
    ∀ (s : PS) (es : List (Expr F)) (s' : PS), EndsEof s.rest → parseListLoop pe endK n s = .ok (es, s') →
      ∃ ts, s.rest = ts ++ s'.rest ∧ EndsEof s'.rest ∧ ReadsList es ts ∧ GroupedAll EndsInLet es := by
  induction n with
  | zero => intro s es s' _ h; cases h
  | succ n ih =>
    intro s es s' hE h
    simp only [parseListLoop] at h
    split at h
    · simp [Res.pure_eq] at h
      obtain ⟨rfl, rfl⟩ := h
      exact ⟨[], rfl, hE, .nil, .nil⟩
    · obtain ⟨⟨e, s1⟩, h1, h⟩ := Res.bind_ok h
      obtain ⟨te, hr, _, hE1, hR, hG, _, _⟩ := sound_next hs hE h1
      dsimp only at h
      split at h
      · rename_i hend
        rw [Res.pure_eq, Res.ok_bind] at h
        obtain ⟨⟨es', s3⟩, h3, h⟩ := Res.bind_ok h
        simp [Res.pure_eq] at h
        obtain ⟨rfl, rfl⟩ := h
        cases n with
        | zero => cases h3
        | succ n =>
          simp only [parseListLoop, hend, if_true, Res.pure_eq] at h3
          simp at h3
          obtain ⟨rfl, rfl⟩ := h3
          exact ⟨te, hr, hE1, .last e te hR, .cons _ _ hG .nil⟩
      · obtain ⟨s2, h2, h⟩ := Res.bind_ok h
        obtain ⟨⟨es', s3⟩, h3, h⟩ := Res.bind_ok h
        simp [Res.pure_eq] at h
        obtain ⟨rfl, rfl⟩ := h
        obtain ⟨hr1, hc, hE2⟩ := expect_live (by decide) hE1 h2
        obtain ⟨ts, hr2, hE3, hR2, hG2⟩ := ih _ _ _ hE2 h3
        refine ⟨te ++ s2.cur :: ts, ?_, hE3, .cons e es' s2.cur te ts hc hR hR2, .cons _ _ hG hG2⟩
        rw [hr, hr1, hr2]; simp

theorem parseList_sound {pe : PE F} (hs : SoundPE pe) {endK : Kind} (hk : endK ≠ .Eof) {n : Nat} {s : PS} {es : List (Expr F)}
    {s' : PS} (hE : EndsEof s.rest) (h : parseList pe n endK s = .ok (es, s')) :
    ∃ ts, s.rest = ts ++ s'.cur :: s'.rest ∧ s'.cur.kind = endK ∧ EndsEof s'.rest ∧ ReadsList es ts ∧ GroupedAll EndsInLet es := by
  simp only [parseList] at h
  obtain ⟨⟨es1, s1⟩, h1, h⟩ := Res.bind_ok h
  obtain ⟨s2, h2, h⟩ := Res.bind_ok h
  simp [Res.pure_eq] at h
  obtain ⟨rfl, rfl⟩ := h
  obtain ⟨ts, hr, hE1, hR, hG⟩ := parseListLoop_sound hs n _ _ _ hE h1
  obtain ⟨hr1, hc, hE2⟩ := expect_live hk hE1 h2
  exact ⟨ts, by rw [hr, hr1], hc, hE2, hR, hG⟩

theorem parsePairsLoop_sound {pe : PE F} (hs : SoundPE pe) (n : Nat) :
    ∀ (s : PS) (ps : List (Expr F × Expr F)) (s' : PS), EndsEof s.rest → parsePairsLoop pe n s = .ok (ps, s') →
      ∃ ts, s.rest = ts ++ s'.rest ∧ EndsEof s'.rest ∧ ReadsPairs ps ts ∧ GroupedPairs EndsInLet ps := by
  induction n with
  | zero => intro s es s' _ h; cases h
  | succ n ih =>
    intro s es s' hE h
    simp only [parsePairsLoop] at h
    split at h
    · simp [Res.pure_eq] at h
      obtain ⟨rfl, rfl⟩ := h
      exact ⟨[], rfl, hE, .nil, .nil⟩
    · obtain ⟨⟨k, s1⟩, h1, h⟩ := Res.bind_ok h
      obtain ⟨s2, h2, h⟩ := Res.bind_ok h
      obtain ⟨⟨v, s3⟩, h3, h⟩ := Res.bind_ok h
      obtain ⟨tk, hr1, _, hE1, hRk, hGk, _, _⟩ := sound_next hs hE h1
      obtain ⟨hr2, hc, hE2⟩ := expect_live (by decide) hE1 h2
      obtain ⟨tv, hr3, _, hE3, hRv, hGv, _, _⟩ := sound_next hs hE2 h3
      dsimp only at h
      split at h
      · rename_i hend
        rw [Res.pure_eq, Res.ok_bind] at h
        obtain ⟨⟨ps, s5⟩, h5, h⟩ := Res.bind_ok h
        simp [Res.pure_eq] at h
        obtain ⟨rfl, rfl⟩ := h
        cases n with
        | zero => cases h5
        | succ n =>
          simp only [parsePairsLoop, hend, if_true, Res.pure_eq] at h5
          simp at h5
          obtain ⟨rfl, rfl⟩ := h5
          exact ⟨tk ++ s2.cur :: tv, by rw [hr1, hr2, hr3]; simp, hE3, .last k v s2.cur tk tv hc hRk hRv, .cons _ _ _ hGk hGv .nil⟩
      · obtain ⟨s4, h4, h⟩ := Res.bind_ok h
        obtain ⟨⟨ps, s5⟩, h5, h⟩ := Res.bind_ok h
        simp [Res.pure_eq] at h
        obtain ⟨rfl, rfl⟩ := h
        obtain ⟨hr4, hm, hE4⟩ := expect_live (by decide) hE3 h4
        obtain ⟨ts, hr5, hE5, hR, hG⟩ := ih _ _ _ hE4 h5
        refine ⟨tk ++ s2.cur :: (tv ++ s4.cur :: ts), ?_, hE5, .cons k v ps s2.cur s4.cur tk tv ts hc hm hRk hRv hR, .cons _ _ _ hGk hGv hG⟩
        rw [hr1, hr2, hr3, hr4, hr5]; simp

theorem parseBlockLoop_sound {pe : PE F} (hs : SoundPE pe) (n : Nat) :
    ∀ (s : PS) (es : List (Expr F)) (s' : PS), EndsEof s.rest → parseBlockLoop pe n s = .ok (es, s') →
      ∃ ts, s.rest = ts ++ s'.rest ∧ EndsEof s'.rest ∧ ReadsSeq es ts ∧ GroupedAll EndsInLet es := by
  induction n with
  | zero => intro s es s' _ h; cases h
  | succ n ih =>
    intro s es s' hE h
    simp only [parseBlockLoop] at h
    split at h
    · simp [Res.pure_eq] at h
      obtain ⟨rfl, rfl⟩ := h
      exact ⟨[], rfl, hE, .nil, .nil⟩
    · obtain ⟨⟨e, s1⟩, h1, h⟩ := Res.bind_ok h
      obtain ⟨⟨es', s3⟩, h3, h⟩ := Res.bind_ok h
      simp [Res.pure_eq] at h
      obtain ⟨rfl, rfl⟩ := h
      obtain ⟨te, hr, _, hE1, hR, hG, _, _⟩ := sound_next hs hE h1
      obtain ⟨sm, hr1, hsm, hE2⟩ := skipSemi_spec s1 hE1
      obtain ⟨ts, hr2, hE3, hR2, hG2⟩ := ih _ _ _ hE2 h3
      refine ⟨te ++ (sm ++ ts), ?_, hE3, .cons e es' te sm ts hR hsm hR2, .cons _ _ hG hG2⟩
      rw [hr, hr1, hr2]; simp

theorem parseBlock_sound {pe : PE F} (hs : SoundPE pe) {n : Nat} {s : PS} {es : List (Expr F)} {s' : PS} (hE : EndsEof s.rest)
    (h : parseBlock pe n s = .ok (es, s')) :
    ∃ ts, s.rest = ts ++ s'.rest ∧ EndsEof s'.rest ∧ ReadsBlock es ts ∧ GroupedAll EndsInLet es := by
  simp only [parseBlock] at h
  obtain ⟨s1, h1, h⟩ := Res.bind_ok h
  obtain ⟨⟨es1, s2⟩, h2, h⟩ := Res.bind_ok h
  obtain ⟨s3, h3, h⟩ := Res.bind_ok h
  simp [Res.pure_eq] at h
  obtain ⟨rfl, rfl⟩ := h
  obtain ⟨hr1, hc1, hE1⟩ := expect_live (by decide) hE h1
  obtain ⟨ts, hr2, hE2, hR, hG⟩ := parseBlockLoop_sound hs n _ _ _ hE1 h2
  obtain ⟨hr3, hc3, hE3⟩ := expect_live (by decide) hE2 h3
  refine ⟨s1.cur :: (ts ++ [s3.cur]), ?_, hE3, .mk _ _ _ _ hc1 hc3 hR, hG⟩
  rw [hr1, hr2, hr3]; simp

/-- What the loop of `parse_expr` needs to know about what has been read so far. -/
def LoopInv (prec : Nat) (t0 : Token) (used : List Token) (left : Expr F) (s : PS) : Prop :=
  EndsEof s.rest ∧ Reads left (t0 :: used) ∧ Grouped EndsInLet left ∧ (prec < strength left ∨ 11 ≤ strength left) ∧
    (s.peekIs .Semi = true ∨ s.peekPrec ≤ strength left ∨ EndsInLet left)

theorem peekPrec_le (s : PS) : s.peekPrec ≤ 14 := by
  obtain ⟨c, l⟩ := s
  cases l with
  | nil => simp [PS.peekPrec, PS.peek]
  | cons t r =>
    obtain ⟨k, l⟩ := t
    simp only [PS.peekPrec, PS.peek, List.head?_cons, Token.precedence]
    cases k <;> decide

theorem tableLevel_binary {k : Kind} (h : k.isBinary = true) : k.precedence = tableLevel k ∧ tableLevel k ≤ 10 ∧ k ≠ .Eof := by
  cases k <;> first | (exact absurd h (by decide)) | decide

theorem parseLet_sound {pe : PE F} (hs : SoundPE pe) {s : PS} {e : Expr F} {s' : PS} (hE : EndsEof s.rest)
    (hk : s.cur.kind = .Let) (h : parseLet pe s = .ok (e, s')) :
    ∃ more, s.rest = more ++ s'.rest ∧ EndsEof s'.rest ∧ Reads e (s.cur :: more) ∧ Grouped EndsInLet e ∧ strength e = 14 ∧ EndsInLet e := by
  simp only [parseLet] at h
  obtain ⟨s1, h1, h⟩ := Res.bind_ok h
  obtain ⟨s2, h2, h⟩ := Res.bind_ok h
  obtain ⟨⟨v, s3⟩, h3, h⟩ := Res.bind_ok h
  simp [Res.pure_eq] at h
  obtain ⟨rfl, rfl⟩ := h
  obtain ⟨hr1, hc1, hE1⟩ := expect_live (by decide) hE h1
  obtain ⟨hr2, hc2, hE2⟩ := expect_live (by decide) hE1 h2
  obtain ⟨tv, hr3, _, hE3, hR, hG, _, _⟩ := sound_next hs hE2 h3
  obtain ⟨sm, hr4, hsm, hE4⟩ := skipSemi_spec s3 hE3
  refine ⟨s1.cur :: s2.cur :: (tv ++ sm), ?_, hE4, .letE _ _ _ _ _ _ hk hc1 hc2 hR hsm, .letE _ _ hG, rfl, trivial⟩
  rw [hr1, hr2, hr3, hr4]; simp

theorem parseUnary_sound {pe : PE F} (hs : SoundPE pe) {s : PS} {e : Expr F} {s' : PS} (hE : EndsEof s.rest)
    (hk : s.cur.kind = .Not ∨ s.cur.kind = .Sub) (h : parseUnary pe s = .ok (e, s')) :
    ∃ more, s.rest = more ++ s'.rest ∧ EndsEof s'.rest ∧ Reads e (s.cur :: more) ∧ Grouped EndsInLet e ∧ strength e = 11 ∧
      (s'.peekIs .Semi = true ∨ s'.peekPrec ≤ 11 ∨ EndsInLet e) := by
  simp only [parseUnary] at h
  obtain ⟨⟨r, s1⟩, h1, h⟩ := Res.bind_ok h
  simp [Res.pure_eq] at h
  obtain ⟨rfl, rfl⟩ := h
  have hp : (if s.cur.kind = .Sub then s.cur.precedence + 2 else s.cur.precedence) = 11 := by
    rcases hk with hk | hk <;> simp [Token.precedence, hk, Kind.precedence]
  rw [hp] at h1
  obtain ⟨tr, hr1, _, hE1, hR, hG, hst, hstop⟩ := sound_next hs hE h1
  refine ⟨tr, hr1, hE1, .unary _ _ _ hk hR, .unary _ _ hk hG (by omega), rfl, hstop⟩

theorem parseIf_sound {pe : PE F} (hs : SoundPE pe) {n : Nat} {s : PS} {e : Expr F} {s' : PS} (hE : EndsEof s.rest)
    (hk : s.cur.kind = .If) (h : parseIf pe n s = .ok (e, s')) :
    ∃ more, s.rest = more ++ s'.rest ∧ EndsEof s'.rest ∧ Reads e (s.cur :: more) ∧ Grouped EndsInLet e ∧ strength e = 14 := by
  simp only [parseIf] at h
  obtain ⟨s1, h1, h⟩ := Res.bind_ok h
  obtain ⟨⟨c, s2⟩, h2, h⟩ := Res.bind_ok h
  obtain ⟨s3, h3, h⟩ := Res.bind_ok h
  obtain ⟨⟨t, s4⟩, h4, h⟩ := Res.bind_ok h
  obtain ⟨hr1, hc1, hE1⟩ := expect_live (by decide) hE h1
  obtain ⟨tc, hr2, _, hE2, hRc, hGc, _, _⟩ := sound_next hs hE1 h2
  obtain ⟨hr3, hc3, hE3⟩ := expect_live (by decide) hE2 h3
  obtain ⟨tt, hr4, hE4, hRt, hGt⟩ := parseBlock_sound hs hE3 h4
  dsimp only at h
  split at h
  · rename_i hel
    obtain ⟨⟨a, s5⟩, h5, h⟩ := Res.bind_ok h
    simp [Res.pure_eq] at h
    obtain ⟨rfl, rfl⟩ := h
    obtain ⟨el, rl, hr5, hc5⟩ := peekIs_true hel
    rw [next_of hr5] at h5
    have hE5 : EndsEof rl := by rw [hr5] at hE4; exact endsEof_tail hE4 (by rw [hc5]; decide)
    obtain ⟨te, hr6, hE6, hRe, hGe⟩ := parseBlock_sound hs (s := ⟨el, rl⟩) hE5 h5
    refine ⟨s1.cur :: (tc ++ s3.cur :: (tt ++ el :: te)), ?_, hE6, .ifElse _ _ _ _ _ _ _ _ _ _ hk hc1 hc3 hc5 hRc hRt hRe, .ifE _ _ _ hGc hGt hGe, rfl⟩
    rw [hr1, hr2, hr3, hr4, hr5]
    simp at hr6
    simp [hr6]
  · simp [Res.pure_eq] at h
    obtain ⟨rfl, rfl⟩ := h
    refine ⟨s1.cur :: (tc ++ s3.cur :: tt), ?_, hE4, .ifThen _ _ _ _ _ _ _ hk hc1 hc3 hRc hRt, .ifE _ _ _ hGc hGt .nil, rfl⟩
    rw [hr1, hr2, hr3, hr4]; simp

theorem parseBool_some {l : Str} {b : Bool} (h : parseBool l = some b) : l = boolStr b := by
  simp only [parseBool] at h
  split at h
  · simp at h; subst h; assumption
  · split at h
    · simp at h; subst h; assumption
    · cases h

theorem loopInv_atom {prec : Nat} {t0 : Token} {used : List Token} {e : Expr F} {s : PS} (hE : EndsEof s.rest)
    (hR : Reads e (t0 :: used)) (hG : Grouped EndsInLet e) (h14 : strength e = 14) : LoopInv prec t0 used e s :=
  ⟨hE, hR, hG, Or.inr (by omega), Or.inr (Or.inl (by rw [h14]; exact peekPrec_le s))⟩

theorem parsePrefix_sound {pe : PE F} (hs : SoundPE pe) {n prec : Nat} {s : PS} {e : Expr F} {p' : Nat} {s' : PS}
    (hE0 : EndsEof (s.cur :: s.rest)) (h : parsePrefix pe n prec s = .ok (e, p', s')) :
    ∃ more, s.rest = more ++ s'.rest ∧ LoopInv prec s.cur more e s' ∧ (p' = prec ∨ (p' = 255 ∧ EndsInLet e)) := by
  have live : ∀ {k : Kind}, s.cur.kind = k → k ≠ .Eof → EndsEof s.rest := fun h1 h2 => endsEof_tail hE0 (by rw [h1]; exact h2)
  simp only [parsePrefix] at h
  split at h
  case h_1 hk =>
    simp [Res.pure_eq] at h; obtain ⟨rfl, rfl, rfl⟩ := h
    exact ⟨[], rfl, loopInv_atom (live hk (by decide)) (.ident _ hk) (.ident _) rfl, Or.inl rfl⟩
  case h_2 hk =>
    obtain ⟨e1, h1, h⟩ := Res.bind_ok h
    simp [Res.pure_eq] at h; obtain ⟨rfl, rfl, rfl⟩ := h
    simp only [parseInteger] at h1
    split at h1
    · rename_i i hi
      simp at h1; subst h1
      exact ⟨[], rfl, loopInv_atom (live hk (by decide)) (.int _ _ hk (parseI64_iff.1 hi)) (.int _) rfl, Or.inl rfl⟩
    · cases h1
  case h_3 hk =>
    obtain ⟨e1, h1, h⟩ := Res.bind_ok h
    simp [Res.pure_eq] at h; obtain ⟨rfl, rfl, rfl⟩ := h
    simp only [parseFloat] at h1
    split at h1
    · rename_i i hi
      simp at h1; subst h1
      exact ⟨[], rfl, loopInv_atom (live hk (by decide)) (.float _ _ hk hi) (.float _) rfl, Or.inl rfl⟩
    · cases h1
  case h_4 hk =>
    obtain ⟨e1, h1, h⟩ := Res.bind_ok h
    simp [Res.pure_eq] at h; obtain ⟨rfl, rfl, rfl⟩ := h
    simp only [parseBoolean] at h1
    split at h1
    · rename_i i hi
      simp at h1; subst h1
      exact ⟨[], rfl, loopInv_atom (live hk (by decide)) (.bool _ _ (Or.inl hk) (parseBool_some hi)) (.bool _) rfl, Or.inl rfl⟩
    · cases h1
  case h_5 hk =>
    obtain ⟨e1, h1, h⟩ := Res.bind_ok h
    simp [Res.pure_eq] at h; obtain ⟨rfl, rfl, rfl⟩ := h
    simp only [parseBoolean] at h1
    split at h1
    · rename_i i hi
      simp at h1; subst h1
      exact ⟨[], rfl, loopInv_atom (live hk (by decide)) (.bool _ _ (Or.inr hk) (parseBool_some hi)) (.bool _) rfl, Or.inl rfl⟩
    · cases h1
  case h_6 hk =>
    simp [Res.pure_eq] at h; obtain ⟨rfl, rfl, rfl⟩ := h
    exact ⟨[], rfl, loopInv_atom (live hk (by decide)) (.str _ hk) (.str _) rfl, Or.inl rfl⟩
  case h_7 hk =>
    obtain ⟨⟨e1, s1⟩, h1, h⟩ := Res.bind_ok h
    simp [Res.pure_eq] at h; obtain ⟨rfl, rfl, rfl⟩ := h
    obtain ⟨more, hr, hE, hR, hG, hst, hl⟩ := parseLet_sound hs (live hk (by decide)) hk h1
    exact ⟨more, hr, loopInv_atom hE hR hG hst, Or.inr ⟨rfl, hl⟩⟩
  case h_8 hk =>
    obtain ⟨⟨e1, s1⟩, h1, h⟩ := Res.bind_ok h
    simp [Res.pure_eq] at h; obtain ⟨rfl, rfl, rfl⟩ := h
    obtain ⟨more, hr, hE, hR, hG, hst, hl⟩ := parseUnary_sound hs (live hk (by decide)) (Or.inl hk) h1
    exact ⟨more, hr, ⟨hE, hR, hG, Or.inr (by omega), by rw [hst]; exact hl⟩, Or.inl rfl⟩
  case h_9 hk =>
    obtain ⟨⟨e1, s1⟩, h1, h⟩ := Res.bind_ok h
    simp [Res.pure_eq] at h; obtain ⟨rfl, rfl, rfl⟩ := h
    obtain ⟨more, hr, hE, hR, hG, hst, hl⟩ := parseUnary_sound hs (live hk (by decide)) (Or.inr hk) h1
    exact ⟨more, hr, ⟨hE, hR, hG, Or.inr (by omega), by rw [hst]; exact hl⟩, Or.inl rfl⟩
  case h_10 hk =>
    obtain ⟨⟨e1, s1⟩, h1, h⟩ := Res.bind_ok h
    simp [Res.pure_eq] at h; obtain ⟨rfl, rfl, rfl⟩ := h
    simp only [parseParen] at h1
    obtain ⟨⟨e2, s2⟩, h2, h1⟩ := Res.bind_ok h1
    obtain ⟨s3, h3, h1⟩ := Res.bind_ok h1
    simp [Res.pure_eq] at h1
    obtain ⟨rfl, rfl⟩ := h1
    obtain ⟨te, hr, _, hE, hR, hG, _, _⟩ := sound_next hs (live hk (by decide)) h2
    obtain ⟨hr3, hc3, hE3⟩ := expect_live (by decide) hE h3
    refine ⟨te ++ [s3.cur], by rw [hr, hr3]; simp, loopInv_atom hE3 ?_ (.paren _ hG) rfl, Or.inl rfl⟩
    exact .paren _ _ _ _ hk hc3 hR
  case h_11 hk =>
    obtain ⟨⟨e1, s1⟩, h1, h⟩ := Res.bind_ok h
    simp [Res.pure_eq] at h; obtain ⟨rfl, rfl, rfl⟩ := h
    obtain ⟨more, hr, hE, hR, hG, hst⟩ := parseIf_sound hs (live hk (by decide)) hk h1
    exact ⟨more, hr, loopInv_atom hE hR hG hst, Or.inl rfl⟩
  case h_12 hk =>
    obtain ⟨⟨e1, s1⟩, h1, h⟩ := Res.bind_ok h
    simp [Res.pure_eq] at h; obtain ⟨rfl, rfl, rfl⟩ := h
    simp only [parseArray] at h1
    obtain ⟨⟨es, s2⟩, h2, h1⟩ := Res.bind_ok h1
    simp [Res.pure_eq] at h1
    obtain ⟨rfl, rfl⟩ := h1
    obtain ⟨ts, hr, hc, hE, hR, hG⟩ := parseList_sound hs (by decide) (live hk (by decide)) h2
    refine ⟨ts ++ [s2.cur], by rw [hr]; simp, loopInv_atom hE (.arr _ _ _ _ hk hc hR) (.arr _ hG) rfl, Or.inl rfl⟩
  case h_13 hk =>
    obtain ⟨⟨e1, s1⟩, h1, h⟩ := Res.bind_ok h
    simp [Res.pure_eq] at h; obtain ⟨rfl, rfl, rfl⟩ := h
    simp only [parseMap] at h1
    obtain ⟨⟨es, s2⟩, h2, h1⟩ := Res.bind_ok h1
    obtain ⟨s3, h3, h1⟩ := Res.bind_ok h1
    simp [Res.pure_eq] at h1
    obtain ⟨rfl, rfl⟩ := h1
    obtain ⟨ts, hr, hE, hR, hG⟩ := parsePairsLoop_sound hs _ _ _ _ (live hk (by decide)) h2
    obtain ⟨hr3, hc3, hE3⟩ := expect_live (by decide) hE h3
    refine ⟨ts ++ [s3.cur], by rw [hr, hr3]; simp, loopInv_atom hE3 (.map _ _ _ _ hk hc3 hR) (.map _ hG) rfl, Or.inl rfl⟩
  case h_14 => cases h

theorem tableLevel_le (k : Kind) : tableLevel k ≤ 10 := by cases k <;> decide

theorem strength_13 (e : Expr F) (h : 13 ≤ strength e) : 14 ≤ strength e := by
  cases e with
  | binary op l r =>
    have := tableLevel_le op.kind
    simp only [strength] at h
    omega
  | unary op r => simp only [strength] at h; omega
  | _ => exact Nat.le_refl 14

theorem parseCall_sound {pe : PE F} (hs : SoundPE pe) {n : Nat} {left : Expr F} {s : PS} {e : Expr F} {s' : PS}
    (hE : EndsEof s.rest) (h : parseCall pe n left s = .ok (e, s')) :
    ∃ f args ts, left = .ident f ∧ e = .call f args ∧ s.rest = ts ++ s'.cur :: s'.rest ∧ s'.cur.kind = .Rp ∧ EndsEof s'.rest ∧
      ReadsList args ts ∧ GroupedAll EndsInLet args := by
  simp only [parseCall] at h
  obtain ⟨⟨args, s1⟩, h1, h⟩ := Res.bind_ok h
  obtain ⟨ts, hr, hc, hE1, hR, hG⟩ := parseList_sound hs (by decide) hE h1
  dsimp only at h
  split at h
  · simp [Res.pure_eq] at h
    obtain ⟨rfl, rfl⟩ := h
    exact ⟨_, _, ts, rfl, rfl, hr, hc, hE1, hR, hG⟩
  · cases h

/-- One round of the loop: from an operator token to the next expression read. -/
theorem parseLoop_sound {pe : PE F} (hs : SoundPE pe) (prec : Nat) (n : Nat) :
    ∀ (t0 : Token) (used : List Token) (left : Expr F) (s : PS) (e : Expr F) (s' : PS), LoopInv prec t0 used left s →
      parseLoop pe prec n left s = .ok (e, s') →
      ∃ more, s.rest = more ++ s'.rest ∧ EndsEof s'.rest ∧ Reads e (t0 :: (used ++ more)) ∧ Grouped EndsInLet e ∧
        (prec < strength e ∨ 11 ≤ strength e) ∧ Stop prec e s' := by
  induction n with
  | zero => intro t0 used left s e s' _ h; cases h
  | succ n ih =>
    intro t0 used left s e s' hI h
    obtain ⟨hE, hR, hG, hst, hnx⟩ := hI
    obtain ⟨c, l⟩ := s
    obtain ⟨t, r, hl⟩ := endsEof_cases hE
    simp at hl
    subst hl
    simp only [parseLoop] at h
    split at h
    · rename_i hcond
      simp only [PS.peek, List.head?_cons] at h
      have hpp : (PS.mk c (t :: r)).peekPrec = t.kind.precedence := rfl
      rw [hpp] at hcond hnx
      simp at hcond
      have hnx' : t.kind.precedence ≤ strength left ∨ EndsInLet left := by
        rcases hnx with h1 | h1
        · rw [h1] at hcond; simp at hcond
        · exact h1
      have hEr : t.kind ≠ .Eof := by intro h1; rw [h1] at hcond; simp [Kind.precedence] at hcond
      have hE1 : EndsEof r := endsEof_tail hE hEr
      split at h
      · rename_i hbin
        obtain ⟨h1, h2, _⟩ := tableLevel_binary hbin
        obtain ⟨⟨e1, s1⟩, h3, h⟩ := Res.bind_ok h
        simp only [parseBinary, next_cons] at h3
        obtain ⟨⟨rt, s2⟩, h4, h3⟩ := Res.bind_ok h3
        simp [Res.pure_eq] at h3
        obtain ⟨rfl, rfl⟩ := h3
        obtain ⟨tr, hr, _, hE2, hRr, hGr, hsr, hstop⟩ := sound_next hs (s := ⟨t, r⟩) hE1 h4
        simp only [Token.precedence] at hstop hsr
        obtain ⟨more, hr2, hE3, hR3, hG3, hst3, hstop3⟩ := ih t0 (used ++ t :: tr) (.binary t left rt) s2 e s'
          ⟨hE2, by have := Reads.binary t left rt (t0 :: used) tr hbin hR hRr; simpa using this,
            .binary t left rt hbin hG hGr (by omega) (by rw [← h1]; exact hnx'),
            Or.inl (by simp only [strength]; rw [← h1]; exact hcond.2), by
            rcases hstop with h5 | h5 | h5
            · exact Or.inl h5
            · exact Or.inr (Or.inl (by simp only [strength]; rw [← h1]; exact h5))
            · exact Or.inr (Or.inr h5)⟩ h
        refine ⟨t :: tr ++ more, ?_, hE3, by simpa using hR3, hG3, hst3, hstop3⟩
        simp at hr
        simp [hr, hr2]
      · split at h
        · rename_i hk
          obtain ⟨⟨e1, s1⟩, h3, h⟩ := Res.bind_ok h
          rw [next_cons] at h3
          obtain ⟨f, args, ts, rfl, rfl, hr, hc, hE2, hRl, hGl⟩ := parseCall_sound hs (s := ⟨t, r⟩) hE1 h3
          have hR' : Reads (F := F) (.call f args) (t0 :: (used ++ t :: (ts ++ [s1.cur]))) := by
            cases hR with
            | ident _ hki => exact .call _ _ _ _ _ hki hk hc hRl
          obtain ⟨more, hr2, hE3, hR3, hG3, hst3, hstop3⟩ := ih t0 _ (.call f args) s1 e s' (loopInv_atom hE2 hR' (.call f args hGl) rfl) h
          refine ⟨t :: (ts ++ [s1.cur]) ++ more, ?_, hE3, by simpa using hR3, hG3, hst3, hstop3⟩
          simp at hr
          simp [hr, hr2]
        · split at h
          · rename_i hk
            obtain ⟨⟨e1, s1⟩, h3, h⟩ := Res.bind_ok h
            simp only [parseIndex, next_cons] at h3
            obtain ⟨⟨i, s2⟩, h4, h3⟩ := Res.bind_ok h3
            obtain ⟨s3, h5, h3⟩ := Res.bind_ok h3
            simp [Res.pure_eq] at h3
            obtain ⟨rfl, rfl⟩ := h3
            obtain ⟨ti, hr, _, hE2, hRi, hGi, _, _⟩ := sound_next hs (s := ⟨t, r⟩) hE1 h4
            obtain ⟨hr3, hc3, hE3⟩ := expect_live (by decide) hE2 h5
            have h14 : 14 ≤ strength left ∨ EndsInLet left := by
              rcases hnx' with h6 | h6
              · left
                rw [hk] at h6
                simp only [Kind.precedence] at h6
                exact strength_13 left h6
              · exact Or.inr h6
            have hR' : Reads (.index left i) (t0 :: (used ++ t :: (ti ++ [s3.cur]))) := by
              have := Reads.index t s3.cur left i (t0 :: used) ti hk hc3 hR hRi
              simpa using this
            obtain ⟨more, hr2, hE4, hR3, hG3, hst3, hstop3⟩ := ih t0 _ _ s3 e s' (loopInv_atom hE3 hR' (.index left i hG hGi h14) rfl) h
            refine ⟨t :: (ti ++ [s3.cur]) ++ more, ?_, hE4, by simpa using hR3, hG3, hst3, hstop3⟩
            simp at hr
            simp [hr, hr3, hr2]
          · split at h
            · rename_i hk
              obtain ⟨⟨e1, s1⟩, h3, h⟩ := Res.bind_ok h
              simp only [parseField, next_cons] at h3
              obtain ⟨s3, h5, h3⟩ := Res.bind_ok h3
              simp [Res.pure_eq] at h3
              obtain ⟨rfl, rfl⟩ := h3
              obtain ⟨hr3, hc3, hE3⟩ := expect_live (by decide) (s := ⟨t, r⟩) hE1 h5
              have h14 : 14 ≤ strength left ∨ EndsInLet left := by
                rcases hnx' with h6 | h6
                · left
                  rw [hk] at h6
                  simp only [Kind.precedence] at h6
                  exact strength_13 left h6
                · exact Or.inr h6
              have hR' : Reads (.field left s3.cur.literal) (t0 :: (used ++ [t, s3.cur])) := by
                have := Reads.field t s3.cur left (t0 :: used) hk hc3 hR
                simpa using this
              obtain ⟨more, hr2, hE4, hR3, hG3, hst3, hstop3⟩ := ih t0 _ _ s3 e s' (loopInv_atom hE3 hR' (.field left _ hG h14) rfl) h
              refine ⟨[t, s3.cur] ++ more, ?_, hE4, by simpa using hR3, hG3, hst3, hstop3⟩
              simp at hr3
              simp [hr3, hr2]
            · exact ih t0 used left _ e s' ⟨hE, hR, hG, hst, by rw [hpp]; exact Or.inr hnx'⟩ h
    · rename_i hcond
      simp [Res.pure_eq] at h
      obtain ⟨rfl, rfl⟩ := h
      refine ⟨[], rfl, hE, by simpa using hR, hG, hst, ?_⟩
      simp at hcond
      by_cases hsm : (PS.mk c (t :: r)).peekIs .Semi = true
      · exact Or.inl hsm
      · exact Or.inr (Or.inl (hcond (by simpa using hsm)))

/-- A loop with the raised precedence of `let` stops at once. -/
theorem parseLoop_255 {pe : PE F} {n : Nat} {left : Expr F} {s : PS} {e : Expr F} {s' : PS}
    (h : parseLoop pe 255 n left s = .ok (e, s')) : e = left ∧ s' = s := by
  cases n with
  | zero => cases h
  | succ n =>
    have hp := peekPrec_le s
    simp only [parseLoop] at h
    rw [if_neg] at h
    · simp [Res.pure_eq] at h; exact ⟨h.1.symm, h.2.symm⟩
    · simp; intro _; omega

/-- Soundness of `parse_expr` at every fuel. -/
theorem parseExpr_sound (n : Nat) : SoundPE (F := F) (parseExpr n) := by
  induction n with
  | zero => intro prec s e s' _ h; cases h
  | succ n ih =>
    intro prec s e s' hE h
    simp only [parseExpr] at h
    obtain ⟨⟨left, p', s1⟩, h1, h2⟩ := Res.bind_ok h
    obtain ⟨more, hr, hI, hp⟩ := parsePrefix_sound ih hE h1
    dsimp only at h2
    rcases hp with rfl | ⟨rfl, hlet⟩
    · obtain ⟨more2, hr2, hE2, hR2, hG2, hst2, hstop2⟩ := parseLoop_sound ih p' n s.cur more left s1 e s' hI h2
      exact ⟨more ++ more2, by rw [hr, hr2]; simp, hE2, hR2, hG2, hst2, hstop2⟩
    · obtain ⟨rfl, rfl⟩ := parseLoop_255 h2
      obtain ⟨hE1, hR, hG, hst, _⟩ := hI
      exact ⟨more, hr, hE1, hR, hG, hst, Or.inr (Or.inr hlet)⟩

end Am
