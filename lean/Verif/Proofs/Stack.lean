import Verif.Model.Stack
import Verif.Spec.Stack
import Verif.Proofs.ParserFuel
import Verif.Props.Parsing
/-! # Nested calls of the parser -/
set_option linter.unusedSimpArgs false
set_option linter.unusedSectionVars false
namespace Am
open Spec
variable {F : Type} [Rt F]

theorem parseExprIn_sound (n d : Nat) : SoundPE (F := F) (parseExprIn n d) := by
  induction d with
  | zero => intro prec s e s' _ h; cases h
  | succ d ih =>
    intro prec s e s' hE h
    simp only [parseExprIn] at h
    obtain ⟨⟨left, p', s1⟩, h1, h2⟩ := Res.bind_ok h
    obtain ⟨more, hr, hI, hp⟩ := parsePrefix_sound ih hE h1
    dsimp only at h2
    rcases hp with rfl | ⟨rfl, hlet⟩
    · obtain ⟨more2, hr2, hE2, hR2, hG2, hst2, hstop2⟩ := parseLoop_sound ih p' n s.cur more left s1 e s' hI h2
      exact ⟨more ++ more2, by rw [hr, hr2]; simp, hE2, hR2, hG2, hst2, hstop2⟩
    · obtain ⟨rfl, rfl⟩ := parseLoop_255 h2
      obtain ⟨hE1, hR, hG, hst, _⟩ := hI
      exact ⟨more, hr, hE1, hR, hG, hst, Or.inr (Or.inr hlet)⟩

/-- With as much room as there are tokens, nothing changes. -/
theorem parseExprIn_enough (L : Nat) : ∀ n d m, L ≤ n → L ≤ d → L ≤ m → Agree (F := F) L (parseExprIn n d) (parseExpr m) := by
  induction L with
  | zero => intro n d m _ _ _ prec s _ h; omega
  | succ L ih =>
    intro n d m hn hd hm prec s hE hlen
    cases d with
    | zero => omega
    | succ d =>
      cases m with
      | zero => omega
      | succ m =>
        have hA := ih n d m (by omega) (by omega) (by omega)
        simp only [parseExprIn, parseExpr]
        refine Res.bind_congr (parsePrefix_fuel (parseExprIn_sound n d) hA hE (by omega) (by omega) (by omega)) ?_
        intro a h1
        obtain ⟨left, p, s1⟩ := a
        obtain ⟨more, hr, hI, _⟩ := parsePrefix_sound (parseExprIn_sound n d) hE h1
        have : s.rest.length = more.length + s1.rest.length := by rw [hr]; simp
        exact parseLoop_fuel (parseExprIn_sound n d) hA p n m left s1 hI.1 (by omega) (by omega) (by omega)

/-! ## Less room: the same or a crash -/

/-- `x` is a crash or equal to `y`. -/
def Res.Under {α : Type} (x y : Res α) : Prop := x = .panic ∨ x = y

theorem Res.Under.rfl' {α : Type} {x : Res α} : Res.Under x x := Or.inr rfl

theorem Res.Under.bind {α β : Type} {x x' : Res α} {f f' : α → Res β} (h : Res.Under x x') (hf : ∀ a, Res.Under (f a) (f' a)) :
    Res.Under (x >>= f) (x' >>= f') := by
  rcases h with h | h
  · subst h; exact Or.inl rfl
  · subst h
    cases x with
    | ok a => exact hf a
    | err m => exact Or.inr rfl
    | panic => exact Or.inl rfl
    | hang => exact Or.inr rfl

/-- `pe` crashes or does what `pe'` does. -/
def PUnder (pe pe' : PE F) : Prop := ∀ p s, Res.Under (pe p s) (pe' p s)

theorem parseListLoop_under {pe pe' : PE F} (h : PUnder pe pe') (endK : Kind) (n : Nat) :
    ∀ (s : PS), Res.Under (parseListLoop pe endK n s) (parseListLoop pe' endK n s) := by
  induction n with
  | zero => intro s; exact .rfl'
  | succ n ih =>
    intro s
    simp only [parseListLoop]
    split
    · exact .rfl'
    · refine .bind (h _ _) (fun a => ?_)
      split
      · exact .bind .rfl' (fun s2 => .bind (ih s2) (fun _ => .rfl'))
      · exact .bind .rfl' (fun s2 => .bind (ih s2) (fun _ => .rfl'))

theorem parseList_under {pe pe' : PE F} (h : PUnder pe pe') (endK : Kind) {n : Nat} (s : PS) :
    Res.Under (parseList pe n endK s) (parseList pe' n endK s) := by
  simp only [parseList]
  exact .bind (parseListLoop_under h endK n s) (fun _ => .rfl')

theorem parsePairsLoop_under {pe pe' : PE F} (h : PUnder pe pe') (n : Nat) :
    ∀ (s : PS), Res.Under (parsePairsLoop pe n s) (parsePairsLoop pe' n s) := by
  induction n with
  | zero => intro s; exact .rfl'
  | succ n ih =>
    intro s
    simp only [parsePairsLoop]
    split
    · exact .rfl'
    · refine .bind (h _ _) (fun a => .bind .rfl' (fun s2 => .bind (h _ _) (fun b => ?_)))
      split
      · exact .bind .rfl' (fun s2 => .bind (ih s2) (fun _ => .rfl'))
      · exact .bind .rfl' (fun s2 => .bind (ih s2) (fun _ => .rfl'))

theorem parseBlockLoop_under {pe pe' : PE F} (h : PUnder pe pe') (n : Nat) :
    ∀ (s : PS), Res.Under (parseBlockLoop pe n s) (parseBlockLoop pe' n s) := by
  induction n with
  | zero => intro s; exact .rfl'
  | succ n ih =>
    intro s
    simp only [parseBlockLoop]
    split
    · exact .rfl'
    · exact .bind (h _ _) (fun a => .bind (ih _) (fun _ => .rfl'))

theorem parseBlock_under {pe pe' : PE F} (h : PUnder pe pe') {n : Nat} (s : PS) :
    Res.Under (parseBlock pe n s) (parseBlock pe' n s) := by
  simp only [parseBlock]
  exact .bind .rfl' (fun s1 => .bind (parseBlockLoop_under h n s1) (fun _ => .rfl'))

theorem parsePrefix_under {pe pe' : PE F} (h : PUnder pe pe') {n : Nat} (prec : Nat) (s : PS) :
    Res.Under (parsePrefix pe n prec s) (parsePrefix pe' n prec s) := by
  simp only [parsePrefix]
  split
  case h_7 => exact .bind (.bind .rfl' fun s1 => .bind .rfl' fun s2 => .bind (h _ _) fun _ => .rfl') (fun _ => .rfl')
  case h_8 => exact .bind (.bind (h _ _) fun _ => .rfl') (fun _ => .rfl')
  case h_9 => exact .bind (.bind (h _ _) fun _ => .rfl') (fun _ => .rfl')
  case h_10 => exact .bind (.bind (h _ _) fun _ => .rfl') (fun _ => .rfl')
  case h_11 =>
    refine .bind ?_ (fun _ => .rfl')
    simp only [parseIf]
    refine .bind .rfl' fun s1 => .bind (h _ _) fun a => .bind .rfl' fun s3 => .bind (parseBlock_under h s3) fun b => ?_
    split
    · exact .bind (parseBlock_under h _) fun _ => .rfl'
    · exact .rfl'
  case h_12 => exact .bind (.bind (parseList_under h _ _) fun _ => .rfl') (fun _ => .rfl')
  case h_13 => exact .bind (.bind (parsePairsLoop_under h n _) fun _ => .rfl') (fun _ => .rfl')
  all_goals exact .rfl'

theorem parseLoop_under {pe pe' : PE F} (h : PUnder pe pe') (prec : Nat) (n : Nat) :
    ∀ (left : Expr F) (s : PS), Res.Under (parseLoop pe prec n left s) (parseLoop pe' prec n left s) := by
  induction n with
  | zero => intro left s; exact .rfl'
  | succ n ih =>
    intro left s
    simp only [parseLoop]
    split
    · cases s.peek with
      | none => exact ih _ _
      | some t =>
        dsimp only
        split
        · exact .bind (.bind (h _ _) fun _ => .rfl') fun _ => ih _ _
        · split
          · exact .bind (.bind (parseList_under h _ _) fun _ => .rfl') fun _ => ih _ _
          · split
            · exact .bind (.bind (h _ _) fun _ => .rfl') fun _ => ih _ _
            · split
              · exact .bind .rfl' fun _ => ih _ _
              · exact ih _ _
    · exact .rfl'

/-- More room: a crash may go away, nothing else changes. -/
theorem parseExprIn_under (n : Nat) (d : Nat) : ∀ d', d ≤ d' → PUnder (F := F) (parseExprIn n d) (parseExprIn n d') := by
  induction d with
  | zero => intro d' _ p s; exact Or.inl rfl
  | succ d ih =>
    intro d' hd p s
    cases d' with
    | zero => omega
    | succ d' =>
      simp only [parseExprIn]
      exact .bind (parsePrefix_under (ih d' (by omega)) p s) fun a => parseLoop_under (ih d' (by omega)) _ n _ _

theorem parseItemBy_under {pe pe' : PE F} (h : PUnder pe pe') (n : Nat) (src : Source F) (s : PS) :
    Res.Under (parseItemBy pe n src s) (parseItemBy pe' n src s) := by
  simp only [parseItemBy]
  split
  · refine .bind ?_ fun _ => .rfl'
    simp only [parseRequestBy]
    refine .bind .rfl' fun s1 => .bind .rfl' fun s2 => ?_
    split
    · exact .bind (parseList_under h _ _) fun _ => .rfl'
    · exact .rfl'
  · exact .bind (.bind .rfl' fun s1 => .bind (parseBlock_under h _) fun _ => .rfl') fun _ => .rfl'
  · exact .bind (h _ _) fun _ => .rfl'

theorem parseTopBy_under {pe pe' : PE F} (h : PUnder pe pe') (n : Nat) (k : Nat) :
    ∀ (src : Source F) (s : PS), Res.Under (parseTopBy pe n k src s) (parseTopBy pe' n k src s) := by
  induction k with
  | zero => intro src s; exact .rfl'
  | succ k ih =>
    intro src s
    simp only [parseTopBy]
    split
    · exact .rfl'
    · exact .bind (parseItemBy_under h n src s) fun a => ih _ _

theorem parseIn_under (d d' : Nat) (h : d ≤ d') (text : Str) : Res.Under (parseIn (F := F) d text) (parseIn d' text) := by
  unfold parseIn
  split
  · exact .rfl'
  · exact parseTopBy_under (parseExprIn_under _ d d' h) _ _ _ _

/-! ## Enough room -/

theorem parseItemBy_expr (n : Nat) (src : Source F) (s : PS) : parseItemBy (parseExpr n) n src s = parseItem n src s := rfl

theorem parseTopBy_expr (n k : Nat) : ∀ (src : Source F) (s : PS), parseTopBy (parseExpr n) n k src s = parseTop n k src s := by
  induction k with
  | zero => intro src s; rfl
  | succ k ih =>
    intro src s
    simp only [parseTopBy, parseTop, parseItemBy_expr]
    split
    · rfl
    · exact Res.bind_congr rfl fun a _ => ih _ _

theorem parseItemBy_agree {L n : Nat} {pe pe' : PE F} (hs : SoundPE pe) (ha : Agree L pe pe') {src : Source F} {s : PS} (hE : EndsEof (s.cur :: s.rest))
    (hk : s.cur.kind ≠ .Eof) (hL : s.rest.length < L) (hn : s.rest.length < n) : parseItemBy pe n src s = parseItemBy pe' n src s := by
  have hLive : EndsEof s.rest := endsEof_tail hE hk
  simp only [parseItemBy]
  split
  · refine Res.bind_congr ?_ (fun _ _ => rfl)
    simp only [parseRequestBy]
    refine Res.bind_congr rfl ?_
    intro s1 h1
    obtain ⟨hE1, hl1⟩ := expect_len (by decide) hLive h1
    refine Res.bind_congr rfl ?_
    intro s2 h2
    obtain ⟨hE2, hl2⟩ := expect_len (by decide) hE1 h2
    split
    · rename_i hp
      obtain ⟨lb, r4, hr4, hk4⟩ := peekIs_true hp
      rw [next_of hr4]
      rw [hr4] at hE2 hl2
      simp at hl2
      exact Res.bind_congr (parseList_fuel hs ha _ (s := ⟨lb, r4⟩) (endsEof_tail hE2 (by rw [hk4]; decide))
        (by dsimp only; omega) (by dsimp only; omega) (by dsimp only; omega)) (fun _ _ => rfl)
    · rfl
  · refine Res.bind_congr ?_ (fun _ _ => rfl)
    simp only [parseTestBy]
    refine Res.bind_congr rfl ?_
    intro s1 h1
    obtain ⟨hE1, hl1⟩ := expect_len (by decide) hLive h1
    exact Res.bind_congr (parseBlock_fuel hs ha hE1 (by omega) (by omega) (by omega)) (fun _ _ => rfl)
  · exact Res.bind_congr (ha 0 s hE (by omega)) (fun _ _ => rfl)

theorem parseTopBy_agree {L n : Nat} {pe : PE F} (hs : SoundPE pe) (ha : Agree L pe (parseExpr n)) (k : Nat) : ∀ (src : Source F) (s : PS),
    EndsEof (s.cur :: s.rest) → s.rest.length < L → s.rest.length < n → parseTopBy pe n k src s = parseTopBy (parseExpr n) n k src s := by
  induction k with
  | zero => intro src s _ _ _; rfl
  | succ k ih =>
    intro src s hE hL hn
    simp only [parseTopBy]
    split
    · rfl
    · rename_i hne
      refine Res.bind_congr (parseItemBy_agree hs ha hE hne hL hn) ?_
      intro a h1
      obtain ⟨src1, s1⟩ := a
      rw [parseItemBy_agree hs ha hE hne hL hn, parseItemBy_expr] at h1
      obtain ⟨hE1, hl1⟩ := parseItem_len hE hne h1
      obtain ⟨hE2, hl2⟩ := skipSemi_len hE1
      obtain ⟨hE3, hl3, _⟩ := next_len hE2
      dsimp only
      exact ih src1 _ hE3 (by omega) (by omega)

theorem parse_tokens {text : Str} {t : Token} {r : List Token} (h : segment text = t :: r) :
    parse (F := F) text = parseTopBy (parseExpr (r.length + 2)) (r.length + 2) (r.length + 2) ⟨[], [], []⟩ ⟨t, r⟩ := by
  rw [parse, parseFuel, h, List.length_cons, parseTopBy_expr]

theorem parseIn_enough (d : Nat) (text : Str) (h : (segment text).length ≤ d) : parseIn (F := F) d text = parse text := by
  obtain ⟨t, r, hs, hE, _⟩ := segment_endsEof text
  rw [parse_tokens hs]
  unfold parseIn
  rw [hs]
  rw [hs] at h
  simp only [List.length_cons] at h
  exact parseTopBy_agree (parseExprIn_sound _ d) (parseExprIn_enough (r.length + 1) _ _ _ (by omega) (by omega) (by omega)) _ _ ⟨t, r⟩ hE
    (by dsimp only; omega) (by dsimp only; omega)

theorem parseIn_same (d : Nat) (text : Str) : Res.Under (parseIn (F := F) d text) (parse text) := by
  rw [← parseIn_enough (F := F) (max d (segment text).length) text (by omega)]
  exact parseIn_under _ _ (by omega) text

end Am
