import Verif.Proofs.Accepts
/-!
# The parser follows the accepted language: from derivations to results

With enough fuel the parser returns what a derivation says, and runs out of any fuel where `Loops` holds.
-/
set_option linter.unusedSimpArgs false
set_option linter.unusedSectionVars false
namespace Am
open Spec
variable {F : Type} [Rt F]

/-- With enough fuel `parse_expr` returns this. -/
def DoneWhole (p : Nat) (ts : List Token) (e : Expr F) (rest : List Token) : Prop :=
  ∀ c0, ∃ c N, ∀ n, N ≤ n → parseExpr n p (PS.mk c0 ts).next = .ok (e, ⟨c, rest⟩)

/-- With enough fuel the first part of `parse_expr` returns this. -/
def DonePrimary (p : Nat) (ts : List Token) (e : Expr F) (q : Nat) (rest : List Token) : Prop :=
  ∀ c0, ∃ c N, ∀ n, N ≤ n → parsePrefix (parseExpr n) n p (PS.mk c0 ts).next = .ok (e, q, ⟨c, rest⟩)

/-- With enough fuel the loop of `parse_expr` comes to this point. -/
def DoneExtends (q : Nat) (l : Expr F) (ts : List Token) (e : Expr F) (rest : List Token) : Prop :=
  ∀ c, ∃ c' k N, ∀ n m, N ≤ n → N ≤ m → parseLoop (parseExpr n) q (m + k) l ⟨c, ts⟩ = parseLoop (parseExpr n) q m e ⟨c', rest⟩

/-- With enough fuel the loop of `parse_expr_list` returns this. -/
def DoneItems (k : Kind) (ts : List Token) (es : List (Expr F)) (rest : List Token) : Prop :=
  ∀ c, ∃ c' N, ∀ n m, N ≤ n → N ≤ m → parseListLoop (parseExpr n) k m ⟨c, ts⟩ = .ok (es, ⟨c', rest⟩)

/-- With enough fuel the loop of `parse_map_literal` returns this. -/
def DonePairs (ts : List Token) (ps : List (Expr F × Expr F)) (rest : List Token) : Prop :=
  ∀ c, ∃ c' N, ∀ n m, N ≤ n → N ≤ m → parsePairsLoop (parseExpr n) m ⟨c, ts⟩ = .ok (ps, ⟨c', rest⟩)

/-- With enough fuel the loop of `parse_block_expr` returns this. -/
def DoneStmts (ts : List Token) (es : List (Expr F)) (rest : List Token) : Prop :=
  ∀ c, ∃ c' N, ∀ n m, N ≤ n → N ≤ m → parseBlockLoop (parseExpr n) m ⟨c, ts⟩ = .ok (es, ⟨c', rest⟩)

theorem primary_starts {p q : Nat} {ts rest : List Token} {e : Expr F} (h : Primary p ts e q rest) :
    ∃ t r, ts = t :: r ∧ starts t.kind = true := by
  match h with
  | .ident _ t r hk => exact ⟨_, _, rfl, by rw [hk]; rfl⟩
  | .int _ t i r hk .. => exact ⟨_, _, rfl, by rw [hk]; rfl⟩
  | .float _ t i r hk .. => exact ⟨_, _, rfl, by rw [hk]; rfl⟩
  | .bool _ t b r hk .. => exact ⟨_, _, rfl, by rcases hk with hk | hk <;> (rw [hk]; rfl)⟩
  | .str _ t r hk => exact ⟨_, _, rfl, by rw [hk]; rfl⟩
  | .letE _ l n a e ts r hk .. => exact ⟨_, _, rfl, by rw [hk]; rfl⟩
  | .unary _ t e ts r hk .. => exact ⟨_, _, rfl, by rcases hk with hk | hk <;> (rw [hk]; rfl)⟩
  | .paren _ l c e ts r hk .. => exact ⟨_, _, rfl, by rw [hk]; rfl⟩
  | .ifThen _ i l c b d e es ts us r hk .. => exact ⟨_, _, rfl, by rw [hk]; rfl⟩
  | .ifElse _ i l c b d el b' d' e es es' ts us vs r hk .. => exact ⟨_, _, rfl, by rw [hk]; rfl⟩
  | .arr _ l c es ts r hk .. => exact ⟨_, _, rfl, by rw [hk]; rfl⟩
  | .map _ l c es ts r hk .. => exact ⟨_, _, rfl, by rw [hk]; rfl⟩

theorem whole_starts {p : Nat} {ts rest : List Token} {e : Expr F} (h : Whole p ts e rest) :
    ∃ t r, ts = t :: r ∧ starts t.kind = true := by
  match h with
  | .mk _ q l _ _ us _ ho _ _ => exact primary_starts ho

theorem whole_head {p : Nat} {ts rest : List Token} {e : Expr F} (h : Whole p ts e rest) {k : Kind} (hk : starts k = false) :
    headIs k ts = false := by
  have := head_starts (whole_starts h) [] k hk
  simpa using this

theorem notNext_head {k : Kind} {ts : List Token} (h : NotNext k ts) : headIs k ts = false := by
  obtain ⟨t, r, rfl, h⟩ := h
  simp [headIs, h]

theorem head_is {k : Kind} {t : Token} (h : t.kind = k) (r : List Token) : headIs k (t :: r) = true := by simp [headIs, h]

theorem head_not {k k' : Kind} {t : Token} (h : t.kind = k) (hk : k ≠ k') (r : List Token) : headIs k' (t :: r) = false := by
  simp [headIs, h, hk]

theorem skipSemi_rest (c : Token) (ts : List Token) : ∃ c', skipSemi ⟨c, ts⟩ = ⟨c', dropSemi ts⟩ := by
  cases ts with
  | nil => exact ⟨c, rfl⟩
  | cons t r =>
    by_cases h : t.kind = .Semi
    · exact ⟨t, by rw [skipSemi_yes h]; simp [dropSemi, h]⟩
    · exact ⟨c, by rw [skipSemi_no (by simp [headIs, h])]; simp [dropSemi, h]⟩

/-! ## One step of the loop of `parse_expr` -/

theorem loop_cond {q : Nat} {c t : Token} {r : List Token} (h : q < level t.kind) :
    (!(PS.mk c (t :: r)).peekIs .Semi && decide (q < (PS.mk c (t :: r)).peekPrec)) = true := by
  have hs : t.kind ≠ .Semi := by intro hs; rw [hs] at h; exact absurd h (Nat.not_lt_zero _)
  rw [peekIs_cons, show (PS.mk c (t :: r)).peekPrec = level t.kind from level_precedence t.kind]
  simp [hs, h]

theorem binary_of_table {k : Kind} {q : Nat} (h : q < tableLevel k) : k.isBinary = true ∧ level k = tableLevel k ∧ k.precedence = tableLevel k := by
  cases k <;> first | exact ⟨rfl, rfl, rfl⟩ | exact absurd h (Nat.not_lt_zero _)

theorem loop_binary {pe : PE F} {q n : Nat} {l : Expr F} {c op : Token} {ts : List Token} (h : q < tableLevel op.kind) :
    parseLoop pe q (n + 1) l ⟨c, op :: ts⟩ =
      (do let (e, s) ← (do let (right, s) ← pe (tableLevel op.kind) (PS.mk op ts).next; pure (.binary op l right, s))
          parseLoop pe q n e s) := by
  obtain ⟨h1, h2, h3⟩ := binary_of_table h
  rw [parseLoop, if_pos (loop_cond (by rw [h2]; exact h))]
  simp only [PS.peek, List.head?_cons, h1, if_true, next_cons, parseBinary, Token.precedence, h3]

theorem loop_call {pe : PE F} {q n : Nat} {l : Expr F} {c b : Token} {ts : List Token} (h : q < 12) (hb : b.kind = .Lp) :
    parseLoop pe q (n + 1) l ⟨c, b :: ts⟩ = (do let (e, s) ← parseCall pe n l ⟨b, ts⟩; parseLoop pe q n e s) := by
  rw [parseLoop, if_pos (loop_cond (by rw [hb]; exact h))]
  simp only [PS.peek, List.head?_cons, hb, Kind.isBinary, Bool.false_eq_true, if_false, if_true, next_cons]

theorem loop_index {pe : PE F} {q n : Nat} {l : Expr F} {c b : Token} {ts : List Token} (h : q < 13) (hb : b.kind = .Ls) :
    parseLoop pe q (n + 1) l ⟨c, b :: ts⟩ = (do let (e, s) ← parseIndex pe l ⟨b, ts⟩; parseLoop pe q n e s) := by
  rw [parseLoop, if_pos (loop_cond (by rw [hb]; exact h))]
  simp only [PS.peek, List.head?_cons, hb, Kind.isBinary, Bool.false_eq_true, if_false, if_true, next_cons, reduceCtorEq]

theorem loop_field {pe : PE F} {q n : Nat} {l : Expr F} {c b : Token} {ts : List Token} (h : q < 13) (hb : b.kind = .Dot) :
    parseLoop pe q (n + 1) l ⟨c, b :: ts⟩ = (do let (e, s) ← parseField l ⟨b, ts⟩; parseLoop pe q n e s) := by
  rw [parseLoop, if_pos (loop_cond (by rw [hb]; exact h))]
  simp only [PS.peek, List.head?_cons, hb, Kind.isBinary, Bool.false_eq_true, if_false, if_true, next_cons, reduceCtorEq]

theorem ends_stops {q : Nat} {ts : List Token} (h : Ends q ts) : StopsAt q ts := by
  obtain ⟨t, r, rfl, h⟩ := h
  right
  show t.kind.precedence ≤ q
  rw [level_precedence]; exact h

/-- The closing kinds of expression lists. -/
abbrev Closing (k : Kind) : Prop := k = .Rp ∨ k = .Rs

mutual
theorem primary_done {p q : Nat} {ts rest : List Token} {e : Expr F} (h : Primary p ts e q rest) : DonePrimary p ts e q rest := by
  match h with
  | .ident _ t r hk => exact fun c0 => ⟨t, 0, fun n _ => by simp [next_cons, parsePrefix, hk, Res.pure_eq]⟩
  | .int _ t i r hk hi =>
    rw [← parseI64_iff] at hi
    exact fun c0 => ⟨t, 0, fun n _ => by simp [next_cons, parsePrefix, hk, parseInteger, hi, Res.ok_bind, Res.pure_eq]⟩
  | .float _ t i r hk hi =>
    exact fun c0 => ⟨t, 0, fun n _ => by simp [next_cons, parsePrefix, hk, parseFloat, hi, Res.ok_bind, Res.pure_eq]⟩
  | .bool _ t b r hk hb =>
    have hb : parseBool t.literal = some b := by rw [hb]; cases b <;> rfl
    exact fun c0 => ⟨t, 0, fun n _ => by
      rcases hk with hk | hk <;> simp [next_cons, parsePrefix, hk, parseBoolean, hb, Res.ok_bind, Res.pure_eq]⟩
  | .str _ t r hk => exact fun c0 => ⟨t, 0, fun n _ => by simp [next_cons, parsePrefix, hk, Res.pure_eq]⟩
  | .letE _ l n a e ts r hl hn ha hw =>
    have ih := whole_done hw
    intro c0
    obtain ⟨c, N, hN⟩ := ih a
    obtain ⟨c', hc'⟩ := skipSemi_rest c r
    refine ⟨c', N, fun m hm => ?_⟩
    simp only [next_cons, parsePrefix, hl, parseLet, expect_cons hn, expect_cons ha, Res.ok_bind, hN m hm, hc', Res.pure_eq]
  | .unary _ t e ts r hk hw =>
    have ih := whole_done hw
    intro c0
    obtain ⟨c, N, hN⟩ := ih t
    refine ⟨c, N, fun m hm => ?_⟩
    have hu : parseUnary (parseExpr m) ⟨t, ts⟩ = .ok (.unary t e, ⟨c, r⟩) := by
      simp only [parseUnary]
      rw [unary_level hk, hN m hm]; rfl
    rcases hk with hk | hk <;> simp only [next_cons, parsePrefix, hk, hu, Res.ok_bind, Res.pure_eq]
  | .paren _ l d e ts r hl hd hw =>
    have ih := whole_done hw
    intro c0
    obtain ⟨c, N, hN⟩ := ih l
    refine ⟨d, N, fun m hm => ?_⟩
    simp only [next_cons, parsePrefix, hl, parseParen, hN m hm, Res.ok_bind, expect_cons hd, Res.pure_eq]
  | .ifThen _ i l c b d e es ts us r hi hl hc hb hd hw hs hnn =>
    have ih1 := whole_done hw
    have ih2 := stmts_done hs
    intro c0
    obtain ⟨c1, N1, hN1⟩ := ih1 l
    obtain ⟨c2, N2, hN2⟩ := ih2 b
    refine ⟨d, N1 + N2, fun m hm => ?_⟩
    have e1 := hN1 m (by omega)
    have e2 := hN2 m m (by omega) (by omega)
    simp only [next_cons, parsePrefix, hi, parseIf, expect_cons hl, e1, Res.ok_bind, expect_cons hc, parseBlock, expect_cons hb, e2,
      expect_cons hd, peekIs_head, notNext_head hnn, Res.pure_eq, Bool.false_eq_true, if_false]
  | .ifElse _ i l c b d el b' d' e es es' ts us vs r hi hl hc hb hd hel hb' hd' hw hs hs' =>
    have ih1 := whole_done hw
    have ih2 := stmts_done hs
    have ih3 := stmts_done hs'
    intro c0
    obtain ⟨c1, N1, hN1⟩ := ih1 l
    obtain ⟨c2, N2, hN2⟩ := ih2 b
    obtain ⟨c3, N3, hN3⟩ := ih3 b'
    refine ⟨d', N1 + N2 + N3, fun m hm => ?_⟩
    have e1 := hN1 m (by omega)
    have e2 := hN2 m m (by omega) (by omega)
    have e3 := hN3 m m (by omega) (by omega)
    simp only [next_cons, parsePrefix, hi, parseIf, expect_cons hl, e1, Res.ok_bind, expect_cons hc, parseBlock, expect_cons hb, e2,
      expect_cons hd, peekIs_head, head_is hel, if_true, expect_cons hb', e3, expect_cons hd', Res.pure_eq]
  | .arr _ l c es ts r hl hc hi =>
    have ih := items_done (Or.inr rfl) hi
    intro c0
    obtain ⟨c1, N, hN⟩ := ih l
    refine ⟨c, N, fun m hm => ?_⟩
    simp only [next_cons, parsePrefix, hl, parseArray, parseList, hN m m hm hm, Res.ok_bind, expect_cons hc, Res.pure_eq]
  | .map _ l c ps ts r hl hc hi =>
    have ih := pairs_done hi
    intro c0
    obtain ⟨c1, N, hN⟩ := ih l
    refine ⟨c, N, fun m hm => ?_⟩
    simp only [next_cons, parsePrefix, hl, parseMap, hN m m hm hm, Res.ok_bind, expect_cons hc, Res.pure_eq]
theorem extends_done {q : Nat} {l e : Expr F} {ts rest : List Token} (h : Extends q l ts e rest) : DoneExtends q l ts e rest := by
  match h with
  | .nil _ _ _ => exact fun c => ⟨c, 0, 0, fun n m _ _ => rfl⟩
  | .binary _ op l r e ts us rest hq hw hx =>
    have ih1 := whole_done hw
    have ih2 := extends_done hx
    intro c
    obtain ⟨c1, N1, hN1⟩ := ih1 op
    obtain ⟨c2, k, N2, hN2⟩ := ih2 c1
    refine ⟨c2, k + 1, N1 + N2, fun n m hn hm => ?_⟩
    have e1 := hN1 n (by omega)
    have e2 := hN2 n m (by omega) (by omega)
    rw [show m + (k + 1) = (m + k) + 1 by omega, loop_binary hq, e1]
    simp only [Res.ok_bind, Res.pure_eq, e2]
  | .call _ b d f es e ts us rest hq hb hd hi hx =>
    have ih1 := items_done (Or.inl rfl) hi
    have ih2 := extends_done hx
    intro c
    obtain ⟨c1, N1, hN1⟩ := ih1 b
    obtain ⟨c2, k, N2, hN2⟩ := ih2 d
    refine ⟨c2, k + 1, N1 + N2, fun n m hn hm => ?_⟩
    have e1 := hN1 n (m + k) (by omega) (by omega)
    have e2 := hN2 n m (by omega) (by omega)
    rw [show m + (k + 1) = (m + k) + 1 by omega, loop_call hq hb]
    simp only [parseCall, parseList, e1, Res.ok_bind, expect_cons hd, Res.pure_eq, e2]
  | .index _ b d l i e ts us rest hq hb hd hw hx =>
    have ih1 := whole_done hw
    have ih2 := extends_done hx
    intro c
    obtain ⟨c1, N1, hN1⟩ := ih1 b
    obtain ⟨c2, k, N2, hN2⟩ := ih2 d
    refine ⟨c2, k + 1, N1 + N2, fun n m hn hm => ?_⟩
    have e1 := hN1 n (by omega)
    have e2 := hN2 n m (by omega) (by omega)
    rw [show m + (k + 1) = (m + k) + 1 by omega, loop_index hq hb]
    simp only [parseIndex, e1, Res.ok_bind, expect_cons hd, Res.pure_eq, e2]
  | .field _ d nm l e ts rest hq hd hn hx =>
    have ih2 := extends_done hx
    intro c
    obtain ⟨c2, k, N2, hN2⟩ := ih2 nm
    refine ⟨c2, k + 1, N2, fun n m hn' hm => ?_⟩
    have e2 := hN2 n m (by omega) (by omega)
    rw [show m + (k + 1) = (m + k) + 1 by omega, loop_field hq hd]
    simp only [parseField, Res.ok_bind, expect_cons hn, Res.pure_eq, e2]
theorem whole_done {p : Nat} {ts rest : List Token} {e : Expr F} (h : Whole p ts e rest) : DoneWhole p ts e rest := by
  match h with
  | .mk _ q l _ _ us _ ho hx hend =>
    have ih1 := primary_done ho
    have ih2 := extends_done hx
    intro c0
    obtain ⟨c1, N1, hN1⟩ := ih1 c0
    obtain ⟨c2, k, N2, hN2⟩ := ih2 c1
    refine ⟨c2, N1 + N2 + k + 2, fun n hn => ?_⟩
    obtain ⟨m, rfl⟩ : ∃ m, n = (m + k) + 1 := ⟨n - k - 1, by omega⟩
    have e1 := hN1 (m + k) (by omega)
    have e2 := hN2 (m + k) m (by omega) (by omega)
    simp only [parseExpr, e1, Res.ok_bind]
    rw [e2]
    exact parseLoop_halts (ends_stops hend) (by omega)
theorem items_done {k : Kind} (hk : Closing k) {ts rest : List Token} {es : List (Expr F)} (h : Items k ts es rest) :
    DoneItems k ts es rest := by
  match h with
  | .nil _ c r hc =>
    intro c0
    refine ⟨c0, 1, fun n m _ hm => ?_⟩
    obtain ⟨m, rfl⟩ : ∃ j, m = j + 1 := ⟨m - 1, by omega⟩
    simp only [parseListLoop, peekIs_head, head_is hc, if_true, Res.pure_eq]
  | .last _ c e _ r hc hw =>
    have ih := whole_done hw
    intro c0
    obtain ⟨c1, N, hN⟩ := ih c0
    refine ⟨c1, N + 2, fun n m hn hm => ?_⟩
    obtain ⟨m, rfl⟩ : ∃ j, m = j + 2 := ⟨m - 2, by omega⟩
    have e1 := hN n (by omega)
    have hs := whole_head hw (endK_zero hk).1
    simp only [parseListLoop, peekIs_head, hs, Bool.false_eq_true, if_false, e1, Res.ok_bind, head_is hc, if_true, Res.pure_eq]
  | .cons _ c e es _ us _ hc hw hi =>
    have ih := whole_done hw
    have ih2 := items_done hk hi
    intro c0
    obtain ⟨c1, N, hN⟩ := ih c0
    obtain ⟨c2, N2, hN2⟩ := ih2 c
    refine ⟨c2, N + N2 + 1, fun n m hn hm => ?_⟩
    obtain ⟨m, rfl⟩ : ∃ j, m = j + 1 := ⟨m - 1, by omega⟩
    have e1 := hN n (by omega)
    have e2 := hN2 n m (by omega) (by omega)
    have hs := whole_head hw (endK_zero hk).1
    have hck : headIs k (c :: us) = false := head_not hc (by rcases hk with rfl | rfl <;> decide) us
    simp only [parseListLoop, peekIs_head, hs, Bool.false_eq_true, if_false, e1, Res.ok_bind, hck, expect_cons hc, e2, Res.pure_eq]
theorem pairs_done {ts rest : List Token} {ps : List (Expr F × Expr F)} (h : Pairs ts ps rest) : DonePairs ts ps rest := by
  match h with
  | .nil c r hc =>
    intro c0
    refine ⟨c0, 1, fun n m _ hm => ?_⟩
    obtain ⟨m, rfl⟩ : ∃ j, m = j + 1 := ⟨m - 1, by omega⟩
    simp only [parsePairsLoop, peekIs_head, head_is hc, if_true, Res.pure_eq]
  | .last d c k v _ us r hd hc hwk hwv =>
    have ih1 := whole_done hwk
    have ih2 := whole_done hwv
    intro c0
    obtain ⟨c1, N1, hN1⟩ := ih1 c0
    obtain ⟨c2, N2, hN2⟩ := ih2 d
    refine ⟨c2, N1 + N2 + 2, fun n m hn hm => ?_⟩
    obtain ⟨m, rfl⟩ : ∃ j, m = j + 2 := ⟨m - 2, by omega⟩
    have e1 := hN1 n (by omega)
    have e2 := hN2 n (by omega)
    have hs := whole_head hwk (k := .Rb) rfl
    simp only [parsePairsLoop, peekIs_head, hs, Bool.false_eq_true, if_false, e1, Res.ok_bind, expect_cons hd, e2, head_is hc, if_true,
      Res.pure_eq]
  | .cons d c k v ps _ us vs _ hd hc hwk hwv hp =>
    have ih1 := whole_done hwk
    have ih2 := whole_done hwv
    have ih3 := pairs_done hp
    intro c0
    obtain ⟨c1, N1, hN1⟩ := ih1 c0
    obtain ⟨c2, N2, hN2⟩ := ih2 d
    obtain ⟨c3, N3, hN3⟩ := ih3 c
    refine ⟨c3, N1 + N2 + N3 + 1, fun n m hn hm => ?_⟩
    obtain ⟨m, rfl⟩ : ∃ j, m = j + 1 := ⟨m - 1, by omega⟩
    have e1 := hN1 n (by omega)
    have e2 := hN2 n (by omega)
    have e3 := hN3 n m (by omega) (by omega)
    have hs := whole_head hwk (k := .Rb) rfl
    have hck : headIs .Rb (c :: vs) = false := head_not hc (by decide) vs
    simp only [parsePairsLoop, peekIs_head, hs, Bool.false_eq_true, if_false, e1, Res.ok_bind, expect_cons hd, e2, hck, expect_cons hc,
      e3, Res.pure_eq]
theorem stmts_done {ts rest : List Token} {es : List (Expr F)} (h : Stmts ts es rest) : DoneStmts ts es rest := by
  match h with
  | .nil c r hc =>
    intro c0
    refine ⟨c0, 1, fun n m _ hm => ?_⟩
    obtain ⟨m, rfl⟩ : ∃ j, m = j + 1 := ⟨m - 1, by omega⟩
    simp only [parseBlockLoop, peekIs_head, head_is hc, if_true, Res.pure_eq]
  | .cons e es _ us _ hw hs =>
    have ih1 := whole_done hw
    have ih2 := stmts_done hs
    intro c0
    obtain ⟨c1, N1, hN1⟩ := ih1 c0
    obtain ⟨c', hc'⟩ := skipSemi_rest c1 us
    obtain ⟨c2, N2, hN2⟩ := ih2 c'
    refine ⟨c2, N1 + N2 + 1, fun n m hn hm => ?_⟩
    obtain ⟨m, rfl⟩ : ∃ j, m = j + 1 := ⟨m - 1, by omega⟩
    have e1 := hN1 n (by omega)
    have e2 := hN2 n m (by omega) (by omega)
    have hs := whole_head hw (k := .Rb) rfl
    simp only [parseBlockLoop, peekIs_head, hs, Bool.false_eq_true, if_false, e1, Res.ok_bind, hc', e2, Res.pure_eq]
end

/-! ## Programs -/

theorem item_done {ts rest : List Token} {i : Item F} (h : OneItem ts i rest) :
    ∀ c0, ∃ c N, ∀ n src, N ≤ n → parseItem n src (PS.mk c0 ts).next = .ok (addItem src i, ⟨c, rest⟩) := by
  intro c0
  match h with
  | .expr e _ _ hw =>
    obtain ⟨c, N, hN⟩ := whole_done hw c0
    refine ⟨c, N, fun n src hn => ?_⟩
    have := parseItem_expr (n := n) (src := src) (rest := []) c0 (whole_starts hw)
    simp only [List.append_nil] at this
    rw [this, hN n hn]; rfl
  | .request q nm m _ hq hn hm hnn =>
    refine ⟨m, 0, fun n src _ => ?_⟩
    simp only [next_cons, parseItem, hq, parseRequest, expect_cons hn, expect_cons hm, Res.ok_bind, peekIs_head, notNext_head hnn,
      Bool.false_eq_true, if_false, Res.pure_eq, addItem]
  | .asserts q nm m b c es ts _ hq hn hm hb hc hi =>
    obtain ⟨c1, N, hN⟩ := items_done (Or.inr rfl) hi b
    refine ⟨c, N, fun n src hn' => ?_⟩
    simp only [next_cons, parseItem, hq, parseRequest, expect_cons hn, expect_cons hm, Res.ok_bind, peekIs_head, head_is hb,
      if_true, parseList, hN n n hn' hn', expect_cons hc, Res.pure_eq, addItem]
  | .test q nm b c es ts _ hq hn hb hc hs =>
    obtain ⟨c1, N, hN⟩ := stmts_done hs b
    refine ⟨c, N, fun n src hn' => ?_⟩
    simp only [next_cons, parseItem, hq, parseTest, expect_cons hn, parseBlock, expect_cons hb, hN n n hn' hn', Res.ok_bind,
      expect_cons hc, Res.pure_eq, addItem]

theorem oneItem_start {ts rest : List Token} {i : Item F} (h : OneItem ts i rest) : ∃ t r, ts = t :: r ∧ t.kind ≠ .Eof := by
  match h with
  | .expr e _ _ hw =>
    obtain ⟨t, r, h1, h2⟩ := whole_starts hw
    exact ⟨t, r, h1, by intro h; rw [h] at h2; cases h2⟩
  | .request q nm m _ hq .. => exact ⟨_, _, rfl, by rw [hq]; decide⟩
  | .asserts q nm m b c es ts _ hq .. => exact ⟨_, _, rfl, by rw [hq]; decide⟩
  | .test q nm b c es ts _ hq .. => exact ⟨_, _, rfl, by rw [hq]; decide⟩

theorem program_done {ts : List Token} {is : List (Item F)} (h : Program ts is) : ∀ (src : Source F) (c0 : Token),
    ∃ N, ∀ n k, N ≤ n → N ≤ k → parseTop n k src (PS.mk c0 ts).next = .ok (is.foldl addItem src) := by
  induction h with
  | nil t ht =>
    intro src c0
    refine ⟨1, fun n k _ hk => ?_⟩
    obtain ⟨k, rfl⟩ : ∃ j, k = j + 1 := ⟨k - 1, by omega⟩
    rw [next_cons, parseTop, if_pos ht]; rfl
  | cons i is ts us hi _ ih =>
    intro src c0
    obtain ⟨c1, N1, hN1⟩ := item_done hi c0
    obtain ⟨c', hc'⟩ := skipSemi_rest c1 us
    obtain ⟨N2, hN2⟩ := ih (addItem src i) c'
    refine ⟨N1 + N2 + 1, fun n k hn hk => ?_⟩
    obtain ⟨k, rfl⟩ : ∃ j, k = j + 1 := ⟨k - 1, by omega⟩
    have e1 := hN1 n src (by omega)
    have e2 := hN2 n k (by omega) (by omega)
    have hne : ¬ (PS.mk c0 ts).next.cur.kind = .Eof := by
      obtain ⟨t, r, rfl, h⟩ := oneItem_start hi
      exact h
    rw [parseTop, if_neg hne, e1]
    simp only [Res.ok_bind, hc', e2, List.foldl_cons]

/-! ## Where reading fails -/

/-- The ways not to return a value. -/
inductive Fail where
  | hang
  | panic
  | err (m : Str)

def Fail.res {α : Type} : Fail → Res α
  | .hang => .hang
  | .panic => .panic
  | .err m => .err m

@[simp] theorem Fail.bind {α β : Type} (f : Fail) (g : α → Res β) : ((f.res : Res α) >>= g) = f.res := by cases f <;> rfl

/-- Not a value, but a failure of which `K` holds. -/
def FailsIn {α : Type} (K : Fail → Prop) (x : Res α) : Prop := ∃ f, K f ∧ x = f.res

variable (F) in
/-- From some amount of fuel on `parse_expr` fails like this. -/
def Fails (K : Fail → Prop) (p : Nat) (ts : List Token) : Prop :=
  ∀ c0, ∃ N, ∀ n, N ≤ n → FailsIn K (parseExpr (F := F) n p (PS.mk c0 ts).next)

variable {K : Fail → Prop}

theorem inItems_fails {k : Kind} (hk : Closing k) {ts us : List Token} (h : InItems F k ts us) (hh : Fails F K 0 us) :
    ∀ c, ∃ N, ∀ n m, N ≤ n → N ≤ m → FailsIn K (parseListLoop (parseExpr (F := F) n) k m ⟨c, ts⟩) := by
  induction h with
  | here ts hnn =>
    intro c
    obtain ⟨N, hN⟩ := hh c
    refine ⟨N + 1, fun n m hn hm => ?_⟩
    obtain ⟨m, rfl⟩ : ∃ j, m = j + 1 := ⟨m - 1, by omega⟩
    obtain ⟨f, hf, ef⟩ := hN n (by omega)
    refine ⟨f, hf, ?_⟩
    simp only [parseListLoop, peekIs_head, notNext_head hnn, Bool.false_eq_true, if_false, ef, Fail.bind]
  | next d e ts us vs hd hw _ ih =>
    intro c0
    obtain ⟨c1, N, hN⟩ := whole_done hw c0
    obtain ⟨N2, hN2⟩ := ih hh d
    refine ⟨N + N2 + 1, fun n m hn hm => ?_⟩
    obtain ⟨m, rfl⟩ : ∃ j, m = j + 1 := ⟨m - 1, by omega⟩
    have e1 := hN n (by omega)
    obtain ⟨f, hf, e2⟩ := hN2 n m (by omega) (by omega)
    have hs := whole_head hw (endK_zero hk).1
    have hck : headIs k (d :: us) = false := head_not hd (by rcases hk with rfl | rfl <;> decide) us
    refine ⟨f, hf, ?_⟩
    simp only [parseListLoop, peekIs_head, hs, Bool.false_eq_true, if_false, e1, Res.ok_bind, hck, expect_cons hd, e2, Fail.bind]

theorem inPairs_fails {ts us : List Token} (h : InPairs F ts us) (hh : Fails F K 0 us) :
    ∀ c, ∃ N, ∀ n m, N ≤ n → N ≤ m → FailsIn K (parsePairsLoop (parseExpr (F := F) n) m ⟨c, ts⟩) := by
  induction h with
  | key ts hnn =>
    intro c
    obtain ⟨N, hN⟩ := hh c
    refine ⟨N + 1, fun n m hn hm => ?_⟩
    obtain ⟨m, rfl⟩ : ∃ j, m = j + 1 := ⟨m - 1, by omega⟩
    obtain ⟨f, hf, ef⟩ := hN n (by omega)
    refine ⟨f, hf, ?_⟩
    simp only [parsePairsLoop, peekIs_head, notNext_head hnn, Bool.false_eq_true, if_false, ef, Fail.bind]
  | value d k ts us hd hw =>
    intro c0
    obtain ⟨c1, N1, hN1⟩ := whole_done hw c0
    obtain ⟨N2, hN2⟩ := hh d
    refine ⟨N1 + N2 + 1, fun n m hn hm => ?_⟩
    obtain ⟨m, rfl⟩ : ∃ j, m = j + 1 := ⟨m - 1, by omega⟩
    have e1 := hN1 n (by omega)
    obtain ⟨f, hf, e2⟩ := hN2 n (by omega)
    have hs := whole_head hw (k := .Rb) rfl
    refine ⟨f, hf, ?_⟩
    simp only [parsePairsLoop, peekIs_head, hs, Bool.false_eq_true, if_false, e1, Res.ok_bind, expect_cons hd, e2, Fail.bind]
  | next d c k v ts us vs ws hd hc hwk hwv _ ih =>
    intro c0
    obtain ⟨c1, N1, hN1⟩ := whole_done hwk c0
    obtain ⟨c2, N2, hN2⟩ := whole_done hwv d
    obtain ⟨N3, hN3⟩ := ih hh c
    refine ⟨N1 + N2 + N3 + 1, fun n m hn hm => ?_⟩
    obtain ⟨m, rfl⟩ : ∃ j, m = j + 1 := ⟨m - 1, by omega⟩
    have e1 := hN1 n (by omega)
    have e2 := hN2 n (by omega)
    obtain ⟨f, hf, e3⟩ := hN3 n m (by omega) (by omega)
    have hs := whole_head hwk (k := .Rb) rfl
    have hck : headIs .Rb (c :: vs) = false := head_not hc (by decide) vs
    refine ⟨f, hf, ?_⟩
    simp only [parsePairsLoop, peekIs_head, hs, Bool.false_eq_true, if_false, e1, Res.ok_bind, expect_cons hd, e2, hck, expect_cons hc,
      e3, Fail.bind]

theorem inStmts_fails {ts us : List Token} (h : InStmts F ts us) (hh : Fails F K 0 us) :
    ∀ c, ∃ N, ∀ n m, N ≤ n → N ≤ m → FailsIn K (parseBlockLoop (parseExpr (F := F) n) m ⟨c, ts⟩) := by
  induction h with
  | here ts hnn =>
    intro c
    obtain ⟨N, hN⟩ := hh c
    refine ⟨N + 1, fun n m hn hm => ?_⟩
    obtain ⟨m, rfl⟩ : ∃ j, m = j + 1 := ⟨m - 1, by omega⟩
    obtain ⟨f, hf, ef⟩ := hN n (by omega)
    refine ⟨f, hf, ?_⟩
    simp only [parseBlockLoop, peekIs_head, notNext_head hnn, Bool.false_eq_true, if_false, ef, Fail.bind]
  | next e ts us vs hw _ ih =>
    intro c0
    obtain ⟨c1, N, hN⟩ := whole_done hw c0
    obtain ⟨c', hc'⟩ := skipSemi_rest c1 us
    obtain ⟨N2, hN2⟩ := ih hh c'
    refine ⟨N + N2 + 1, fun n m hn hm => ?_⟩
    obtain ⟨m, rfl⟩ : ∃ j, m = j + 1 := ⟨m - 1, by omega⟩
    have e1 := hN n (by omega)
    obtain ⟨f, hf, e2⟩ := hN2 n m (by omega) (by omega)
    have hs := whole_head hw (k := .Rb) rfl
    refine ⟨f, hf, ?_⟩
    simp only [parseBlockLoop, peekIs_head, hs, Bool.false_eq_true, if_false, e1, Res.ok_bind, hc', e2, Fail.bind]

/-- If the first part fails so does everything. -/
theorem fails_prefix {p : Nat} {ts : List Token}
    (h : ∀ c0, ∃ N, ∀ n, N ≤ n → FailsIn K (parsePrefix (parseExpr (F := F) n) n p (PS.mk c0 ts).next)) : Fails F K p ts := by
  intro c0
  obtain ⟨N, hN⟩ := h c0
  refine ⟨N + 1, fun n hn => ?_⟩
  obtain ⟨n, rfl⟩ : ∃ j, n = j + 1 := ⟨n - 1, by omega⟩
  obtain ⟨f, hf, ef⟩ := hN n (by omega)
  refine ⟨f, hf, ?_⟩
  simp only [parseExpr, ef, Fail.bind]

/-- If the loop fails at a point it comes to, so does everything. -/
theorem fails_extends {p q : Nat} {l e : Expr F} {ts us vs : List Token} (ho : Primary p ts l q us) (hx : Extends q l us e vs)
    (h : ∀ c, ∃ N, ∀ n m, N ≤ n → N ≤ m → FailsIn K (parseLoop (parseExpr (F := F) n) q m e ⟨c, vs⟩)) : Fails F K p ts := by
  intro c0
  obtain ⟨c1, N1, hN1⟩ := primary_done ho c0
  obtain ⟨c2, k, N2, hN2⟩ := extends_done hx c1
  obtain ⟨N3, hN3⟩ := h c2
  refine ⟨N1 + N2 + N3 + k + 1, fun n hn => ?_⟩
  obtain ⟨m, rfl⟩ : ∃ m, n = (m + k) + 1 := ⟨n - k - 1, by omega⟩
  have e1 := hN1 (m + k) (by omega)
  have e2 := hN2 (m + k) m (by omega) (by omega)
  obtain ⟨f, hf, e3⟩ := hN3 (m + k) m (by omega) (by omega)
  refine ⟨f, hf, ?_⟩
  simp only [parseExpr, e1, Res.ok_bind]
  rw [e2, e3]

theorem inside_fails {p q : Nat} {ts us : List Token} (h : Inside F p ts q us) (hh : Fails F K q us) : Fails F K p ts := by
  match h with
  | .letE _ l nm a _ hl hn ha =>
    refine fails_prefix fun c0 => ?_
    obtain ⟨N, hN⟩ := hh a
    refine ⟨N, fun n hn' => ?_⟩
    obtain ⟨f, hf, ef⟩ := hN n hn'
    refine ⟨f, hf, ?_⟩
    simp only [next_cons, parsePrefix, hl, parseLet, expect_cons hn, expect_cons ha, Res.ok_bind, ef, Fail.bind]
  | .unary _ t _ hk =>
    refine fails_prefix fun c0 => ?_
    obtain ⟨N, hN⟩ := hh t
    refine ⟨N, fun n hn => ?_⟩
    obtain ⟨f, hf, ef⟩ := hN n hn
    have hu : parseUnary (parseExpr (F := F) n) ⟨t, us⟩ = f.res := by
      simp only [parseUnary]
      rw [unary_level hk, ef, Fail.bind]
    refine ⟨f, hf, ?_⟩
    rcases hk with hk | hk <;> simp only [next_cons, parsePrefix, hk, hu, Fail.bind]
  | .paren _ t _ hk =>
    refine fails_prefix fun c0 => ?_
    obtain ⟨N, hN⟩ := hh t
    refine ⟨N, fun n hn => ?_⟩
    obtain ⟨f, hf, ef⟩ := hN n hn
    refine ⟨f, hf, ?_⟩
    simp only [next_cons, parsePrefix, hk, parseParen, ef, Fail.bind]
  | .cond _ i l _ hi hl =>
    refine fails_prefix fun c0 => ?_
    obtain ⟨N, hN⟩ := hh l
    refine ⟨N, fun n hn => ?_⟩
    obtain ⟨f, hf, ef⟩ := hN n hn
    refine ⟨f, hf, ?_⟩
    simp only [next_cons, parsePrefix, hi, parseIf, expect_cons hl, Res.ok_bind, ef, Fail.bind]
  | .thenE _ i l c b e ts us' _ hi hl hc hb hw hin =>
    refine fails_prefix fun c0 => ?_
    obtain ⟨c1, N1, hN1⟩ := whole_done hw l
    obtain ⟨N2, hN2⟩ := inStmts_fails hin hh b
    refine ⟨N1 + N2, fun n hn => ?_⟩
    have e1 := hN1 n (by omega)
    obtain ⟨f, hf, e2⟩ := hN2 n n (by omega) (by omega)
    refine ⟨f, hf, ?_⟩
    simp only [next_cons, parsePrefix, hi, parseIf, expect_cons hl, Res.ok_bind, e1, expect_cons hc, parseBlock, expect_cons hb, e2,
      Fail.bind]
  | .elseE _ i l c b d el b' e es ts us' vs _ hi hl hc hb hd hel hb' hw hs hin =>
    refine fails_prefix fun c0 => ?_
    obtain ⟨c1, N1, hN1⟩ := whole_done hw l
    obtain ⟨c2, N2, hN2⟩ := stmts_done hs b
    obtain ⟨N3, hN3⟩ := inStmts_fails hin hh b'
    refine ⟨N1 + N2 + N3, fun n hn => ?_⟩
    have e1 := hN1 n (by omega)
    have e2 := hN2 n n (by omega) (by omega)
    obtain ⟨f, hf, e3⟩ := hN3 n n (by omega) (by omega)
    refine ⟨f, hf, ?_⟩
    simp only [next_cons, parsePrefix, hi, parseIf, expect_cons hl, Res.ok_bind, e1, expect_cons hc, parseBlock, expect_cons hb, e2,
      expect_cons hd, peekIs_head, head_is hel, if_true, expect_cons hb', e3, Fail.bind, Res.pure_eq]
  | .arr _ l ts _ hl hin =>
    refine fails_prefix fun c0 => ?_
    obtain ⟨N, hN⟩ := inItems_fails (Or.inr rfl) hin hh l
    refine ⟨N, fun n hn => ?_⟩
    obtain ⟨f, hf, ef⟩ := hN n n hn hn
    refine ⟨f, hf, ?_⟩
    simp only [next_cons, parsePrefix, hl, parseArray, parseList, ef, Fail.bind]
  | .map _ l ts _ hl hin =>
    refine fails_prefix fun c0 => ?_
    obtain ⟨N, hN⟩ := inPairs_fails hin hh l
    refine ⟨N, fun n hn => ?_⟩
    obtain ⟨f, hf, ef⟩ := hN n n hn hn
    refine ⟨f, hf, ?_⟩
    simp only [next_cons, parsePrefix, hl, parseMap, ef, Fail.bind]
  | .right _ q op l e _ us' _ ho hx hq =>
    refine fails_extends ho hx fun c => ?_
    obtain ⟨N, hN⟩ := hh op
    refine ⟨N + 1, fun n m hn hm => ?_⟩
    obtain ⟨m, rfl⟩ : ∃ j, m = j + 1 := ⟨m - 1, by omega⟩
    obtain ⟨f, hf, ef⟩ := hN n (by omega)
    exact ⟨f, hf, by rw [loop_binary hq, ef, Fail.bind, Fail.bind]⟩
  | .arg _ q b l e _ us' vs _ ho hx hq hb hin =>
    refine fails_extends ho hx fun c => ?_
    obtain ⟨N, hN⟩ := inItems_fails (Or.inl rfl) hin hh b
    refine ⟨N + 1, fun n m hn hm => ?_⟩
    obtain ⟨m, rfl⟩ : ∃ j, m = j + 1 := ⟨m - 1, by omega⟩
    rw [loop_call hq hb]
    obtain ⟨f, hf, ef⟩ := hN n m (by omega) (by omega)
    refine ⟨f, hf, ?_⟩
    simp only [parseCall, parseList, ef, Fail.bind]
  | .index _ q b l e _ us' _ ho hx hq hb =>
    refine fails_extends ho hx fun c => ?_
    obtain ⟨N, hN⟩ := hh b
    refine ⟨N + 1, fun n m hn hm => ?_⟩
    obtain ⟨m, rfl⟩ : ∃ j, m = j + 1 := ⟨m - 1, by omega⟩
    rw [loop_index hq hb]
    obtain ⟨f, hf, ef⟩ := hN n (by omega)
    refine ⟨f, hf, ?_⟩
    simp only [parseIndex, ef, Fail.bind]

theorem inside_starts {p q : Nat} {ts us : List Token} (h : Inside F p ts q us) : ∃ t r, ts = t :: r ∧ starts t.kind = true := by
  match h with
  | .letE _ l nm a _ hk .. => exact ⟨_, _, rfl, by rw [hk]; rfl⟩
  | .unary _ t _ hk .. => exact ⟨_, _, rfl, by rcases hk with hk | hk <;> (rw [hk]; rfl)⟩
  | .paren _ t _ hk .. => exact ⟨_, _, rfl, by rw [hk]; rfl⟩
  | .cond _ i l _ hk .. => exact ⟨_, _, rfl, by rw [hk]; rfl⟩
  | .thenE _ i l c b e ts us' _ hk .. => exact ⟨_, _, rfl, by rw [hk]; rfl⟩
  | .elseE _ i l c b d el b' e es ts us' vs _ hk .. => exact ⟨_, _, rfl, by rw [hk]; rfl⟩
  | .arr _ l ts _ hk .. => exact ⟨_, _, rfl, by rw [hk]; rfl⟩
  | .map _ l ts _ hk .. => exact ⟨_, _, rfl, by rw [hk]; rfl⟩
  | .right _ q op l e _ us' _ ho .. => exact primary_starts ho
  | .arg _ q b l e _ us' vs _ ho .. => exact primary_starts ho
  | .index _ q b l e _ us' _ ho .. => exact primary_starts ho

variable (F) in
/-- From some amount of fuel on reading an item fails like this. -/
def FailsItem (K : Fail → Prop) (ts : List Token) : Prop :=
  ∀ (src : Source F) (c0 : Token), ∃ N, ∀ n, N ≤ n → FailsIn K (parseItem n src (PS.mk c0 ts).next)

variable (F) in
/-- From some amount of fuel on reading a program fails like this. -/
def FailsTop (K : Fail → Prop) (ts : List Token) : Prop :=
  ∀ (src : Source F) (c0 : Token), ∃ N, ∀ n k, N ≤ n → N ≤ k → FailsIn K (parseTop n k src (PS.mk c0 ts).next)

theorem fails_expr {ts : List Token} (hr : NotNext .Request ts) (ht : NotNext .Test ts) (h : Fails F K 0 ts) : FailsItem F K ts := by
  intro src c0
  obtain ⟨N, hN⟩ := h c0
  refine ⟨N, fun n hn => ?_⟩
  obtain ⟨f, hf, ef⟩ := hN n hn
  refine ⟨f, hf, ?_⟩
  obtain ⟨t, r, rfl, h1⟩ := hr
  obtain ⟨t', r', h2, h3⟩ := ht
  cases h2
  have h4 : (PS.mk c0 (t :: r)).next.cur.kind = t.kind := rfl
  rw [parseItem]
  split
  · rename_i h5; exact (h1 (h4.symm.trans h5)).elim
  · rename_i h5; exact (h3 (h4.symm.trans h5)).elim
  · rw [ef, Fail.bind]

theorem fails_asserts {q nm m b : Token} {ts : List Token} (hq : q.kind = .Request) (hn : nm.kind = .Ident) (hm : m.kind = .Template)
    (hb : b.kind = .Ls)
    (h : ∀ c, ∃ N, ∀ n m, N ≤ n → N ≤ m → FailsIn K (parseListLoop (parseExpr (F := F) n) .Rs m ⟨c, ts⟩)) :
    FailsItem F K (q :: nm :: m :: b :: ts) := by
  intro src c0
  obtain ⟨N, hN⟩ := h b
  refine ⟨N, fun n hn' => ?_⟩
  obtain ⟨f, hf, ef⟩ := hN n n hn' hn'
  refine ⟨f, hf, ?_⟩
  simp only [next_cons, parseItem, hq, parseRequest, expect_cons hn, expect_cons hm, Res.ok_bind, peekIs_head, head_is hb,
    if_true, parseList, ef, Fail.bind]

theorem fails_test {q nm b : Token} {ts us : List Token} (hq : q.kind = .Test) (hn : nm.kind = .Ident) (hb : b.kind = .Lb)
    (hin : InStmts F ts us) (h : Fails F K 0 us) : FailsItem F K (q :: nm :: b :: ts) := by
  intro src c0
  obtain ⟨N, hN⟩ := inStmts_fails hin h b
  refine ⟨N, fun n hn' => ?_⟩
  obtain ⟨f, hf, ef⟩ := hN n n hn' hn'
  refine ⟨f, hf, ?_⟩
  simp only [next_cons, parseItem, hq, parseTest, expect_cons hn, parseBlock, expect_cons hb, ef, Res.ok_bind, Fail.bind]

theorem fails_first {ts : List Token} (hne : NotNext .Eof ts) (h : FailsItem F K ts) : FailsTop F K ts := by
  intro src c0
  obtain ⟨t, r, rfl, hne⟩ := hne
  obtain ⟨N, hN⟩ := h src c0
  refine ⟨N + 1, fun n k hn hk => ?_⟩
  obtain ⟨k, rfl⟩ : ∃ j, k = j + 1 := ⟨k - 1, by omega⟩
  obtain ⟨f, hf, ef⟩ := hN n (by omega)
  refine ⟨f, hf, ?_⟩
  rw [parseTop, if_neg (show ¬ (PS.mk c0 (t :: r)).next.cur.kind = .Eof from hne), ef, Fail.bind]

theorem fails_next {i : Item F} {ts us : List Token} (hi : OneItem ts i us) (h : FailsTop F K (dropSemi us)) : FailsTop F K ts := by
  intro src c0
  obtain ⟨c1, N1, hN1⟩ := item_done hi c0
  obtain ⟨c', hc'⟩ := skipSemi_rest c1 us
  obtain ⟨N2, hN2⟩ := h (addItem src i) c'
  refine ⟨N1 + N2 + 1, fun n k hn hk => ?_⟩
  obtain ⟨k, rfl⟩ : ∃ j, k = j + 1 := ⟨k - 1, by omega⟩
  have e1 := hN1 n src (by omega)
  obtain ⟨f, hf, e2⟩ := hN2 n k (by omega) (by omega)
  have hne : ¬ (PS.mk c0 ts).next.cur.kind = .Eof := by
    obtain ⟨t, r, rfl, h⟩ := oneItem_start hi
    exact h
  refine ⟨f, hf, ?_⟩
  rw [parseTop, if_neg hne, e1]
  simp only [Res.ok_bind, hc', e2]

theorem starts_notNext {ts : List Token} (h : ∃ t r, ts = t :: r ∧ starts t.kind = true) {k : Kind} (hk : starts k = false) :
    NotNext k ts := by
  obtain ⟨t, r, rfl, h⟩ := h
  exact ⟨t, r, rfl, by rintro rfl; rw [h] at hk; cases hk⟩

/-! ## Where reading never ends -/

theorem loops_hangs {p : Nat} {ts : List Token} (h : Loops F p ts) : Fails F (· = .hang) p ts := by
  induction h with
  | stuck p q b l e ts us vs ho hx hq hb =>
    refine fails_extends ho hx fun c => ⟨0, fun n m _ _ => ⟨.hang, rfl, ?_⟩⟩
    exact parseLoop_stuck m (by rw [hb]; decide) (by rw [hb]; exact hq) (by rw [hb]; rfl) (by rw [hb]; decide) (by rw [hb]; decide)
      (by rw [hb]; decide)
  | inside p q ts us hi _ ih => exact inside_fails hi ih

theorem loops_starts {p : Nat} {ts : List Token} (h : Loops F p ts) : ∃ t r, ts = t :: r ∧ starts t.kind = true := by
  match h with
  | .stuck _ q b l e _ us vs ho .. => exact primary_starts ho
  | .inside _ q _ us hi .. => exact inside_starts hi

theorem endless_fails {ts : List Token} (h : Endless F ts) : FailsTop F (· = .hang) ts := by
  induction h with
  | expr ts hl =>
    have hs := loops_starts hl
    exact fails_first (starts_notNext hs rfl) (fails_expr (starts_notNext hs rfl) (starts_notNext hs rfl) (loops_hangs hl))
  | asserts q nm m b ts us hq hn hm hb hin hl =>
    exact fails_first ⟨_, _, rfl, by rw [hq]; decide⟩ (fails_asserts hq hn hm hb (inItems_fails (Or.inr rfl) hin (loops_hangs hl)))
  | test q nm b ts us hq hn hb hin hl =>
    exact fails_first ⟨_, _, rfl, by rw [hq]; decide⟩ (fails_test hq hn hb hin (loops_hangs hl))
  | next i ts us hi _ ih => exact fails_next hi ih

theorem endless_hangs {ts : List Token} (h : Endless F ts) (src : Source F) (c0 : Token) :
    ∃ N, ∀ n k, N ≤ n → N ≤ k → parseTop n k src (PS.mk c0 ts).next = .hang := by
  obtain ⟨N, hN⟩ := endless_fails h src c0
  refine ⟨N, fun n k hn hk => ?_⟩
  obtain ⟨f, rfl, h⟩ := hN n k hn hk
  exact h

end Am
