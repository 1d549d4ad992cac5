import Verif.Spec.Grammar
import Verif.Proofs.ParserTop
/-!
# Parser completeness

Every text of the published grammar (`Writes`) is accepted and gives the tree it was written from. The parser's loop extends its
left operand; so the induction says that after reading the tokens of `e` the parser is in its loop with `e` as the left operand.
-/
set_option linter.unusedSimpArgs false
set_option linter.unusedSectionVars false
namespace Am
open Spec
variable {F : Type} [Rt F]

/-- The kind of the first token. -/
def headIs (k : Kind) : List Token → Bool
  | [] => false
  | t :: _ => decide (t.kind = k)

/-- The precedence of the first token. -/
def headPrec : List Token → Nat
  | [] => 0
  | t :: _ => t.precedence

theorem peekIs_head (c : Token) (r : List Token) (k : Kind) : (PS.mk c r).peekIs k = headIs k r := by
  cases r with
  | nil => rfl
  | cons t r => exact peekIs_cons c t r k

theorem peekPrec_head (c : Token) (r : List Token) : (PS.mk c r).peekPrec = headPrec r := by
  cases r <;> rfl

theorem expect_cons {c t : Token} {r : List Token} {k : Kind} (h : t.kind = k) : (PS.mk c (t :: r)).expect k = .ok ⟨t, r⟩ := by
  simp [PS.expect, PS.peek, PS.next, h]

/-- Tokens that may follow the complete expression `e`. -/
def FollowOk (e : Expr F) (rest : List Token) : Prop :=
  (headIs .Semi rest = true ∨ headPrec rest ≤ strength e) ∧
  (isLet e = true → headIs .Semi rest = false ∧ headPrec rest = 0) ∧ headIs .Else rest = false

/-- The parser's loop stops before `rest`. -/
def StopsAt (p : Nat) (rest : List Token) : Prop := headIs .Semi rest = true ∨ headPrec rest ≤ p

theorem parseLoop_halts {pe : PE F} {p m : Nat} {e : Expr F} {c : Token} {rest : List Token} (h : StopsAt p rest) (hm : 0 < m) :
    parseLoop pe p m e ⟨c, rest⟩ = .ok (e, ⟨c, rest⟩) := by
  obtain ⟨m, rfl⟩ : ∃ k, m = k + 1 := ⟨m - 1, by omega⟩
  rw [parseLoop, peekIs_head, peekPrec_head]
  rcases h with h | h
  · simp [h, Res.pure_eq]
  · have : ¬ p < headPrec rest := by omega
    simp [this, Res.pure_eq]

/-- After the tokens of `e` the parser is in its loop with left operand `e`; a `let` also takes a semicolon after it. -/
def Complete (e : Expr F) (ts : List Token) : Prop :=
  (∀ (p : Nat) (rest : List Token) (c0 : Token), (p < strength e ∨ 11 ≤ strength e) → p ≤ 11 → FollowOk e rest →
    ∃ c k N, ∀ n, N ≤ n →
      parseExpr (n + 1) p (PS.mk c0 (ts ++ rest)).next = parseLoop (parseExpr n) p (n - k) e ⟨c, rest⟩) ∧
  (isLet e = true → ∀ (p : Nat) (s : Token) (rest : List Token) (c0 : Token), s.kind = .Semi → headIs .Semi rest = false →
    ∃ c N, ∀ n, N ≤ n → parseExpr n p (PS.mk c0 (ts ++ s :: rest)).next = .ok (e, ⟨c, rest⟩))

theorem Complete.done {e : Expr F} {ts : List Token} (h : Complete e ts) {p : Nat} {rest : List Token} (c0 : Token)
    (h1 : p < strength e ∨ 11 ≤ strength e) (h2 : p ≤ 11) (h3 : FollowOk e rest) (h4 : StopsAt p rest) :
    ∃ c N, ∀ n, N ≤ n → parseExpr n p (PS.mk c0 (ts ++ rest)).next = .ok (e, ⟨c, rest⟩) := by
  obtain ⟨c, k, N, hN⟩ := h.1 p rest c0 h1 h2 h3
  refine ⟨c, N + k + 2, fun n hn => ?_⟩
  obtain ⟨n, rfl⟩ : ∃ j, n = j + 1 := ⟨n - 1, by omega⟩
  rw [hN n (by omega), parseLoop_halts h4 (by omega)]

/-- The list loop reads the elements and stops before the closing bracket. -/
def CompleteList (es : List (Expr F)) (ts : List Token) : Prop :=
  ∀ (endK : Kind) (r : Token) (rest : List Token) (c0 : Token), endK = .Rp ∨ endK = .Rs → r.kind = endK →
    ∃ c N, ∀ n m, N ≤ n → N ≤ m →
      parseListLoop (parseExpr n) endK m ⟨c0, ts ++ r :: rest⟩ = .ok (es, ⟨c, r :: rest⟩)

/-- The same for the pairs of a map. -/
def CompletePairs (ps : List (Expr F × Expr F)) (ts : List Token) : Prop :=
  ∀ (r : Token) (rest : List Token) (c0 : Token), r.kind = .Rb →
    ∃ c N, ∀ n m, N ≤ n → N ≤ m →
      parsePairsLoop (parseExpr n) m ⟨c0, ts ++ r :: rest⟩ = .ok (ps, ⟨c, r :: rest⟩)

/-- The same for the statements of a block. -/
def CompleteSeq (es : List (Expr F)) (ts : List Token) : Prop :=
  ∀ (r : Token) (rest : List Token) (c0 : Token), r.kind = .Rb →
    ∃ c N, ∀ n m, N ≤ n → N ≤ m →
      parseBlockLoop (parseExpr n) m ⟨c0, ts ++ r :: rest⟩ = .ok (es, ⟨c, r :: rest⟩)

/-- A whole block. -/
def CompleteBlock (es : List (Expr F)) (ts : List Token) : Prop :=
  ∀ (rest : List Token) (c0 : Token),
    ∃ c N, ∀ n m, N ≤ n → N ≤ m → parseBlock (parseExpr n) m ⟨c0, ts ++ rest⟩ = .ok (es, ⟨c, rest⟩)

/-- Kinds of tokens an expression can start with. -/
def starts (k : Kind) : Bool :=
  match k with
  | .Ident | .Integer | .Float | .True | .False | .String | .Let | .Not | .Sub | .Lp | .If | .Ls | .Lb => true
  | _ => false

theorem writes_starts : ∀ {e : Expr F} {ts : List Token}, Writes e ts → ∃ t r, ts = t :: r ∧ starts t.kind = true := by
  intro e
  induction e using Expr.rec (motive_2 := fun _ => True) (motive_3 := fun _ => True) (motive_4 := fun _ => True) with
  | int i => intro ts h; cases h with | int t _ hk => exact ⟨t, [], rfl, by rw [hk]; rfl⟩
  | float i => intro ts h; cases h with | float t _ hk => exact ⟨t, [], rfl, by rw [hk]; rfl⟩
  | bool i => intro ts h; cases h with | bool t _ hk => exact ⟨t, [], rfl, by rcases hk with hk | hk <;> (rw [hk]; rfl)⟩
  | str i => intro ts h; cases h with | str t hk => exact ⟨t, [], rfl, by rw [hk]; rfl⟩
  | ident i => intro ts h; cases h with | ident t hk => exact ⟨t, [], rfl, by rw [hk]; rfl⟩
  | arr es => intro ts h; cases h with | arr t _ _ _ hk => exact ⟨t, _, rfl, by rw [hk]; rfl⟩
  | map es => intro ts h; cases h with | map t _ _ _ hk => exact ⟨t, _, rfl, by rw [hk]; rfl⟩
  | index l i ih =>
    intro ts h
    cases h with
    | index _ _ _ _ te ti _ _ h1 =>
      obtain ⟨t, r, rfl, hs⟩ := ih h1
      exact ⟨t, _, rfl, hs⟩
  | field l i ih =>
    intro ts h
    cases h with
    | field _ _ _ te _ _ h1 =>
      obtain ⟨t, r, rfl, hs⟩ := ih h1
      exact ⟨t, _, rfl, hs⟩
  | letE n v => intro ts h; cases h with | letE t _ _ _ _ hk => exact ⟨t, _, rfl, by rw [hk]; rfl⟩
  | unary op r => intro ts h; cases h with | unary _ _ _ hk => exact ⟨op, _, rfl, by rcases hk with hk | hk <;> (rw [hk]; rfl)⟩
  | binary op l r ih =>
    intro ts h
    cases h with
    | binary _ _ _ tl tr _ h1 =>
      obtain ⟨t, r, rfl, hs⟩ := ih h1
      exact ⟨t, _, rfl, hs⟩
  | paren e => intro ts h; cases h with | paren t _ _ _ hk => exact ⟨t, _, rfl, by rw [hk]; rfl⟩
  | ifE c t e =>
    intro ts h
    cases h with
    | ifThen t _ _ _ _ _ _ hk => exact ⟨t, _, rfl, by rw [hk]; rfl⟩
    | ifElse t _ _ _ _ _ _ _ _ _ hk => exact ⟨t, _, rfl, by rw [hk]; rfl⟩
  | call f es => intro ts h; cases h with | call t _ _ _ _ hk => exact ⟨t, _, rfl, by rw [hk]; rfl⟩
  | _ => trivial

/-- A closing token, comma, colon or fresh token ends any expression. -/
theorem fits_zero {e : Expr F} {t : Token} {r : List Token} (h1 : t.kind.precedence = 0) (h2 : t.kind ≠ .Semi) (h3 : t.kind ≠ .Else) :
    FollowOk e (t :: r) ∧ StopsAt 0 (t :: r) := by
  simp [FollowOk, StopsAt, headIs, headPrec, Token.precedence, h1, h2, h3]

theorem fits_semi {e : Expr F} {t : Token} {r : List Token} (h : t.kind = .Semi) (hl : isLet e = false) :
    FollowOk e (t :: r) ∧ StopsAt 0 (t :: r) := by
  simp [FollowOk, StopsAt, headIs, headPrec, Token.precedence, h, hl]

theorem freshKind_zero {k : Kind} (h : freshKind k = true) : k.precedence = 0 ∧ k ≠ .Semi ∧ k ≠ .Else := by
  cases k <;> revert h <;> decide

theorem strength_pos : ∀ {e : Expr F} {ts : List Token}, Writes e ts → 0 < strength e ∨ 11 ≤ strength e := by
  intro e ts h
  cases h <;> first | (left; simp [strength]; done) | skip
  rename_i op l r tl tr hop _ _ _ _ _ _
  left
  simp only [strength]
  revert hop
  cases op.kind <;> decide

/-- Reading at precedence 0 up to a token that ends the expression. -/
theorem Complete.zero {e : Expr F} {ts : List Token} (hw : Writes e ts) (h : Complete e ts) {rest : List Token} (c0 : Token)
    (h3 : FollowOk e rest ∧ StopsAt 0 rest) :
    ∃ c N, ∀ n, N ≤ n → parseExpr n 0 (PS.mk c0 (ts ++ rest)).next = .ok (e, ⟨c, rest⟩) :=
  h.done c0 (strength_pos hw) (by decide) h3.1 h3.2

theorem head_starts {ts : List Token} (h : ∃ t r, ts = t :: r ∧ starts t.kind = true) (rest : List Token) (k : Kind)
    (hk : starts k = false) : headIs k (ts ++ rest) = false := by
  obtain ⟨t, r, rfl, hs⟩ := h
  simp only [List.cons_append, headIs, decide_eq_false_iff_not]
  rintro rfl
  simp [hs] at hk

/-! ## Single tokens -/

theorem complete_atom {e : Expr F} {t : Token} (hl : isLet e = false)
    (h : ∀ (n p : Nat) (rest : List Token), parsePrefix (parseExpr n) n p ⟨t, rest⟩ = .ok (e, p, ⟨t, rest⟩)) : Complete e [t] := by
  refine ⟨fun p rest c0 _ _ _ => ⟨t, 0, 0, fun n _ => ?_⟩, fun h => by simp [hl] at h⟩
  rw [List.singleton_append, next_cons]
  simp only [parseExpr, h n p rest, Res.ok_bind]
  rfl

/-! ## Prefix forms: the result of `parsePrefix` gives the whole statement -/

theorem complete_prefix {e : Expr F} {t : Token} {ts : List Token} (hl : isLet e = false)
    (h : ∀ (rest : List Token), FollowOk e rest → ∃ c N, ∀ n p, N ≤ n → parsePrefix (parseExpr n) n p ⟨t, ts ++ rest⟩ = .ok (e, p, ⟨c, rest⟩)) :
    Complete e (t :: ts) := by
  refine ⟨fun p rest c0 _ _ hf => ?_, fun h => by simp [hl] at h⟩
  obtain ⟨c, N, hN⟩ := h rest hf
  refine ⟨c, 0, N, fun n hn => ?_⟩
  rw [List.cons_append, next_cons]
  simp only [parseExpr, hN n p hn, Res.ok_bind]
  rfl

theorem complete_arr {l r : Token} {es : List (Expr F)} {ts : List Token} (hl : l.kind = .Ls) (hr : r.kind = .Rs)
    (h : CompleteList es ts) : Complete (.arr es) (l :: (ts ++ [r])) := by
  refine complete_prefix rfl fun rest _ => ?_
  obtain ⟨c, N, hN⟩ := h .Rs r rest l (Or.inr rfl) hr
  refine ⟨r, N, fun n p hn => ?_⟩
  have := hN n n hn hn
  simp only [List.append_assoc, List.singleton_append] at this ⊢
  simp only [parsePrefix, hl, parseArray, parseList, this, Res.ok_bind, expect_cons hr, Res.pure_eq]

theorem complete_map {l r : Token} {ps : List (Expr F × Expr F)} {ts : List Token} (hl : l.kind = .Lb) (hr : r.kind = .Rb)
    (h : CompletePairs ps ts) : Complete (.map ps) (l :: (ts ++ [r])) := by
  refine complete_prefix rfl fun rest _ => ?_
  obtain ⟨c, N, hN⟩ := h r rest l hr
  refine ⟨r, N, fun n p hn => ?_⟩
  have := hN n n hn hn
  simp only [List.append_assoc, List.singleton_append] at this ⊢
  simp only [parsePrefix, hl, parseMap, this, Res.ok_bind, expect_cons hr, Res.pure_eq]

theorem complete_paren {l r : Token} {e : Expr F} {ts : List Token} (hl : l.kind = .Lp) (hr : r.kind = .Rp) (hw : Writes e ts)
    (h : Complete e ts) : Complete (.paren e) (l :: (ts ++ [r])) := by
  refine complete_prefix rfl fun rest _ => ?_
  obtain ⟨c, N, hN⟩ := h.zero hw l (fits_zero (t := r) (r := rest) (by rw [hr]; rfl) (by rw [hr]; decide) (by rw [hr]; decide))
  refine ⟨r, N, fun n p hn => ?_⟩
  have := hN n hn
  simp only [List.append_assoc, List.singleton_append] at this ⊢
  simp only [parsePrefix, hl, parseParen, this, Res.ok_bind, expect_cons hr, Res.pure_eq]

theorem complete_unary {op : Token} {e : Expr F} {ts : List Token} (hop : op.kind = .Not ∨ op.kind = .Sub)
    (h : Complete e ts) (h1 : 11 ≤ strength e) (h2 : isLet e = false) : Complete (.unary op e) (op :: ts) := by
  refine complete_prefix rfl fun rest hf => ?_
  obtain ⟨f1, f2, f3⟩ := hf
  have hh : StopsAt 11 rest := f1
  obtain ⟨c, N, hN⟩ := h.done (p := 11) op (Or.inr h1) (by omega)
    ⟨f1.imp id (fun f => Nat.le_trans f h1), fun h => by simp [h2] at h, f3⟩ hh
  refine ⟨c, N, fun n p hn => ?_⟩
  have := hN n hn
  have hp : (if op.kind = .Sub then op.precedence + 2 else op.precedence) = 11 := by
    rcases hop with h | h <;> simp [h, Token.precedence, Kind.precedence]
  have hu : parseUnary (parseExpr n) ⟨op, ts ++ rest⟩ = .ok (.unary op e, ⟨c, rest⟩) := by
    simp only [parseUnary]
    rw [hp, this]; rfl
  rcases hop with hk | hk <;> simp only [parsePrefix, hk, hu, Res.ok_bind, Res.pure_eq]

theorem complete_if {i l r : Token} {c : Expr F} {t : List (Expr F)} {tc tt : List Token} (hi : i.kind = .If) (hl : l.kind = .Lp)
    (hr : r.kind = .Rp) (hw : Writes c tc) (hc : Complete c tc) (ht : CompleteBlock t tt) :
    Complete (.ifE c t []) (i :: l :: (tc ++ r :: tt)) := by
  refine complete_prefix rfl fun rest hf => ?_
  obtain ⟨c1, N1, hN1⟩ := hc.zero hw l (fits_zero (t := r) (r := tt ++ rest) (by rw [hr]; rfl) (by rw [hr]; decide) (by rw [hr]; decide))
  obtain ⟨c2, N2, hN2⟩ := ht rest r
  refine ⟨c2, N1 + N2, fun n p hn => ?_⟩
  have h1 := hN1 n (by omega)
  have h2 := hN2 n n (by omega) (by omega)
  simp only [List.append_assoc, List.cons_append] at h1 h2 ⊢
  simp only [parsePrefix, hi, parseIf, expect_cons hl, h1, Res.ok_bind, expect_cons hr, h2, peekIs_head, hf.2.2, Res.pure_eq,
    Bool.false_eq_true, if_false]

theorem complete_ifElse {i l r el : Token} {c : Expr F} {t e : List (Expr F)} {tc tt te : List Token} (hi : i.kind = .If)
    (hl : l.kind = .Lp) (hr : r.kind = .Rp) (hel : el.kind = .Else) (hw : Writes c tc) (hc : Complete c tc) (ht : CompleteBlock t tt)
    (he : CompleteBlock e te) : Complete (.ifE c t e) (i :: l :: (tc ++ r :: (tt ++ el :: te))) := by
  refine complete_prefix rfl fun rest hf => ?_
  obtain ⟨c1, N1, hN1⟩ := hc.zero hw l (fits_zero (t := r) (r := tt ++ el :: te ++ rest) (by rw [hr]; rfl) (by rw [hr]; decide) (by rw [hr]; decide))
  obtain ⟨c2, N2, hN2⟩ := ht (el :: te ++ rest) r
  obtain ⟨c3, N3, hN3⟩ := he rest el
  refine ⟨c3, N1 + N2 + N3, fun n p hn => ?_⟩
  have h1 := hN1 n (by omega)
  have h2 := hN2 n n (by omega) (by omega)
  have h3 := hN3 n n (by omega) (by omega)
  simp only [List.append_assoc, List.cons_append] at h1 h2 h3 ⊢
  simp only [parsePrefix, hi, parseIf, expect_cons hl, h1, Res.ok_bind, expect_cons hr, h2, peekIs_head, headIs, hel, decide_true,
    if_true, next_cons, h3, Res.pure_eq]

/-! ## `let` -/

theorem parseLoop_let {pe : PE F} {m : Nat} {e : Expr F} {c : Token} {rest : List Token} (hm : 0 < m) :
    parseLoop pe 255 m e ⟨c, rest⟩ = .ok (e, ⟨c, rest⟩) := by
  apply parseLoop_halts _ hm
  right
  cases rest with
  | nil => simp [headPrec]
  | cons t r =>
    simp only [headPrec, Token.precedence]
    cases t.kind <;> decide

theorem skipSemi_no {c : Token} {rest : List Token} (h : headIs .Semi rest = false) : skipSemi ⟨c, rest⟩ = ⟨c, rest⟩ := by
  simp [skipSemi, peekIs_head, h]

theorem skipSemi_yes {c s : Token} {rest : List Token} (h : s.kind = .Semi) : skipSemi ⟨c, s :: rest⟩ = ⟨s, rest⟩ := by
  simp [skipSemi, peekIs_head, headIs, h, PS.next]

theorem complete_let {l n a : Token} {v : Expr F} {tv : List Token} (hl : l.kind = .Let) (hn : n.kind = .Ident)
    (ha : a.kind = .Assign) (hw : Writes v tv) (hv : Complete v tv) : Complete (.letE n.literal v) (l :: n :: a :: tv) := by
  constructor
  · intro p rest c0 _ _ hf
    obtain ⟨_, f2, f3⟩ := hf
    obtain ⟨g1, g2⟩ := f2 rfl
    obtain ⟨c, N, hN⟩ := hv.zero hw (rest := rest) a ⟨⟨Or.inr (by omega), fun _ => ⟨g1, g2⟩, f3⟩, Or.inr (by omega)⟩
    refine ⟨c, 0, N + 1, fun m hm => ?_⟩
    rw [parseLoop_halts (Or.inr (by omega)) (by omega)]
    have h1 := hN m (by omega)
    simp only [List.cons_append, next_cons, parseExpr, parsePrefix, hl, parseLet, expect_cons hn, expect_cons ha, Res.ok_bind, h1,
      skipSemi_no g1, Res.pure_eq, parseLoop_let (pe := parseExpr m) (m := m) (e := .letE n.literal v) (c := c) (rest := rest) (by omega)]
  · intro _ p s rest c0 hs hr
    have key : ∃ c N, ∀ m, N ≤ m → ∃ c' r', parseExpr m 0 (PS.mk a (tv ++ s :: rest)).next = .ok (v, ⟨c', r'⟩) ∧
        skipSemi ⟨c', r'⟩ = ⟨c, rest⟩ := by
      by_cases hlv : isLet v = true
      · obtain ⟨c, N, hN⟩ := hv.2 hlv 0 s rest a hs hr
        exact ⟨c, N, fun m hm => ⟨c, rest, hN m hm, skipSemi_no hr⟩⟩
      · obtain ⟨c, N, hN⟩ := hv.zero hw a (fits_semi (t := s) (r := rest) hs (by simpa using hlv))
        exact ⟨s, N, fun m hm => ⟨c, _, hN m hm, skipSemi_yes hs⟩⟩
    obtain ⟨c, N, hN⟩ := key
    refine ⟨c, N + 2, fun m hm => ?_⟩
    obtain ⟨m, rfl⟩ : ∃ j, m = j + 1 := ⟨m - 1, by omega⟩
    obtain ⟨c', r', h1, h2⟩ := hN m (by omega)
    simp only [List.cons_append, next_cons, parseExpr, parsePrefix, hl, parseLet, expect_cons hn, expect_cons ha, Res.ok_bind, h1,
      h2, Res.pure_eq, parseLoop_let (pe := parseExpr m) (m := m) (e := .letE n.literal v) (c := c) (rest := rest) (by omega)]

/-! ## Forms that extend a left operand -/

theorem complete_binary {op : Token} {l r : Expr F} {tl tr : List Token} (hop : op.kind.isBinary = true) (hl : Complete l tl)
    (hr : Complete r tr) (h1 : tableLevel op.kind < strength r) (h2 : tableLevel op.kind ≤ strength l) (h3 : isLet l = false)
    (h4 : isLet r = false) : Complete (.binary op l r) (tl ++ op :: tr) := by
  obtain ⟨t1, t2, _⟩ := tableLevel_binary hop
  refine ⟨fun p rest c0 hp hp2 hf => ?_, fun h => by simp [isLet] at h⟩
  obtain ⟨f1, f2, f3⟩ := hf
  simp only [strength] at hp f1
  have hp' : p < tableLevel op.kind := by omega
  have hsemi : op.kind ≠ .Semi := by intro h; rw [h] at hop; cases hop
  have helse : op.kind ≠ .Else := by intro h; rw [h] at hop; cases hop
  obtain ⟨c1, k1, N1, hN1⟩ := hl.1 p (op :: (tr ++ rest)) c0 (Or.inl (by omega)) hp2
    ⟨Or.inr (by simp only [headPrec, Token.precedence]; omega), fun h => by simp [h3] at h, by simp [headIs, helse]⟩
  obtain ⟨c2, N2, hN2⟩ := hr.done (p := tableLevel op.kind) (rest := rest) op (Or.inl h1) (by omega)
    ⟨f1.imp id (fun f => by omega), fun h => by simp [h4] at h, f3⟩ f1
  refine ⟨c2, k1 + 1, N1 + N2 + k1 + 1, fun n hn => ?_⟩
  have e1 := hN1 n (by omega)
  have e2 := hN2 n (by omega)
  rw [List.append_assoc, List.cons_append, e1]
  obtain ⟨m, hm⟩ : ∃ m, n - k1 = m + 1 := ⟨n - k1 - 1, by omega⟩
  rw [hm, show n - (k1 + 1) = m by omega]
  conv => lhs; rw [parseLoop]
  have hcond : (!(PS.mk c1 (op :: (tr ++ rest))).peekIs .Semi && decide (p < (PS.mk c1 (op :: (tr ++ rest))).peekPrec)) = true := by
    rw [peekIs_head, peekPrec_head]
    simp only [headIs, headPrec, Token.precedence, hsemi, t1, decide_false, Bool.not_false, Bool.true_and, decide_eq_true_eq]
    exact hp'
  rw [if_pos hcond]
  simp only [PS.peek, List.head?_cons, hop, if_true, next_cons, parseBinary]
  rw [show op.precedence = tableLevel op.kind from t1, e2]
  rfl

theorem complete_index {l r : Token} {e i : Expr F} {te ti : List Token} (hl : l.kind = .Ls) (hr : r.kind = .Rs) (hw : Writes i ti)
    (he : Complete e te) (hi : Complete i ti) (h1 : 14 ≤ strength e) (h2 : isLet e = false) :
    Complete (.index e i) (te ++ l :: (ti ++ [r])) := by
  refine ⟨fun p rest c0 hp hp2 hf => ?_, fun h => by simp [isLet] at h⟩
  obtain ⟨c1, k1, N1, hN1⟩ := he.1 p (l :: (ti ++ r :: rest)) c0 (Or.inr (by omega)) hp2
    ⟨Or.inr (by simp only [headPrec, Token.precedence, hl, Kind.precedence]; omega), fun h => by simp [h2] at h, by simp [headIs, hl]⟩
  obtain ⟨c2, N2, hN2⟩ := hi.zero hw l (fits_zero (t := r) (r := rest) (by rw [hr]; rfl) (by rw [hr]; decide) (by rw [hr]; decide))
  refine ⟨r, k1 + 1, N1 + N2 + k1 + 1, fun n hn => ?_⟩
  have e1 := hN1 n (by omega)
  have e2 := hN2 n (by omega)
  simp only [List.append_assoc, List.cons_append, List.nil_append] at e1 e2 ⊢
  rw [e1]
  obtain ⟨m, hm⟩ : ∃ m, n - k1 = m + 1 := ⟨n - k1 - 1, by omega⟩
  rw [hm, show n - (k1 + 1) = m by omega]
  conv => lhs; rw [parseLoop]
  have hcond : (!(PS.mk c1 (l :: (ti ++ r :: rest))).peekIs .Semi && decide (p < (PS.mk c1 (l :: (ti ++ r :: rest))).peekPrec)) = true := by
    rw [peekIs_head, peekPrec_head]
    simp [headIs, headPrec, Token.precedence, hl, Kind.precedence]
    omega
  rw [if_pos hcond]
  simp only [PS.peek, List.head?_cons, hl, Kind.isBinary, Bool.false_eq_true, if_false, if_true, next_cons, parseIndex, reduceCtorEq]
  rw [e2]
  simp only [Res.ok_bind, expect_cons hr, Res.pure_eq]

theorem complete_field {d i : Token} {e : Expr F} {te : List Token} (hd : d.kind = .Dot) (hi : i.kind = .Ident)
    (he : Complete e te) (h1 : 14 ≤ strength e) (h2 : isLet e = false) :
    Complete (.field e i.literal) (te ++ [d, i]) := by
  refine ⟨fun p rest c0 hp hp2 hf => ?_, fun h => by simp [isLet] at h⟩
  obtain ⟨c1, k1, N1, hN1⟩ := he.1 p (d :: i :: rest) c0 (Or.inr (by omega)) hp2
    ⟨Or.inr (by simp only [headPrec, Token.precedence, hd, Kind.precedence]; omega), fun h => by simp [h2] at h, by simp [headIs, hd]⟩
  refine ⟨i, k1 + 1, N1 + k1 + 1, fun n hn => ?_⟩
  have e1 := hN1 n (by omega)
  simp only [List.append_assoc, List.cons_append, List.nil_append] at e1 ⊢
  rw [e1]
  obtain ⟨m, hm⟩ : ∃ m, n - k1 = m + 1 := ⟨n - k1 - 1, by omega⟩
  rw [hm, show n - (k1 + 1) = m by omega]
  conv => lhs; rw [parseLoop]
  have hcond : (!(PS.mk c1 (d :: i :: rest)).peekIs .Semi && decide (p < (PS.mk c1 (d :: i :: rest)).peekPrec)) = true := by
    rw [peekIs_head, peekPrec_head]
    simp [headIs, headPrec, Token.precedence, hd, Kind.precedence]
    omega
  rw [if_pos hcond]
  simp only [PS.peek, List.head?_cons, hd, Kind.isBinary, Bool.false_eq_true, if_false, if_true, next_cons, parseField, reduceCtorEq,
    expect_cons hi, Res.ok_bind, Res.pure_eq]

theorem complete_call {f l r : Token} {es : List (Expr F)} {ts : List Token} (hf : f.kind = .Ident) (hl : l.kind = .Lp)
    (hr : r.kind = .Rp) (h : CompleteList es ts) : Complete (.call f.literal es) (f :: l :: (ts ++ [r])) := by
  refine ⟨fun p rest c0 hp hp2 hfit => ?_, fun h => by simp [isLet] at h⟩
  obtain ⟨c2, N2, hN2⟩ := h .Rp r rest l (Or.inl rfl) hr
  refine ⟨r, 1, N2 + 1, fun n hn => ?_⟩
  obtain ⟨m, rfl⟩ : ∃ m, n = m + 1 := ⟨n - 1, by omega⟩
  have e2 := hN2 (m + 1) m (by omega) (by omega)
  simp only [List.append_assoc, List.cons_append, List.nil_append] at e2 ⊢
  rw [next_cons, parseExpr]
  simp only [parsePrefix, hf, Res.pure_eq, Res.ok_bind]
  conv => lhs; rw [parseLoop]
  have hcond : (!(PS.mk f (l :: (ts ++ r :: rest))).peekIs .Semi && decide (p < (PS.mk f (l :: (ts ++ r :: rest))).peekPrec)) = true := by
    rw [peekIs_head, peekPrec_head]
    simp [headIs, headPrec, Token.precedence, hl, Kind.precedence]
    omega
  rw [if_pos hcond]
  simp only [PS.peek, List.head?_cons, hl, Kind.isBinary, Bool.false_eq_true, if_false, if_true, next_cons, parseCall, parseList,
    reduceCtorEq]
  rw [e2]
  simp only [Res.ok_bind, expect_cons hr, Res.pure_eq, Nat.add_sub_cancel]

/-! ## Lists, pairs and blocks -/

theorem completeList_nil : CompleteList ([] : List (Expr F)) [] := by
  intro endK r rest c0 _ hr
  refine ⟨c0, 1, fun n m _ hm => ?_⟩
  obtain ⟨m, rfl⟩ : ∃ j, m = j + 1 := ⟨m - 1, by omega⟩
  simp [parseListLoop, peekIs_head, headIs, hr, Res.pure_eq]

theorem endK_zero {endK : Kind} (h : endK = .Rp ∨ endK = .Rs) : starts endK = false ∧ endK.precedence = 0 ∧ endK ≠ .Semi ∧ endK ≠ .Else := by
  rcases h with rfl | rfl <;> decide

theorem completeList_last {e : Expr F} {te : List Token} (hw : Writes e te) (h : Complete e te) : CompleteList [e] te := by
  intro endK r rest c0 hK hr
  obtain ⟨k1, k2, k3, k4⟩ := endK_zero hK
  obtain ⟨c, N, hN⟩ := h.zero hw c0 (fits_zero (t := r) (r := rest) (by rw [hr, k2]) (by rw [hr]; exact k3) (by rw [hr]; exact k4))
  refine ⟨c, N + 2, fun n m hn hm => ?_⟩
  obtain ⟨m, rfl⟩ : ∃ j, m = j + 2 := ⟨m - 2, by omega⟩
  have e1 := hN n (by omega)
  rw [parseListLoop, peekIs_head, head_starts (writes_starts hw) _ _ k1]
  simp only [Bool.false_eq_true, if_false, e1, Res.ok_bind, peekIs_head, headIs, hr, decide_true, if_true, Res.pure_eq, parseListLoop]

theorem completeList_cons {e : Expr F} {es : List (Expr F)} {c : Token} {te ts : List Token} (hc : c.kind = .Comma)
    (hw : Writes e te) (h : Complete e te) (h2 : CompleteList es ts) : CompleteList (e :: es) (te ++ c :: ts) := by
  intro endK r rest c0 hK hr
  obtain ⟨k1, k2, k3, k4⟩ := endK_zero hK
  obtain ⟨c1, N, hN⟩ := h.zero hw c0 (fits_zero (t := c) (r := ts ++ r :: rest) (by rw [hc]; rfl) (by rw [hc]; decide) (by rw [hc]; decide))
  obtain ⟨c2, N2, hN2⟩ := h2 endK r rest c hK hr
  refine ⟨c2, N + N2 + 2, fun n m hn hm => ?_⟩
  obtain ⟨m, rfl⟩ : ∃ j, m = j + 1 := ⟨m - 1, by omega⟩
  have e1 := hN n (by omega)
  have e2 := hN2 n m (by omega) (by omega)
  have hck : ¬ c.kind = endK := by rw [hc]; rcases hK with rfl | rfl <;> decide
  rw [List.append_assoc, List.cons_append, parseListLoop, peekIs_head, head_starts (writes_starts hw) _ _ k1]
  simp only [Bool.false_eq_true, if_false, e1, Res.ok_bind, peekIs_head, headIs, hck, decide_false, expect_cons hc, e2, Res.pure_eq]

theorem completePairs_nil : CompletePairs ([] : List (Expr F × Expr F)) [] := by
  intro r rest c0 hr
  refine ⟨c0, 1, fun n m _ hm => ?_⟩
  obtain ⟨m, rfl⟩ : ∃ j, m = j + 1 := ⟨m - 1, by omega⟩
  simp [parsePairsLoop, peekIs_head, headIs, hr, Res.pure_eq]

theorem completePairs_last {k v : Expr F} {c : Token} {tk tv : List Token} (hc : c.kind = .Colon) (hwk : Writes k tk)
    (hk : Complete k tk) (hwv : Writes v tv) (hv : Complete v tv) : CompletePairs [(k, v)] (tk ++ c :: tv) := by
  intro r rest c0 hr
  obtain ⟨c1, N1, hN1⟩ := hk.zero hwk c0 (fits_zero (t := c) (r := tv ++ r :: rest) (by rw [hc]; rfl) (by rw [hc]; decide) (by rw [hc]; decide))
  obtain ⟨c2, N2, hN2⟩ := hv.zero hwv c (fits_zero (t := r) (r := rest) (by rw [hr]; rfl) (by rw [hr]; decide) (by rw [hr]; decide))
  refine ⟨c2, N1 + N2 + 2, fun n m hn hm => ?_⟩
  obtain ⟨m, rfl⟩ : ∃ j, m = j + 2 := ⟨m - 2, by omega⟩
  have e1 := hN1 n (by omega)
  have e2 := hN2 n (by omega)
  rw [List.append_assoc, List.cons_append, parsePairsLoop, peekIs_head, head_starts (writes_starts hwk) _ _ rfl]
  simp only [Bool.false_eq_true, if_false, e1, Res.ok_bind, expect_cons hc, e2, peekIs_head, headIs, hr, decide_true, if_true,
    Res.pure_eq, parsePairsLoop]

theorem completePairs_cons {k v : Expr F} {ps : List (Expr F × Expr F)} {c m : Token} {tk tv ts : List Token} (hc : c.kind = .Colon)
    (hm : m.kind = .Comma) (hwk : Writes k tk) (hk : Complete k tk) (hwv : Writes v tv) (hv : Complete v tv)
    (h : CompletePairs ps ts) : CompletePairs ((k, v) :: ps) (tk ++ c :: (tv ++ m :: ts)) := by
  intro r rest c0 hr
  obtain ⟨c1, N1, hN1⟩ := hk.zero hwk c0 (fits_zero (t := c) (r := tv ++ m :: (ts ++ r :: rest)) (by rw [hc]; rfl) (by rw [hc]; decide) (by rw [hc]; decide))
  obtain ⟨c2, N2, hN2⟩ := hv.zero hwv c (fits_zero (t := m) (r := ts ++ r :: rest) (by rw [hm]; rfl) (by rw [hm]; decide) (by rw [hm]; decide))
  obtain ⟨c3, N3, hN3⟩ := h r rest m hr
  refine ⟨c3, N1 + N2 + N3 + 2, fun n j hn hj => ?_⟩
  obtain ⟨j, rfl⟩ : ∃ i, j = i + 1 := ⟨j - 1, by omega⟩
  have e1 := hN1 n (by omega)
  have e2 := hN2 n (by omega)
  have e3 := hN3 n j (by omega) (by omega)
  have hck : ¬ m.kind = .Rb := by rw [hm]; decide
  simp only [List.append_assoc, List.cons_append] at e1 e2 e3 ⊢
  rw [parsePairsLoop, peekIs_head, head_starts (writes_starts hwk) _ _ rfl]
  simp only [Bool.false_eq_true, if_false, e1, Res.ok_bind, expect_cons hc, e2, peekIs_head, headIs, hck, decide_false,
    expect_cons hm, e3, Res.pure_eq]

theorem completeSeq_nil : CompleteSeq ([] : List (Expr F)) [] := by
  intro r rest c0 hr
  refine ⟨c0, 1, fun n m _ hm => ?_⟩
  obtain ⟨m, rfl⟩ : ∃ j, m = j + 1 := ⟨m - 1, by omega⟩
  simp [parseBlockLoop, peekIs_head, headIs, hr, Res.pure_eq]

theorem completeSeq_last {e : Expr F} {te : List Token} (hw : Writes e te) (h : Complete e te) : CompleteSeq [e] te := by
  intro r rest c0 hr
  obtain ⟨c, N, hN⟩ := h.zero hw c0 (fits_zero (t := r) (r := rest) (by rw [hr]; rfl) (by rw [hr]; decide) (by rw [hr]; decide))
  refine ⟨c, N + 2, fun n m hn hm => ?_⟩
  obtain ⟨m, rfl⟩ : ∃ j, m = j + 2 := ⟨m - 2, by omega⟩
  have e1 := hN n (by omega)
  rw [parseBlockLoop, peekIs_head, head_starts (writes_starts hw) _ _ rfl]
  simp only [Bool.false_eq_true, if_false, e1, Res.ok_bind]
  rw [skipSemi_no (by simp [headIs, hr])]
  simp [parseBlockLoop, peekIs_head, headIs, hr, Res.pure_eq, Res.ok_bind]

/-- A statement and the semicolon after it, whoever takes the semicolon. -/
theorem Complete.semi {e : Expr F} {te : List Token} (hw : Writes e te) (h : Complete e te) (c0 s : Token) (rest : List Token)
    (hs : s.kind = .Semi) (hr : headIs .Semi rest = false) :
    ∃ c N, ∀ n, N ≤ n → ∃ s', parseExpr n 0 (PS.mk c0 (te ++ s :: rest)).next = .ok (e, s') ∧ skipSemi s' = ⟨c, rest⟩ := by
  by_cases hl : isLet e = true
  · obtain ⟨c, N, hN⟩ := h.2 hl 0 s rest c0 hs hr
    exact ⟨c, N, fun n hn => ⟨_, hN n hn, skipSemi_no hr⟩⟩
  · obtain ⟨c, N, hN⟩ := h.zero hw c0 (fits_semi (t := s) (r := rest) hs (by simpa using hl))
    exact ⟨s, N, fun n hn => ⟨_, hN n hn, skipSemi_yes hs⟩⟩

theorem seq_head {es : List (Expr F)} {ts : List Token} (h : WritesSeq es ts) (r : Token) (rest : List Token) (hr : r.kind = .Rb) :
    headIs .Semi (ts ++ r :: rest) = false := by
  cases h with
  | nil => simp [headIs, hr]
  | last e te hw => exact head_starts (writes_starts hw) _ _ rfl
  | semi e es s te ts _ hw _ => rw [List.append_assoc]; exact head_starts (writes_starts hw) _ _ rfl
  | next e es t te ts _ hw _ => rw [List.append_assoc]; exact head_starts (writes_starts hw) _ _ rfl

theorem completeSeq_semi {e : Expr F} {es : List (Expr F)} {s : Token} {te ts : List Token} (hs : s.kind = .Semi) (hw : Writes e te)
    (h : Complete e te) (hw2 : WritesSeq es ts) (h2 : CompleteSeq es ts) : CompleteSeq (e :: es) (te ++ s :: ts) := by
  intro r rest c0 hr
  obtain ⟨c, N, hN⟩ := h.semi hw c0 s (ts ++ r :: rest) hs (seq_head hw2 r rest hr)
  obtain ⟨c2, N2, hN2⟩ := h2 r rest c hr
  refine ⟨c2, N + N2 + 2, fun n m hn hm => ?_⟩
  obtain ⟨m, rfl⟩ : ∃ j, m = j + 1 := ⟨m - 1, by omega⟩
  obtain ⟨s', e1, e2⟩ := hN n (by omega)
  have e3 := hN2 n m (by omega) (by omega)
  rw [List.append_assoc, List.cons_append, parseBlockLoop, peekIs_head, head_starts (writes_starts hw) _ _ rfl]
  simp only [Bool.false_eq_true, if_false, e1, Res.ok_bind, e2, e3, Res.pure_eq]

theorem completeSeq_next {e : Expr F} {es : List (Expr F)} {t : Token} {te ts : List Token} (ht : freshKind t.kind = true) (hw : Writes e te)
    (h : Complete e te) (h2 : CompleteSeq es (t :: ts)) : CompleteSeq (e :: es) (te ++ t :: ts) := by
  intro r rest c0 hr
  obtain ⟨f1, f2, f3⟩ := freshKind_zero ht
  obtain ⟨c, N, hN⟩ := h.zero hw c0 (fits_zero (t := t) (r := ts ++ r :: rest) f1 f2 f3)
  obtain ⟨c2, N2, hN2⟩ := h2 r rest c hr
  refine ⟨c2, N + N2 + 2, fun n m hn hm => ?_⟩
  obtain ⟨m, rfl⟩ : ∃ j, m = j + 1 := ⟨m - 1, by omega⟩
  have e1 := hN n (by omega)
  have e3 := hN2 n m (by omega) (by omega)
  rw [List.append_assoc, List.cons_append, parseBlockLoop, peekIs_head, head_starts (writes_starts hw) _ _ rfl]
  simp only [Bool.false_eq_true, if_false, e1, Res.ok_bind]
  rw [skipSemi_no (by simp [headIs, f2])]
  rw [List.cons_append] at e3
  simp only [e3, Res.ok_bind, Res.pure_eq]

theorem completeBlock_mk {l r : Token} {es : List (Expr F)} {ts : List Token} (hl : l.kind = .Lb) (hr : r.kind = .Rb)
    (h : CompleteSeq es ts) : CompleteBlock es (l :: (ts ++ [r])) := by
  intro rest c0
  obtain ⟨c, N, hN⟩ := h r rest l hr
  refine ⟨r, N, fun n m hn hm => ?_⟩
  have e1 := hN n m hn hm
  simp only [List.cons_append, List.append_assoc, List.nil_append] at e1 ⊢
  simp only [parseBlock, expect_cons hl, Res.ok_bind, e1, expect_cons hr, Res.pure_eq]

mutual
/-- Completeness of `parse_expr` for the published grammar. -/
theorem writes_complete {e : Expr F} {ts : List Token} (h : Writes e ts) : Complete e ts := by
  match h with
  | .int t i hk hp =>
    rw [← parseI64_iff] at hp
    exact complete_atom rfl fun n p rest => by simp [parsePrefix, hk, parseInteger, hp, Res.ok_bind, Res.pure_eq]
  | .float t i hk hp => exact complete_atom rfl fun n p rest => by simp [parsePrefix, hk, parseFloat, hp, Res.ok_bind, Res.pure_eq]
  | .bool t b hk hp =>
    have hb : parseBool t.literal = some b := by rw [hp]; cases b <;> rfl
    exact complete_atom rfl fun n p rest => by
      rcases hk with hk | hk <;> simp [parsePrefix, hk, parseBoolean, hb, Res.ok_bind, Res.pure_eq]
  | .str t hk => exact complete_atom rfl fun n p rest => by simp [parsePrefix, hk, Res.pure_eq]
  | .ident t hk => exact complete_atom rfl fun n p rest => by simp [parsePrefix, hk, Res.pure_eq]
  | .arr l r es ts hl hr h1 => exact complete_arr hl hr (writesList_complete h1)
  | .map l r es ts hl hr h1 => exact complete_map hl hr (writesPairs_complete h1)
  | .index l r e i te ti hl hr h1 h2 h3 h4 => exact complete_index hl hr h2 (writes_complete h1) (writes_complete h2) h3 h4
  | .field d n e te hd hn h1 h2 h3 => exact complete_field hd hn (writes_complete h1) h2 h3
  | .letE l n a v tv hl hn ha h1 => exact complete_let hl hn ha h1 (writes_complete h1)
  | .unary op e te hop h1 h2 h3 => exact complete_unary hop (writes_complete h1) h2 h3
  | .binary op l r tl tr hop h1 h2 h3 h4 h5 h6 => exact complete_binary hop (writes_complete h1) (writes_complete h2) h3 h4 h5 h6
  | .paren l r e te hl hr h1 => exact complete_paren hl hr h1 (writes_complete h1)
  | .ifThen i l r c t tc tt hi hl hr h1 h2 => exact complete_if hi hl hr h1 (writes_complete h1) (writesBlock_complete h2)
  | .ifElse i l r el c t e tc tt te hi hl hr hel h1 h2 h3 =>
    exact complete_ifElse hi hl hr hel h1 (writes_complete h1) (writesBlock_complete h2) (writesBlock_complete h3)
  | .call f l r es ts hf hl hr h1 => exact complete_call hf hl hr (writesList_complete h1)
theorem writesList_complete {es : List (Expr F)} {ts : List Token} (h : WritesList es ts) : CompleteList es ts := by
  match h with
  | .nil => exact completeList_nil
  | .last e te h1 => exact completeList_last h1 (writes_complete h1)
  | .cons e es c te ts hc h1 h2 => exact completeList_cons hc h1 (writes_complete h1) (writesList_complete h2)
theorem writesPairs_complete {ps : List (Expr F × Expr F)} {ts : List Token} (h : WritesPairs ps ts) : CompletePairs ps ts := by
  match h with
  | .nil => exact completePairs_nil
  | .last k v c tk tv hc h1 h2 => exact completePairs_last hc h1 (writes_complete h1) h2 (writes_complete h2)
  | .cons k v ps c m tk tv ts hc hm h1 h2 h3 =>
    exact completePairs_cons hc hm h1 (writes_complete h1) h2 (writes_complete h2) (writesPairs_complete h3)
theorem writesBlock_complete {es : List (Expr F)} {ts : List Token} (h : WritesBlock es ts) : CompleteBlock es ts := by
  match h with
  | .mk l r es ts hl hr h1 => exact completeBlock_mk hl hr (writesSeq_complete h1)
theorem writesSeq_complete {es : List (Expr F)} {ts : List Token} (h : WritesSeq es ts) : CompleteSeq es ts := by
  match h with
  | .nil => exact completeSeq_nil
  | .last e te h1 => exact completeSeq_last h1 (writes_complete h1)
  | .semi e es s te ts hs h1 h2 => exact completeSeq_semi hs h1 (writes_complete h1) h2 (writesSeq_complete h2)
  | .next e es t te ts ht h1 h2 => exact completeSeq_next ht h1 (writes_complete h1) (writesSeq_complete h2)
end

/-! ## Whole sources -/

theorem parseItem_expr {n : Nat} {src : Source F} {ts rest : List Token} (c0 : Token) (h : ∃ t r, ts = t :: r ∧ starts t.kind = true) :
    parseItem n src (PS.mk c0 (ts ++ rest)).next =
      (do let (e, s) ← parseExpr n 0 (PS.mk c0 (ts ++ rest)).next; pure ({ src with exprs := src.exprs ++ [e] }, s)) := by
  obtain ⟨t, r, rfl, hs⟩ := h
  rw [List.cons_append, next_cons]
  unfold parseItem
  generalize hk : t.kind = k at hs
  cases k <;> first | (exact absurd hs (by decide)) | (simp only [hk]; done) | (simp only [hk]; rfl)

/-- What follows an item: a semicolon that belongs to it, or a fresh token. -/
theorem item_complete {i : Item F} {ti : List Token} (h : WritesItem i ti) (c0 t : Token) (rest : List Token)
    (hf : freshKind t.kind = true ∨ (t.kind = .Semi ∧ headIs .Semi rest = false)) :
    ∃ c N, ∀ n src, N ≤ n → ∃ s', parseItem n src (PS.mk c0 (ti ++ t :: rest)).next = .ok (addItem src i, s') ∧
      skipSemi s' = ⟨c, if freshKind t.kind then t :: rest else rest⟩ := by
  have hskip : ∀ c : Token, ∃ c', skipSemi ⟨c, t :: rest⟩ = ⟨c', if freshKind t.kind then t :: rest else rest⟩ := by
    intro c
    rcases hf with hf | ⟨hs, _⟩
    · obtain ⟨f1, f2, f3⟩ := freshKind_zero hf
      exact ⟨c, by rw [if_pos hf]; exact skipSemi_no (by simp [headIs, f2])⟩
    · have : freshKind t.kind = false := by rw [hs]; rfl
      exact ⟨t, by rw [this]; exact skipSemi_yes hs⟩
  cases h with
  | expr e ts hw =>
    have hc := writes_complete hw
    have key : ∃ c N, ∀ n, N ≤ n → ∃ s', parseExpr n 0 (PS.mk c0 (ti ++ t :: rest)).next = .ok (e, s') ∧
        skipSemi s' = ⟨c, if freshKind t.kind then t :: rest else rest⟩ := by
      rcases hf with hf | ⟨hs, hr⟩
      · obtain ⟨f1, f2, f3⟩ := freshKind_zero hf
        obtain ⟨c, N, hN⟩ := hc.zero hw c0 (fits_zero (t := t) (r := rest) f1 f2 f3)
        obtain ⟨c', hc'⟩ := hskip c
        exact ⟨c', N, fun n hn => ⟨_, hN n hn, hc'⟩⟩
      · have hfr : freshKind t.kind = false := by rw [hs]; rfl
        rw [hfr]
        exact hc.semi hw c0 t rest hs hr
    obtain ⟨c, N, hN⟩ := key
    refine ⟨c, N, fun n src hn => ?_⟩
    obtain ⟨s', e1, e2⟩ := hN n hn
    exact ⟨s', by rw [parseItem_expr c0 (writes_starts hw), e1]; rfl, e2⟩
  | request r i m hr hi hm =>
    obtain ⟨c', hc'⟩ := hskip m
    refine ⟨c', 0, fun n src _ => ⟨_, ?_, hc'⟩⟩
    have hls : headIs .Ls (t :: rest) = false := by
      simp only [headIs, decide_eq_false_iff_not]
      rcases hf with hf | ⟨hs, _⟩
      · intro h; rw [h] at hf; cases hf
      · rw [hs]; decide
    simp only [List.cons_append, List.nil_append, next_cons, parseItem, hr, parseRequest, expect_cons hi, expect_cons hm, Res.ok_bind,
      peekIs_head, hls, Bool.false_eq_true, if_false, Res.pure_eq, addItem]
  | requestAsserts r i m lb rb es ts hr hi hm hlb hrb hes =>
    obtain ⟨c', hc'⟩ := hskip rb
    obtain ⟨c1, N, hN⟩ := writesList_complete hes .Rs rb (t :: rest) lb (Or.inr rfl) hrb
    refine ⟨c', N, fun n src hn => ⟨_, ?_, hc'⟩⟩
    have e1 := hN n n hn hn
    simp only [List.cons_append, List.append_assoc, List.nil_append] at e1 ⊢
    simp only [next_cons, parseItem, hr, parseRequest, expect_cons hi, expect_cons hm, Res.ok_bind,
      peekIs_head, headIs, hlb, decide_true, if_true, parseList, e1, expect_cons hrb, Res.pure_eq, addItem]
  | test t' i es ts ht hi hb =>
    obtain ⟨c1, N, hN⟩ := writesBlock_complete hb (t :: rest) i
    obtain ⟨c', hc'⟩ := hskip c1
    refine ⟨c', N, fun n src hn => ⟨_, ?_, hc'⟩⟩
    have e1 := hN n n hn hn
    simp only [List.cons_append, List.append_assoc, List.nil_append] at e1 ⊢
    simp only [next_cons, parseItem, ht, parseTest, expect_cons hi, e1, Res.ok_bind, Res.pure_eq, addItem]

theorem item_starts {i : Item F} {ti : List Token} (h : WritesItem i ti) :
    ∃ t r, ti = t :: r ∧ t.kind ≠ .Eof ∧ t.kind ≠ .Semi := by
  cases h with
  | expr e ts hw =>
    obtain ⟨t, r, h1, h2⟩ := writes_starts hw
    refine ⟨t, r, h1, ?_, ?_⟩ <;> (intro h; rw [h] at h2; cases h2)
  | request r i m hr hi hm => exact ⟨r, _, rfl, by rw [hr]; decide, by rw [hr]; decide⟩
  | requestAsserts r i m lb rb es ts hr => exact ⟨r, _, rfl, by rw [hr]; decide, by rw [hr]; decide⟩
  | test t i es ts ht => exact ⟨t, _, rfl, by rw [ht]; decide, by rw [ht]; decide⟩

theorem source_head {is : List (Item F)} {ts : List Token} (h : WritesSource is ts) : headIs .Semi ts = false := by
  cases h with
  | nil t ht => simp [headIs, ht]
  | semi i is s ti ts _ hi _ =>
    obtain ⟨t, r, rfl, _, h⟩ := item_starts hi
    simp [headIs, h]
  | next i is s ti ts _ hi _ =>
    obtain ⟨t, r, rfl, _, h⟩ := item_starts hi
    simp [headIs, h]

/-- Completeness of the top-level loop. -/
theorem source_complete {is : List (Item F)} {ts : List Token} (h : WritesSource is ts) : ∀ (src : Source F) (c0 : Token),
    ∃ N, ∀ n k, N ≤ n → N ≤ k → parseTop n k src (PS.mk c0 ts).next = .ok (is.foldl addItem src) := by
  have step : ∀ {i : Item F} {is : List (Item F)} {t : Token} {ti ts : List Token}, WritesItem i ti →
      (freshKind t.kind = true ∨ (t.kind = .Semi ∧ headIs .Semi ts = false)) →
      (∀ (src : Source F) (c0 : Token), ∃ N, ∀ n k, N ≤ n → N ≤ k →
        parseTop n k src (PS.mk c0 (if freshKind t.kind then t :: ts else ts)).next = .ok (is.foldl addItem src)) →
      ∀ (src : Source F) (c0 : Token), ∃ N, ∀ n k, N ≤ n → N ≤ k →
        parseTop n k src (PS.mk c0 (ti ++ t :: ts)).next = .ok ((i :: is).foldl addItem src) := by
    intro i is t ti ts hi hf ih src c0
    obtain ⟨c, N1, hN1⟩ := item_complete hi c0 t ts hf
    obtain ⟨N2, hN2⟩ := ih (addItem src i) c
    refine ⟨N1 + N2 + 1, fun n k hn hk => ?_⟩
    obtain ⟨k, rfl⟩ : ∃ j, k = j + 1 := ⟨k - 1, by omega⟩
    obtain ⟨s', e1, e2⟩ := hN1 n src (by omega)
    have e3 := hN2 n k (by omega) (by omega)
    have hne : ¬ (PS.mk c0 (ti ++ t :: ts)).next.cur.kind = .Eof := by
      obtain ⟨a, r, rfl, h, _⟩ := item_starts hi
      exact h
    rw [parseTop, if_neg hne, e1]
    simp only [Res.ok_bind, e2, e3, List.foldl_cons]
  induction h with
  | nil t ht =>
    intro src c0
    refine ⟨1, fun n k _ hk => ?_⟩
    obtain ⟨k, rfl⟩ : ∃ j, k = j + 1 := ⟨k - 1, by omega⟩
    rw [next_cons, parseTop, if_pos ht]; rfl
  | semi i is s ti ts hs hi hw ih =>
    have hfr : freshKind s.kind = false := by rw [hs]; rfl
    refine step hi (Or.inr ⟨hs, source_head hw⟩) ?_
    rw [hfr]; exact ih
  | next i is t ti ts ht hi hw ih =>
    refine step hi (Or.inl ht) ?_
    rw [ht]; exact ih

end Am
