import Verif.Proofs.PrintsBackOnly
/-!
# What prints back is read again

From the way an expression was read, the way its printed tokens are read.
-/
set_option linter.unusedSimpArgs false
set_option linter.unusedSectionVars false
namespace Am
open Spec
variable {F : Type} [Rt F]

theorem ext_trans {q : Nat} {a b c : Expr F} {us vs ws : List Token} (h : Extends q a us b vs) (h' : Extends q b vs c ws) : Extends q a us c ws := by
  match h with
  | .nil _ _ _ => exact h'
  | .binary _ op l r e ts us rest h1 h2 h3 => have ih := ext_trans h3 h'; exact .binary _ op l r _ ts us _ h1 h2 ih
  | .call _ b c f es e ts us rest h0 h1 h2 h3 h4 => have ih := ext_trans h4 h'; exact .call _ b c f es _ ts us _ h0 h1 h2 h3 ih
  | .index _ b c l i e ts us rest h0 h1 h2 h3 h4 => have ih := ext_trans h4 h'; exact .index _ b c l i _ ts us _ h0 h1 h2 h3 ih
  | .field _ d n l e ts rest h0 h1 h2 h3 => have ih := ext_trans h3 h'; exact .field _ d n l _ ts _ h0 h1 h2 ih

/-- The operand of an expression that prints back does so too. -/
theorem ext_back {q : Nat} {l e : Expr F} {us rest : List Token} (h : Extends q l us e rest) (hf : Formed e) (hb : PrintsBack e) :
    Formed l ∧ PrintsBack l := by
  match h with
  | .nil _ _ _ => exact ⟨hf, hb⟩
  | .binary _ op l r e ts us rest h1 h2 h3 => have ih := ext_back h3 hf hb; exact ⟨ih.1.2.2.1, ih.2.2.1⟩
  | .call _ b c f es e ts us rest h0 h1 h2 h3 h4 => have ih := ext_back h4 hf hb; exact ⟨ih.1.1, trivial⟩
  | .index _ b c l i e ts us rest h0 h1 h2 h3 h4 => have ih := ext_back h4 hf hb; exact ⟨ih.1.1, ih.2.2.1⟩
  | .field _ d n l e ts rest h0 h1 h2 h3 => have ih := ext_back h3 hf hb; exact ⟨ih.1.1, ih.2.2.2⟩

/-- The token does not bind tighter than what followed. -/
def Milder (rest : List Token) (y : Token) : Prop := level y.kind = 0 ∨ ∃ t r, rest = t :: r ∧ level y.kind ≤ level t.kind

/-- After the semicolon of a `let` at the end. -/
def Clear (e : Expr F) (u : List Token) : Prop := ∃ t r, u = t :: r ∧ t.kind ≠ .Semi ∧ (LetTail e → level t.kind = 0)

/-- The printed tokens are read again, as operand and operators. -/
def Again (p q : Nat) (rest : List Token) (e : Expr F) : Prop :=
  (∀ y u, y.kind ≠ .Else → Milder rest y → (EndsInLet e → level y.kind = 0 ∧ y.kind ≠ .Semi) → PR p q (toks e ++ y :: u) e (y :: u)) ∧
  (EndsInLet e → ∀ y u, y.kind = .Semi → Clear e u → PR p q (toks e ++ y :: u) e u)

/-- The printed tokens are read again, as an expression. -/
def AgainWhole (p : Nat) (rest : List Token) (e : Expr F) : Prop :=
  (∀ y u, y.kind ≠ .Else → Milder rest y → (EndsInLet e → level y.kind = 0 ∧ y.kind ≠ .Semi) → Whole p (toks e ++ y :: u) e (y :: u)) ∧
  (EndsInLet e → ∀ y u, y.kind = .Semi → Clear e u → Whole p (toks e ++ y :: u) e u)

/-- Before a token that cannot continue it. -/
theorem AgainWhole.closed {p : Nat} {rest : List Token} {e : Expr F} (h : AgainWhole p rest e) {y : Token} (u : List Token)
    (h1 : level y.kind = 0) (h2 : y.kind ≠ .Else) (h3 : y.kind ≠ .Semi) : Whole p (toks e ++ y :: u) e (y :: u) :=
  h.1 y u h2 (Or.inl h1) fun _ => ⟨h1, h3⟩

theorem pr_let_level {p q : Nat} {ts rest : List Token} {n : Str} {v : Expr F} (h : PR p q ts (.letE n v) rest) : q = 255 := by
  have h := pr_prim (by simp [LastStep]) h
  generalize hz : Expr.letE n v = z at h
  cases h <;> simp at hz
  rfl

theorem level_le (k : Kind) : level k ≤ 13 := by cases k <;> simp [level, tableLevel]

theorem letTail_ends {e : Expr F} (h : EndsInLet e) : LetTail e ∨ isLet e = true := by
  cases e <;> simp [EndsInLet, LetTail, isLet] at h ⊢ <;> exact h

mutual
theorem primary_again {p q : Nat} {ts us : List Token} {l : Expr F} (h : Primary p ts l q us) (hf : Formed l) (hb : PrintsBack l) : Again p q us l := by
  match h with
  | .ident _ t r hk => exact ⟨fun y u _ _ _ => ⟨_, _, .ident _ ⟨.Ident, t.literal⟩ _ rfl, .nil _ _ _⟩, fun h => by cases h⟩
  | .int _ t i r hk hi =>
    exact ⟨fun y u _ _ _ => ⟨_, _, .int _ ⟨.Integer, intStr i.toInt⟩ i _ rfl (parseI64_iff.1 (int_back hf).2), .nil _ _ _⟩, fun h => by cases h⟩
  | .float _ t f r hk hi => exact ⟨fun y u _ _ _ => ⟨_, _, .float _ ⟨.Float, Rt.fdisp f⟩ f _ rfl hb.2, .nil _ _ _⟩, fun h => by cases h⟩
  | .bool _ t b r hk hi =>
    refine ⟨fun y u _ _ _ => ⟨_, _, .bool _ ⟨if b then .True else .False, boolStr b⟩ b _ ?_ rfl, .nil _ _ _⟩, fun h => by cases h⟩
    cases b <;> simp
  | .str _ t r hk => exact ⟨fun y u _ _ _ => ⟨_, _, .str _ ⟨.String, t.literal⟩ _ rfl, .nil _ _ _⟩, fun h => by cases h⟩
  | .letE _ l n a e ts r h1 h2 h3 h4 =>
    have ih := whole_again h4 hf.2 hb
    constructor
    · intro y u hy hm hl
      obtain ⟨g1, g2⟩ := hl trivial
      have := ih.closed u g1 hy g2
      have hd : dropSemi (y :: u) = y :: u := by simp [dropSemi, g2]
      have := Primary.letE p (fixTok .Let) ⟨.Ident, n.literal⟩ (fixTok .Assign) e _ _ rfl rfl rfl this
      rw [hd] at this
      exact ⟨_, _, this, .nil _ _ _⟩
    · intro _ y u hy hc
      refine ⟨_, u, ?_, .nil _ _ _⟩
      by_cases he : EndsInLet e
      · have := ih.2 he y u hy hc
        obtain ⟨t, r', rfl, g2, _⟩ := hc
        have hd : dropSemi (t :: r') = t :: r' := by simp [dropSemi, g2]
        have := Primary.letE p (fixTok .Let) ⟨.Ident, n.literal⟩ (fixTok .Assign) e _ _ rfl rfl rfl this
        rw [hd] at this
        exact this
      · have := ih.1 y u (by simp [hy]) (Or.inl (by rw [hy]; rfl)) (fun h => absurd h he)
        have hd : dropSemi (y :: u) = u := by simp [dropSemi, hy]
        have := Primary.letE p (fixTok .Let) ⟨.Ident, n.literal⟩ (fixTok .Assign) e _ _ rfl rfl rfl this
        rw [hd] at this
        exact this
  | .unary _ o e ts r h1 h2 =>
    have ih := whole_again h2 hf.2 hb
    exact ⟨fun y u hy hm hl => ⟨_, _, .unary _ o e _ _ h1 (ih.1 y u hy hm hl), .nil _ _ _⟩,
      fun he y u hy ⟨t, r, hu, g1, g2⟩ => ⟨_, _, .unary _ o e _ _ h1 (ih.2 he y u hy ⟨t, r, hu, g1, fun _ => g2 he⟩), .nil _ _ _⟩⟩
  | .paren _ l c e ts r h1 h2 h3 =>
    have ih := whole_again h3 hf hb
    refine ⟨fun y u hy hm hl => ⟨_, _, ?_, .nil _ _ _⟩, fun h => by cases h⟩
    simp only [toks, List.cons_append, List.append_assoc, List.nil_append]
    exact .paren _ (fixTok .Lp) (fixTok .Rp) e _ _ rfl rfl (ih.closed _ rfl (by decide) (by decide))
  | .ifThen _ i l c b d e es ts us r h1 h2 h3 h4 h5 h6 h7 _ =>
    have ih := whole_again h6 hf.1 hb.1
    have ih2 := stmts_again h7 hf.2.1 hb.2.1
    refine ⟨fun y u hy hm hl => ⟨_, _, ?_, .nil _ _ _⟩, fun h => by cases h⟩
    simp only [toks, List.cons_append, List.append_assoc, List.nil_append, List.isEmpty_nil, if_true]
    exact .ifThen _ (fixTok .If) (fixTok .Lp) (fixTok .Rp) (fixTok .Lb) (fixTok .Rb) e es _ _ _ rfl rfl rfl rfl rfl
      (ih.closed _ rfl (by decide) (by decide)) (ih2 _ _ rfl) ⟨y, u, rfl, hy⟩
  | .ifElse _ i l c b d el b' d' e es es' ts us vs r h1 h2 h3 h4 h5 h6 h7 h8 h9 h10 h11 =>
    have ih := whole_again h9 hf.1 hb.1
    have ih2 := stmts_again h10 hf.2.1 hb.2.1
    have ih3 := stmts_again h11 hf.2.2 hb.2.2
    refine ⟨fun y u hy hm hl => ⟨_, _, ?_, .nil _ _ _⟩, fun h => by cases h⟩
    cases es' with
    | nil =>
      simp only [toks, List.cons_append, List.append_assoc, List.nil_append, List.isEmpty_nil, if_true]
      exact .ifThen _ (fixTok .If) (fixTok .Lp) (fixTok .Rp) (fixTok .Lb) (fixTok .Rb) e es _ _ _ rfl rfl rfl rfl rfl
        (ih.closed _ rfl (by decide) (by decide)) (ih2 _ _ rfl) ⟨y, u, rfl, hy⟩
    | cons a as =>
      simp only [toks, List.cons_append, List.append_assoc, List.nil_append, List.isEmpty_cons, Bool.false_eq_true, if_false]
      exact .ifElse _ (fixTok .If) (fixTok .Lp) (fixTok .Rp) (fixTok .Lb) (fixTok .Rb) (fixTok .Else) (fixTok .Lb) (fixTok .Rb) e es (a :: as) _ _ _ _
        rfl rfl rfl rfl rfl rfl rfl rfl (ih.closed _ rfl (by decide) (by decide)) (ih2 _ _ rfl) (ih3 _ _ rfl)
  | .arr _ l c es ts r h1 h2 h3 =>
    have ih := items_again h3 hf hb
    refine ⟨fun y u hy hm hl => ⟨_, _, ?_, .nil _ _ _⟩, fun h => by cases h⟩
    simp only [toks, List.cons_append, List.append_assoc, List.nil_append]
    exact .arr _ (fixTok .Ls) (fixTok .Rs) es _ _ rfl rfl (ih (fixTok .Rs) _ rfl (Or.inl rfl))
  | .map _ l c ps ts r h1 h2 h3 =>
    have ih := pairs_again h3 hf hb
    refine ⟨fun y u hy hm hl => ⟨_, _, ?_, .nil _ _ _⟩, fun h => by cases h⟩
    simp only [toks, List.cons_append, List.append_assoc, List.nil_append]
    exact .map _ (fixTok .Lb) (fixTok .Rb) ps _ _ rfl rfl (ih (fixTok .Rb) _ rfl)
theorem extends_again {p q : Nat} {us rest : List Token} {l e : Expr F} (h : Extends q l us e rest) (hf : Formed e) (hb : PrintsBack e)
    (hl : Again p q us l) : Again p q rest e := by
  match h with
  | .nil _ _ _ => exact hl
  | .binary _ op l r e ts us rest h1 h2 h3 =>
    obtain ⟨f1, b1⟩ := ext_back h3 hf hb
    have ih := whole_again h2 f1.2.2.2 b1.2.2
    have hop : op.kind ≠ .Else := by intro h; rw [h] at h1; cases h1
    have left : ∀ v, PR p q (toks l ++ op :: v) l (op :: v) := fun v => hl.1 op v hop (Or.inr ⟨op, ts, rfl, Nat.le_refl _⟩) (fun h => absurd h b1.1)
    have step : Again p q us (.binary op l r) := by
      constructor
      · intro y u hy hm he
        have e1 : toks (.binary op l r) ++ y :: u = toks l ++ op :: (toks r ++ y :: u) := by simp [toks]
        rw [e1]
        obtain ⟨l0, us0, hp, hx⟩ := left (toks r ++ y :: u)
        exact ⟨l0, us0, hp, ext_trans hx (.binary _ op l r _ _ _ _ h1 (ih.1 y u hy hm he) (.nil _ _ _))⟩
      · intro he y u hy hc
        have e1 : toks (.binary op l r) ++ y :: u = toks l ++ op :: (toks r ++ y :: u) := by simp [toks]
        rw [e1]
        obtain ⟨l0, us0, hp, hx⟩ := left (toks r ++ y :: u)
        obtain ⟨t, r', hu, g1, g2⟩ := hc
        exact ⟨l0, us0, hp, ext_trans hx (.binary _ op l r _ _ _ _ h1 (ih.2 he y u hy ⟨t, r', hu, g1, fun _ => g2 he⟩) (.nil _ _ _))⟩
    exact extends_again h3 hf hb step
  | .call _ b c f es e ts us rest h0 h1 h2 h3 h4 =>
    obtain ⟨f1, b1⟩ := ext_back h4 hf hb
    have ih := items_again h3 f1.2 b1
    have step : Again p q us (.call f es : Expr F) := by
      refine ⟨fun y u hy hm he => ?_, fun h => by cases h⟩
      have e1 : toks (.call f es) ++ y :: u =
        toks (.ident f : Expr F) ++ fixTok .Lp :: (joinToks (fixTok .Comma) (toksList es) ++ fixTok .Rp :: y :: u) := by simp [toks]
      rw [e1]
      obtain ⟨l0, us0, hp, hx⟩ := hl.1 (fixTok .Lp) (joinToks (fixTok .Comma) (toksList es) ++ fixTok .Rp :: y :: u) (by decide)
        (Or.inr ⟨b, ts, rfl, by rw [h1]; exact Nat.le_refl _⟩) (fun h => by cases h)
      exact ⟨l0, us0, hp, ext_trans hx (.call _ (fixTok .Lp) (fixTok .Rp) f es _ _ _ _ h0 rfl rfl (ih _ _ rfl (Or.inr rfl)) (.nil _ _ _))⟩
    exact extends_again h4 hf hb step
  | .index _ b c l i e ts us rest h0 h1 h2 h3 h4 =>
    obtain ⟨f1, b1⟩ := ext_back h4 hf hb
    have ih := whole_again h3 f1.2 b1.2.2
    have step : Again p q us (.index l i) := by
      refine ⟨fun y u hy hm he => ?_, fun h => by cases h⟩
      have e1 : toks (.index l i) ++ y :: u = toks l ++ fixTok .Ls :: (toks i ++ fixTok .Rs :: y :: u) := by simp [toks]
      rw [e1]
      obtain ⟨l0, us0, hp, hx⟩ := hl.1 (fixTok .Ls) (toks i ++ fixTok .Rs :: y :: u) (by decide)
        (Or.inr ⟨b, ts, rfl, by rw [h1]; exact Nat.le_refl _⟩) (fun h => absurd h b1.1)
      exact ⟨l0, us0, hp, ext_trans hx (.index _ (fixTok .Ls) (fixTok .Rs) l i _ _ _ _ h0 rfl rfl (ih.closed _ rfl (by decide) (by decide)) (.nil _ _ _))⟩
    exact extends_again h4 hf hb step
  | .field _ d n l e ts rest h0 h1 h2 h3 =>
    obtain ⟨f1, b1⟩ := ext_back h3 hf hb
    have step : Again p q ts (.field l n.literal) := by
      refine ⟨fun y u hy hm he => ?_, fun h => by cases h⟩
      have e1 : toks (.field l n.literal) ++ y :: u = toks l ++ fixTok .Dot :: (⟨.Ident, n.literal⟩ :: y :: u) := by simp [toks]
      rw [e1]
      obtain ⟨l0, us0, hp, hx⟩ := hl.1 (fixTok .Dot) (⟨.Ident, n.literal⟩ :: y :: u) (by decide)
        (Or.inr ⟨d, n :: ts, rfl, by rw [h1]; exact Nat.le_refl _⟩) (fun h => absurd h b1.1)
      exact ⟨l0, us0, hp, ext_trans hx (.field _ (fixTok .Dot) ⟨.Ident, n.literal⟩ l _ _ _ h0 rfl rfl (.nil _ _ _))⟩
    exact extends_again h3 hf hb step
theorem whole_again {p : Nat} {ts rest : List Token} {e : Expr F} (h : Whole p ts e rest) (hf : Formed e) (hb : PrintsBack e) : AgainWhole p rest e := by
  match h with
  | .mk _ q l _ _ us _ h1 h2 h3 =>
    obtain ⟨f1, b1⟩ := ext_back h2 hf hb
    have ih := extends_again h2 hf hb (primary_again h1 f1 b1)
    constructor
    · intro y u hy hm he
      obtain ⟨l0, us0, hp, hx⟩ := ih.1 y u hy hm he
      refine .mk _ _ _ _ _ _ _ hp hx ⟨y, u, rfl, ?_⟩
      rcases hm with hm | ⟨t, r, rfl, hm⟩
      · omega
      · obtain ⟨t', r', h5, h6⟩ := h3
        cases h5
        omega
    · intro he y u hy hc
      have hpr := ih.2 he y u hy hc
      obtain ⟨l0, us0, hp, hx⟩ := hpr
      refine .mk _ _ _ _ _ _ _ hp hx ?_
      obtain ⟨t, r, hu, _, hc⟩ := hc
      refine ⟨t, r, hu, ?_⟩
      rcases letTail_ends he with ht | ht
      · have := hc ht; omega
      · cases e <;> simp [isLet] at ht
        have := pr_let_level ⟨l0, us0, hp, hx⟩
        have := level_le t.kind
        omega
theorem items_again {k : Kind} {ts rest : List Token} {es : List (Expr F)} (h : Items k ts es rest) (hf : FormedAll es) (hb : PrintsBackAll es)
    (c : Token) (r : List Token) (hk : c.kind = k) (hk2 : k = .Rs ∨ k = .Rp) : Items k (joinToks (fixTok .Comma) (toksList es) ++ c :: r) es (c :: r) := by
  have c1 : level c.kind = 0 ∧ c.kind ≠ .Else ∧ c.kind ≠ .Semi := by rcases hk2 with h | h <;> rw [hk, h] <;> decide
  match h with
  | .nil _ c r _ => exact .nil _ _ _ hk
  | .last _ c e ts r _ h1 =>
    have ih := whole_again h1 hf.1 hb.1
    exact .last _ _ e _ _ hk (ih.closed _ c1.1 c1.2.1 c1.2.2)
  | .cons _ c' e es ts us rest h0 h1 h2 =>
    have ih := whole_again h1 hf.1 hb.1
    have ih2 := items_again h2 hf.2 hb.2 c r hk hk2
    cases es with
    | nil => exact .last _ _ e _ _ hk (ih.closed _ c1.1 c1.2.1 c1.2.2)
    | cons f fs =>
      have e1 : joinToks (fixTok .Comma) (toksList (e :: f :: fs)) ++ c :: r =
        toks e ++ fixTok .Comma :: (joinToks (fixTok .Comma) (toksList (f :: fs)) ++ c :: r) := by simp [toksList, joinToks]
      rw [e1]
      exact .cons _ (fixTok .Comma) e _ _ _ _ rfl (ih.closed _ rfl (by decide) (by decide)) ih2
theorem pairs_again {ts rest : List Token} {ps : List (Expr F × Expr F)} (h : Pairs ts ps rest) (hf : FormedPairs ps) (hb : PrintsBackPairs ps)
    (c : Token) (r : List Token) (hk : c.kind = .Rb) : Pairs (joinToks (fixTok .Comma) (toksPairs ps) ++ c :: r) ps (c :: r) := by
  have c1 : level c.kind = 0 ∧ c.kind ≠ .Else ∧ c.kind ≠ .Semi := by rw [hk]; decide
  match h with
  | .nil c r _ => exact .nil _ _ hk
  | .last m c' k v ts us r' h0 _ h1 h2 =>
    have ih := whole_again h1 hf.1 hb.1
    have ih2 := whole_again h2 hf.2.1 hb.2.1
    have e1 : joinToks (fixTok .Comma) (toksPairs [(k, v)]) ++ c :: r = toks k ++ fixTok .Colon :: (toks v ++ c :: r) := by
      simp [toksPairs, joinToks]
    rw [e1]
    exact .last (fixTok .Colon) _ k v _ _ _ rfl hk (ih.closed _ rfl (by decide) (by decide)) (ih2.closed _ c1.1 c1.2.1 c1.2.2)
  | .cons m c' k v ps ts us vs rest h0 h00 h1 h2 h3 =>
    have ih := whole_again h1 hf.1 hb.1
    have ih2 := whole_again h2 hf.2.1 hb.2.1
    have ih3 := pairs_again h3 hf.2.2 hb.2.2 c r hk
    cases ps with
    | nil =>
      have e1 : joinToks (fixTok .Comma) (toksPairs [(k, v)]) ++ c :: r = toks k ++ fixTok .Colon :: (toks v ++ c :: r) := by
        simp [toksPairs, joinToks]
      rw [e1]
      exact .last (fixTok .Colon) _ k v _ _ _ rfl hk (ih.closed _ rfl (by decide) (by decide)) (ih2.closed _ c1.1 c1.2.1 c1.2.2)
    | cons f fs =>
      obtain ⟨k2, v2⟩ := f
      have e1 : joinToks (fixTok .Comma) (toksPairs ((k, v) :: (k2, v2) :: fs)) ++ c :: r =
        toks k ++ fixTok .Colon :: (toks v ++ fixTok .Comma :: (joinToks (fixTok .Comma) (toksPairs ((k2, v2) :: fs)) ++ c :: r)) := by
        simp [toksPairs, joinToks]
      rw [e1]
      exact .cons (fixTok .Colon) (fixTok .Comma) k v _ _ _ _ _ rfl rfl (ih.closed _ rfl (by decide) (by decide))
        (ih2.closed _ rfl (by decide) (by decide)) ih3
theorem stmts_again {ts rest : List Token} {es : List (Expr F)} (h : Stmts ts es rest) (hf : FormedAll es) (hb : PrintsBackSeq es)
    (c : Token) (r : List Token) (hk : c.kind = .Rb) : Stmts (joinToks (fixTok .Semi) (toksList es) ++ c :: r) es (c :: r) := by
  match h with
  | .nil c r _ => exact .nil _ _ hk
  | .cons e es ts us rest h1 h2 =>
    have ih := whole_again h1 hf.1 hb.1
    have ih2 := stmts_again h2 hf.2 hb.2.2 c r hk
    cases es with
    | nil =>
      have : Whole 0 (toks e ++ c :: r) e (c :: r) := ih.closed _ (by rw [hk]; rfl) (by rw [hk]; decide) (by rw [hk]; decide)
      refine .cons e [] _ _ _ this ?_
      have hd : dropSemi (c :: r) = c :: r := by simp [dropSemi, hk]
      rw [hd]
      exact .nil _ _ hk
    | cons f fs =>
      have e1 : joinToks (fixTok .Semi) (toksList (e :: f :: fs)) ++ c :: r =
        toks e ++ fixTok .Semi :: (joinToks (fixTok .Semi) (toksList (f :: fs)) ++ c :: r) := by simp [toksList, joinToks]
      rw [e1]
      obtain ⟨z, v, hz, hz1, hz2⟩ := join_head (fixTok .Semi) f fs (c :: r) hf.2.1
      have hsep : Sep (fixTok .Semi) (joinToks (fixTok .Semi) (toksList (f :: fs)) ++ c :: r) := Or.inr ⟨z, v, hz, hz1⟩
      by_cases he : EndsInLet e
      · have := ih.2 he (fixTok .Semi) (joinToks (fixTok .Semi) (toksList (f :: fs)) ++ c :: r) rfl
          ⟨z, v, hz, (by intro h; rw [h] at hz1; cases hz1), (fun ht => by
            have := hb.2.1 f fs rfl ht
            rw [hz2] at this
            exact Classical.byContradiction this)⟩
        refine .cons e _ _ _ _ this ?_
        rw [hsep.dropSemi rfl]
        exact ih2
      · have := ih.1 (fixTok .Semi) (joinToks (fixTok .Semi) (toksList (f :: fs)) ++ c :: r) (by decide) (Or.inl rfl) (fun h => absurd h he)
        refine .cons e _ _ _ _ this ?_
        exact ih2
end

end Am
