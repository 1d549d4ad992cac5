import Verif.Proofs.PrintedWeight
/-!
# What is read back must not have a `let` in the way

If the tokens `toks e` are read as `e`, no left operand of `e` ends in a `let`, and the statements of its blocks do not run together.
-/
set_option linter.unusedSimpArgs false
set_option linter.unusedSectionVars false
namespace Am
open Spec
variable {F : Type} [Rt F]

/-! ## The last step of an expression -/

/-- The operand and the operators up to some point. -/
def PR (p q : Nat) (ts : List Token) (e : Expr F) (rest : List Token) : Prop := ∃ l us, Primary p ts l q us ∧ Extends q l us e rest

/-- The last operator of the expression. -/
def LastStep (q : Nat) (l : Expr F) (us : List Token) (e : Expr F) (rest : List Token) : Prop :=
  match e with
  | .binary op a b => ∃ vs, Extends q l us a (op :: vs) ∧ q < tableLevel op.kind ∧ Whole (tableLevel op.kind) vs b rest
  | .index a i => ∃ b c vs, Extends q l us a (b :: vs) ∧ q < 13 ∧ b.kind = .Ls ∧ c.kind = .Rs ∧ Whole 0 vs i (c :: rest)
  | .field a n => ∃ d m, Extends q l us a (d :: m :: rest) ∧ q < 13 ∧ d.kind = .Dot ∧ m.kind = .Ident ∧ m.literal = n
  | .call f es => ∃ b c vs, Extends q l us (.ident f) (b :: vs) ∧ q < 12 ∧ b.kind = .Lp ∧ c.kind = .Rp ∧ Items .Rp vs es (c :: rest)
  | _ => False

theorem LastStep.mono {q : Nat} {l l' : Expr F} {us us' rest : List Token} {e : Expr F}
    (h : ∀ a vs, Extends q l us a vs → Extends q l' us' a vs) (hs : LastStep q l us e rest) : LastStep q l' us' e rest := by
  cases e <;> simp only [LastStep] at hs ⊢
  · obtain ⟨b, c, vs, h1, h2⟩ := hs; exact ⟨b, c, vs, h _ _ h1, h2⟩
  · obtain ⟨b, c, h1, h2⟩ := hs; exact ⟨b, c, h _ _ h1, h2⟩
  · obtain ⟨vs, h1, h2⟩ := hs; exact ⟨vs, h _ _ h1, h2⟩
  · obtain ⟨b, c, vs, h1, h2⟩ := hs; exact ⟨b, c, vs, h _ _ h1, h2⟩

theorem ext_last {q : Nat} {l e : Expr F} {us rest : List Token} (h : Extends q l us e rest) : (l = e ∧ us = rest) ∨ LastStep q l us e rest := by
  match h with
  | .nil _ _ _ => exact Or.inl ⟨rfl, rfl⟩
  | .binary _ op l r e ts us rest h1 h2 h3 =>
    rcases ext_last h3 with ⟨rfl, rfl⟩ | ih
    · exact Or.inr ⟨ts, .nil _ _ _, h1, h2⟩
    · exact Or.inr (ih.mono fun a vs h => .binary _ op l r _ ts us _ h1 h2 h)
  | .call _ b c f es e ts us rest h0 h1 h2 h3 h4 =>
    rcases ext_last h4 with ⟨rfl, rfl⟩ | ih
    · exact Or.inr ⟨b, c, ts, .nil _ _ _, h0, h1, h2, h3⟩
    · exact Or.inr (ih.mono fun a vs h => .call _ b c f es _ ts us _ h0 h1 h2 h3 h)
  | .index _ b c l i e ts us rest h0 h1 h2 h3 h4 =>
    rcases ext_last h4 with ⟨rfl, rfl⟩ | ih
    · exact Or.inr ⟨b, c, ts, .nil _ _ _, h0, h1, h2, h3⟩
    · exact Or.inr (ih.mono fun a vs h => .index _ b c l i _ ts us _ h0 h1 h2 h3 h)
  | .field _ d n l e ts rest h0 h1 h2 h3 =>
    rcases ext_last h3 with ⟨rfl, rfl⟩ | ih
    · exact Or.inr ⟨d, n, .nil _ _ _, h0, h1, h2, rfl⟩
    · exact Or.inr (ih.mono fun a vs h => .field _ d n l _ ts _ h0 h1 h2 h)

theorem pr_binary {p q : Nat} {ts rest : List Token} {op : Token} {l r : Expr F} (h : PR p q ts (.binary op l r) rest) :
    ∃ vs, PR p q ts l (op :: vs) ∧ q < tableLevel op.kind ∧ Whole (tableLevel op.kind) vs r rest := by
  obtain ⟨l0, us, hp, hx⟩ := h
  rcases ext_last hx with ⟨rfl, rfl⟩ | ⟨vs, h1, h2, h3⟩
  · cases hp
  · exact ⟨vs, ⟨l0, us, hp, h1⟩, h2, h3⟩

theorem pr_index {p q : Nat} {ts rest : List Token} {a i : Expr F} (h : PR p q ts (.index a i) rest) :
    ∃ b c vs, PR p q ts a (b :: vs) ∧ b.kind = .Ls ∧ c.kind = .Rs ∧ Whole 0 vs i (c :: rest) := by
  obtain ⟨l0, us, hp, hx⟩ := h
  rcases ext_last hx with ⟨rfl, rfl⟩ | ⟨b, c, vs, h1, h2, h3, h4, h5⟩
  · cases hp
  · exact ⟨b, c, vs, ⟨l0, us, hp, h1⟩, h3, h4, h5⟩

theorem pr_field {p q : Nat} {ts rest : List Token} {a : Expr F} {n : Str} (h : PR p q ts (.field a n) rest) :
    ∃ d m, PR p q ts a (d :: m :: rest) ∧ d.kind = .Dot ∧ m.kind = .Ident := by
  obtain ⟨l0, us, hp, hx⟩ := h
  rcases ext_last hx with ⟨rfl, rfl⟩ | ⟨d, m, h1, h2, h3, h4, h5⟩
  · cases hp
  · exact ⟨d, m, ⟨l0, us, hp, h1⟩, h3, h4⟩

theorem pr_call {p q : Nat} {ts rest : List Token} {f : Str} {es : List (Expr F)} (h : PR p q ts (.call f es) rest) :
    ∃ x b c vs, ts = x :: b :: vs ∧ x.kind = .Ident ∧ b.kind = .Lp ∧ c.kind = .Rp ∧ Items .Rp vs es (c :: rest) := by
  obtain ⟨l0, us, hp, hx⟩ := h
  rcases ext_last hx with ⟨rfl, rfl⟩ | ⟨b, c, vs, h1, h2, h3, h4, h5⟩
  · cases hp
  · rcases ext_last h1 with ⟨hl, hu⟩ | h
    · subst hl
      generalize hz : (Expr.ident f : Expr F) = z at hp
      cases hp <;> simp at hz
      rename_i t hk
      subst hu
      exact ⟨t, b, c, vs, rfl, hk, h3, h4, h5⟩
    · exact absurd h (by simp [LastStep])

theorem pr_prim {p q : Nat} {ts rest : List Token} {e : Expr F} (he : ∀ l us, ¬ LastStep q l us e rest) (h : PR p q ts e rest) :
    Primary p ts e q rest := by
  obtain ⟨l0, us, hp, hx⟩ := h
  rcases ext_last hx with ⟨rfl, rfl⟩ | h
  · exact hp
  · exact absurd h (he _ _)

theorem pr_let {p q : Nat} {ts rest : List Token} {n : Str} {v : Expr F} (h : PR p q ts (.letE n v) rest) :
    ∃ l m a vs r, ts = l :: m :: a :: vs ∧ Whole 0 vs v r ∧ rest = dropSemi r := by
  have h := pr_prim (by simp [LastStep]) h
  generalize hz : Expr.letE n v = z at h
  cases h <;> simp at hz
  obtain ⟨_, rfl⟩ := hz
  exact ⟨_, _, _, _, _, rfl, ‹_›, rfl⟩

theorem pr_unary {p q : Nat} {ts rest : List Token} {op : Token} {v : Expr F} (h : PR p q ts (.unary op v) rest) :
    ∃ vs, ts = op :: vs ∧ Whole 11 vs v rest := by
  have h := pr_prim (by simp [LastStep]) h
  generalize hz : Expr.unary op v = z at h
  cases h <;> simp at hz
  obtain ⟨rfl, rfl⟩ := hz
  exact ⟨_, rfl, ‹_›⟩

theorem pr_paren {p q : Nat} {ts rest : List Token} {v : Expr F} (h : PR p q ts (.paren v) rest) :
    ∃ l c vs, ts = l :: vs ∧ c.kind = .Rp ∧ Whole 0 vs v (c :: rest) := by
  have h := pr_prim (by simp [LastStep]) h
  generalize hz : Expr.paren v = z at h
  cases h <;> simp at hz
  subst hz
  exact ⟨_, _, _, rfl, ‹_›, ‹_›⟩

theorem pr_arr {p q : Nat} {ts rest : List Token} {es : List (Expr F)} (h : PR p q ts (.arr es) rest) :
    ∃ l c vs, ts = l :: vs ∧ c.kind = .Rs ∧ Items .Rs vs es (c :: rest) := by
  have h := pr_prim (by simp [LastStep]) h
  generalize hz : Expr.arr es = z at h
  cases h <;> simp at hz
  subst hz
  exact ⟨_, _, _, rfl, ‹_›, ‹_›⟩

theorem pr_map {p q : Nat} {ts rest : List Token} {ps : List (Expr F × Expr F)} (h : PR p q ts (.map ps) rest) :
    ∃ l c vs, ts = l :: vs ∧ c.kind = .Rb ∧ Pairs vs ps (c :: rest) := by
  have h := pr_prim (by simp [LastStep]) h
  generalize hz : Expr.map ps = z at h
  cases h <;> simp at hz
  subst hz
  exact ⟨_, _, _, rfl, ‹_›, ‹_›⟩

theorem pr_if {p q : Nat} {ts rest : List Token} {c : Expr F} {t e : List (Expr F)} (h : PR p q ts (.ifE c t e) rest) :
    ∃ i l c' b d vs us, ts = i :: l :: vs ∧ c'.kind = .Rp ∧ b.kind = .Lb ∧ d.kind = .Rb ∧ Whole 0 vs c (c' :: b :: us) ∧
      ((e = [] ∧ Stmts us t (d :: rest)) ∨
        ∃ el b' d' ws, el.kind = .Else ∧ b'.kind = .Lb ∧ d'.kind = .Rb ∧ Stmts us t (d :: el :: b' :: ws) ∧ Stmts ws e (d' :: rest)) := by
  have h := pr_prim (by simp [LastStep]) h
  generalize hz : Expr.ifE c t e = z at h
  cases h <;> simp at hz
  · obtain ⟨rfl, rfl, rfl⟩ := hz
    rename_i i l c' b d vs us h1 h2 h3 h4 h5 h6 h7 h8
    exact ⟨i, l, c', b, d, vs, us, rfl, ‹_›, ‹_›, ‹_›, ‹_›, Or.inl ⟨rfl, ‹_›⟩⟩
  · obtain ⟨rfl, rfl, rfl⟩ := hz
    rename_i i l c' b d el b' d' vs us ws h1 h2 h3 h4 h5 h6 h7 h8 h9 h10 h11
    exact ⟨i, l, c', b, d, vs, us, rfl, ‹_›, ‹_›, ‹_›, ‹_›, Or.inr ⟨el, b', d', ws, ‹_›, ‹_›, ‹_›, ‹_›, ‹_›⟩⟩

theorem whole_pr {p : Nat} {ts rest : List Token} {e : Expr F} (h : Whole p ts e rest) : ∃ q, PR p q ts e rest ∧ Ends q rest := by
  match h with
  | .mk _ q l _ _ us _ h1 h2 h3 => exact ⟨q, ⟨l, us, h1, h2⟩, h3⟩

/-- Only after a `let` the level changes. -/
theorem pr_level {p q : Nat} {ts rest : List Token} {e : Expr F} (h : PR p q ts e rest) : q = p ∨ isLet e = true := by
  obtain ⟨l, us, hp, hx⟩ := h
  cases hp with
  | letE _ l n a v ts r h1 h2 h3 h4 =>
    right
    have tl : ∀ k, tableLevel k ≤ 10 := by intro k; cases k <;> simp [tableLevel]
    rcases ext_last hx with ⟨rfl, _⟩ | h
    · rfl
    · cases e <;> simp only [LastStep] at h
      · obtain ⟨_, _, _, _, h, _⟩ := h; omega
      · obtain ⟨_, _, _, h, _⟩ := h; omega
      · rename_i op _ _; obtain ⟨_, _, h, _⟩ := h; have := tl op.kind; omega
      · obtain ⟨_, _, _, _, h, _⟩ := h; omega
  | _ => exact Or.inl rfl

/-! ## Alignment -/

/-- All tokens count, except commas and semicolons. -/
def one : Kind → Nat
  | .Semi | .Comma => 0
  | _ => 1

theorem one_weight : Weight one := ⟨rfl, rfl, rfl⟩

theorem pr_weight {p q : Nat} {ts rest : List Token} {e : Expr F} (h : PR p q ts e rest) : wt one (toks e) + wt one rest ≤ wt one ts := by
  obtain ⟨l, us, hp, hx⟩ := h
  obtain ⟨t, rfl, h1⟩ := primary_reads hp
  obtain ⟨m, rfl, h2⟩ := extends_reads hx
  have := (reads_weight one_weight (h2 t h1)).1
  simp only [wt_append] at this ⊢
  omega

theorem whole_weight {p : Nat} {ts rest : List Token} {e : Expr F} (h : Whole p ts e rest) : wt one (toks e) + wt one rest ≤ wt one ts := by
  obtain ⟨q, h, _⟩ := whole_pr h
  exact pr_weight h

theorem items_weight {k : Kind} {ts rest : List Token} {es : List (Expr F)} (h : Items k ts es rest) :
    wtAll one (toksList es) + wt one rest ≤ wt one ts := by
  obtain ⟨t, rfl, h1⟩ := items_reads h
  have := (readsList_weight one_weight h1).1
  simp only [wt_append]
  omega

theorem pairs_weight {ts rest : List Token} {ps : List (Expr F × Expr F)} (h : Pairs ts ps rest) :
    wtAll one (toksPairs ps) + wt one rest ≤ wt one ts := by
  obtain ⟨t, rfl, h1⟩ := pairs_reads h
  have := (readsPairs_weight one_weight h1).1
  simp only [wt_append]
  omega

theorem stmts_weight {ts rest : List Token} {es : List (Expr F)} (h : Stmts ts es rest) : wtAll one (toksList es) + wt one rest ≤ wt one ts := by
  obtain ⟨t, rfl, h1⟩ := stmts_reads h
  have := (readsSeq_weight one_weight h1).1
  simp only [wt_append]
  omega

theorem readsBlock_last {es : List (Expr F)} {t : List Token} (h : ReadsBlock es t) : ∃ i x, t = i ++ [x] ∧ x.kind = .Rb := by
  cases h with
  | mk l r _ ts _ h2 _ => exact ⟨l :: ts, r, rfl, h2⟩

theorem reads_last {e : Expr F} {t : List Token} (h : Reads e t) : ∃ i x, t = i ++ [x] ∧ x.kind ≠ .Comma ∧ (x.kind = .Semi → EndsInLet e) := by
  match h with
  | .int t i hk _ => exact ⟨[], t, rfl, by simp [hk], by simp [hk]⟩
  | .float t f hk _ => exact ⟨[], t, rfl, by simp [hk], by simp [hk]⟩
  | .bool t b hk _ => refine ⟨[], t, rfl, ?_, ?_⟩ <;> rcases hk with hk | hk <;> simp [hk]
  | .str t hk => exact ⟨[], t, rfl, by simp [hk], by simp [hk]⟩
  | .ident t hk => exact ⟨[], t, rfl, by simp [hk], by simp [hk]⟩
  | .arr l r es ts h1 h2 h3 => exact ⟨l :: ts, r, rfl, by simp [h2], by simp [h2]⟩
  | .map l r ps ts h1 h2 h3 => exact ⟨l :: ts, r, rfl, by simp [h2], by simp [h2]⟩
  | .index l r e i te ti h1 h2 h3 h4 => exact ⟨te ++ l :: ti, r, by simp, by simp [h2], by simp [h2]⟩
  | .field d n e te h1 h2 h3 => exact ⟨te ++ [d], n, by simp, by simp [h2], by simp [h2]⟩
  | .letE l n a v tv sm h1 h2 h3 h4 h5 =>
    cases h5 with
    | none =>
      obtain ⟨i, x, rfl, h6, h7⟩ := reads_last h4
      exact ⟨l :: n :: a :: i, x, by simp, h6, fun _ => trivial⟩
    | some s hs => exact ⟨l :: n :: a :: tv, s, by simp, by simp [hs], fun _ => trivial⟩
  | .unary op e te _ h1 =>
    obtain ⟨i, x, rfl, h6, h7⟩ := reads_last h1
    exact ⟨op :: i, x, rfl, h6, h7⟩
  | .binary op l r tl tr _ h1 h2 =>
    obtain ⟨i, x, rfl, h6, h7⟩ := reads_last h2
    exact ⟨tl ++ op :: i, x, by simp, h6, h7⟩
  | .paren l r e te h1 h2 h3 => exact ⟨l :: te, r, rfl, by simp [h2], by simp [h2]⟩
  | .ifThen i l r c t tc tt h1 h2 h3 h4 h5 =>
    obtain ⟨j, x, rfl, hx⟩ := readsBlock_last h5
    exact ⟨i :: l :: (tc ++ r :: j), x, by simp, by simp [hx], by simp [hx]⟩
  | .ifElse i l r el c t e tc tt te h1 h2 h3 h4 h5 h6 h7 =>
    obtain ⟨j, x, rfl, hx⟩ := readsBlock_last h7
    exact ⟨i :: l :: (tc ++ r :: (tt ++ el :: j)), x, by simp, by simp [hx], by simp [hx]⟩
  | .call f l r es ts h1 h2 h3 h4 => exact ⟨f :: l :: ts, r, rfl, by simp [h3], by simp [h3]⟩

theorem toks_last : (e : Expr F) → ∃ i x, toks e = i ++ [x] ∧ one x.kind = 1
  | .int i => ⟨[], _, rfl, rfl⟩
  | .float f => ⟨[], _, rfl, rfl⟩
  | .bool b => ⟨[], _, rfl, by cases b <;> rfl⟩
  | .str s => ⟨[], _, rfl, rfl⟩
  | .ident n => ⟨[], _, rfl, rfl⟩
  | .arr es => ⟨_ :: _, fixTok .Rs, rfl, rfl⟩
  | .map ps => ⟨_ :: _, fixTok .Rb, rfl, rfl⟩
  | .index l i => ⟨toks l ++ fixTok .Ls :: toks i, fixTok .Rs, by simp [toks], rfl⟩
  | .field l n => ⟨toks l ++ [fixTok .Dot], ⟨.Ident, n⟩, by simp [toks], rfl⟩
  | .letE n v => by
    obtain ⟨i, x, h1, h2⟩ := toks_last v
    exact ⟨fixTok .Let :: ⟨.Ident, n⟩ :: fixTok .Assign :: i, x, by simp [toks, h1], h2⟩
  | .unary op r => by
    obtain ⟨i, x, h1, h2⟩ := toks_last r
    exact ⟨op :: i, x, by simp [toks, h1], h2⟩
  | .binary op l r => by
    obtain ⟨i, x, h1, h2⟩ := toks_last r
    exact ⟨toks l ++ op :: i, x, by simp [toks, h1], h2⟩
  | .paren e => ⟨_ :: _, fixTok .Rp, rfl, rfl⟩
  | .ifE c t e => by
    cases e with
    | nil =>
      exact ⟨fixTok .If :: fixTok .Lp :: (toks c ++ fixTok .Rp :: (fixTok .Lb :: joinToks (fixTok .Semi) (toksList t))), fixTok .Rb,
        by simp [toks], rfl⟩
    | cons a es =>
      exact ⟨fixTok .If :: fixTok .Lp :: (toks c ++ fixTok .Rp :: (fixTok .Lb :: (joinToks (fixTok .Semi) (toksList t) ++ fixTok .Rb :: fixTok .Else ::
        fixTok .Lb :: joinToks (fixTok .Semi) (toksList (a :: es))))), fixTok .Rb, by simp [toks], rfl⟩
  | .call f es => ⟨⟨.Ident, f⟩ :: fixTok .Lp :: joinToks (fixTok .Comma) (toksList es), fixTok .Rp, by simp [toks], rfl⟩

/-- The first token of a printed expression. -/
theorem toks_head : (e : Expr F) → Formed e → ∃ x i, toks e = x :: i ∧ one x.kind = 1 ∧ (StartsTight e ↔ level x.kind ≠ 0)
  | .int i, _ => ⟨_, _, rfl, rfl, by simp [StartsTight, level, tableLevel]⟩
  | .float f, _ => ⟨_, _, rfl, rfl, by simp [StartsTight, level, tableLevel]⟩
  | .bool b, _ => ⟨_, _, rfl, by cases b <;> rfl, by cases b <;> simp [StartsTight, level, tableLevel]⟩
  | .str s, _ => ⟨_, _, rfl, rfl, by simp [StartsTight, level, tableLevel]⟩
  | .ident n, _ => ⟨_, _, rfl, rfl, by simp [StartsTight, level, tableLevel]⟩
  | .arr es, _ => ⟨_, _, rfl, rfl, by simp [StartsTight, level, fixTok]⟩
  | .map ps, _ => ⟨_, _, rfl, rfl, by simp [StartsTight, level, tableLevel, fixTok]⟩
  | .index l i, h => by
    obtain ⟨x, j, h1, h2, h3⟩ := toks_head l h.1
    exact ⟨x, _, by simp only [toks, h1]; rfl, h2, h3⟩
  | .field l n, h => by
    obtain ⟨x, j, h1, h2, h3⟩ := toks_head l h.1
    exact ⟨x, _, by simp only [toks, h1]; rfl, h2, h3⟩
  | .letE n v, _ => ⟨_, _, rfl, rfl, by simp [StartsTight, level, tableLevel, fixTok]⟩
  | .unary op r, h => by
    refine ⟨op, toks r, rfl, ?_, ?_⟩
    · rcases h.1 with h | h <;> rw [h] <;> rfl
    · rcases h.1 with h | h <;> simp [StartsTight, level, tableLevel, h, fixTok]
  | .binary op l r, h => by
    obtain ⟨x, j, h1, h2, h3⟩ := toks_head l h.2.2.1
    exact ⟨x, _, by simp only [toks, h1]; rfl, h2, h3⟩
  | .paren e, _ => ⟨_, _, rfl, rfl, by simp [StartsTight, level, fixTok]⟩
  | .ifE c t e, _ => ⟨_, _, rfl, rfl, by simp [StartsTight, level, tableLevel, fixTok]⟩
  | .call f es, _ => ⟨_, _, rfl, rfl, by simp [StartsTight, level, tableLevel]⟩

/-- The token, or the one after it, counts. -/
def Sep (y : Token) (u : List Token) : Prop := one y.kind = 1 ∨ ∃ z v, u = z :: v ∧ one z.kind = 1

theorem one_cases (k : Kind) : (one k = 0 ∧ (k = .Semi ∨ k = .Comma)) ∨ (one k = 1 ∧ k ≠ .Semi ∧ k ≠ .Comma) := by cases k <;> simp [one]

theorem align {p q : Nat} {e : Expr F} {y : Token} {u rest : List Token} (h : PR p q (toks e ++ y :: u) e rest) (hs : Sep y u)
    (hw : wt one rest = wt one (y :: u)) : rest = y :: u ∨ (y.kind = .Semi ∧ rest = u ∧ EndsInLet e) := by
  obtain ⟨l, us, hp, hx⟩ := h
  obtain ⟨t, h1, hR⟩ := primary_reads hp
  obtain ⟨m, h2, hR2⟩ := extends_reads hx
  have hR := hR2 t hR
  have heq : toks e ++ y :: u = (t ++ m) ++ rest := by rw [h1, h2]; simp
  generalize t ++ m = t1 at hR heq
  rcases List.append_eq_append_iff.1 heq with ⟨d, h3, h4⟩ | ⟨d, h3, h4⟩
  · -- the reading goes on
    cases d with
    | nil => left; simpa using h4.symm
    | cons y' d =>
      simp only [List.cons_append, List.cons.injEq] at h4
      obtain ⟨rfl, rfl⟩ := h4
      have hwd : wt one (y :: d) = 0 := by
        simp only [wt, wt_append] at hw ⊢
        omega
      simp only [wt] at hwd
      obtain ⟨i, x, h5, h6, h7⟩ := reads_last hR
      have hy : y.kind = .Semi ∨ y.kind = .Comma := by
        rcases one_cases y.kind with h | h
        · exact h.2
        · omega
      cases d with
      | nil =>
        rw [h3] at h5
        have : y = x := by
          have := congrArg List.getLast? h5
          simpa using this
        subst this
        rcases hy with hy | hy
        · exact Or.inr ⟨hy, rfl, h7 hy⟩
        · exact absurd hy h6
      | cons z d =>
        rcases hs with hs | ⟨z', v, hv, hz⟩
        · omega
        · simp only [List.cons_append, List.cons.injEq] at hv
          obtain ⟨rfl, _⟩ := hv
          simp only [wt] at hwd
          omega
  · -- the reading stops early
    have hwd : wt one d = 0 := by
      rw [h4] at hw
      simp only [wt_append] at hw
      omega
    cases d with
    | nil => left; simpa using h4
    | cons z d =>
      obtain ⟨i, x, h5, h6⟩ := toks_last e
      rw [h5] at h3
      have : (z :: d).getLast? = some x := by
        have := congrArg List.getLast? h3
        simp only [List.getLast?_append, List.getLast?_singleton, Option.some_or] at this
        cases hl : (z :: d).getLast? with
        | none => simp at hl
        | some w => rw [hl] at this; simpa using this.symm
      have hm : x ∈ z :: d := List.mem_of_getLast? this
      have zero : ∀ {l : List Token}, wt one l = 0 → ∀ x ∈ l, one x.kind = 0 := by
        intro l
        induction l with
        | nil => intro _ x hx; cases hx
        | cons a l ih =>
          intro hl x hx
          simp only [wt] at hl
          rcases List.mem_cons.1 hx with rfl | hx
          · omega
          · exact ih (by omega) x hx
      have := zero hwd x hm
      omega

/-! ## A `let` at the end takes everything -/

theorem wt_dropSemi (r : List Token) : wt one (dropSemi r) = wt one r := by
  cases r with
  | nil => rfl
  | cons x r =>
    by_cases hx : x.kind = .Semi
    · simp [dropSemi, hx, wt, one]
    · simp [dropSemi, hx]

theorem Sep.dropSemi {y : Token} {u : List Token} (h : Sep y u) (hy : y.kind = .Semi) : dropSemi u = u := by
  rcases h with h | ⟨z, v, rfl, hz⟩
  · rw [hy] at h; cases h
  · have : z.kind ≠ .Semi := by intro h; rw [h] at hz; cases hz
    simp [Spec.dropSemi, this]

theorem tail_let : (e : Expr F) → EndsInLet e → ∀ (p q : Nat) (y : Token) (u rest : List Token), PR p q (toks e ++ y :: u) e rest → Sep y u →
    wt one rest = wt one (y :: u) → (y.kind = .Semi ∧ rest = u) ∨ (y.kind ≠ .Semi ∧ rest = y :: u ∧ level y.kind = 0)
  | .letE n v, _, p, q, y, u, rest, h, hs, hw => by
    have ih := tail_let v
    obtain ⟨l, m, a, vs, r, h1, h2, rfl⟩ := pr_let h
    simp only [toks, List.cons_append, List.cons.injEq] at h1
    obtain ⟨_, _, _, rfl⟩ := h1
    rw [wt_dropSemi] at hw
    obtain ⟨q', h3, h4⟩ := whole_pr h2
    by_cases hy : y.kind = .Semi
    · left
      refine ⟨hy, ?_⟩
      rcases align h3 hs hw with rfl | ⟨_, rfl, _⟩
      · simp [dropSemi, hy]
      · exact hs.dropSemi hy
    · right
      rcases align h3 hs hw with rfl | ⟨h, _⟩
      · refine ⟨hy, by simp [dropSemi, hy], ?_⟩
        by_cases hv : EndsInLet v
        · rcases ih hv 0 q' y u _ h3 hs hw with ⟨h, _⟩ | ⟨_, _, h⟩
          · exact absurd h hy
          · exact h
        · rcases pr_level h3 with rfl | h
          · obtain ⟨t, r', h5, h6⟩ := h4
            simp only [List.cons.injEq] at h5
            obtain ⟨rfl, rfl⟩ := h5
            omega
          · cases v <;> simp [isLet] at h
            exact absurd trivial hv
      · exact absurd h hy
  | .unary op r, he, p, q, y, u, rest, h, hs, hw => by
    have ih := tail_let r he
    obtain ⟨vs, h1, h2⟩ := pr_unary h
    simp only [toks, List.cons_append, List.cons.injEq, true_and] at h1
    subst h1
    obtain ⟨q', h3, _⟩ := whole_pr h2
    exact ih _ _ y u rest h3 hs hw
  | .binary op l r, he, p, q, y, u, rest, h, hs, hw => by
    have ih := tail_let r he
    obtain ⟨vs, h1, h0, h2⟩ := pr_binary h
    have e1 : toks (.binary op l r) ++ y :: u = toks l ++ op :: (toks r ++ y :: u) := by simp [toks]
    rw [e1] at h1
    have w1 := pr_weight h1
    have w2 := whole_weight h2
    have hop : one op.kind = 1 := by
      revert h0
      cases op.kind <;> simp [tableLevel, one]
    simp only [wt, wt_append] at w1 w2 hw
    rcases align h1 (Or.inl hop) (by simp only [wt, wt_append]; omega) with h3 | ⟨h3, _⟩
    · simp only [List.cons.injEq, true_and] at h3
      subst h3
      obtain ⟨q', h3, _⟩ := whole_pr h2
      exact ih _ _ y u rest h3 hs (by simp only [wt]; omega)
    · rw [h3] at hop; cases hop

theorem let_tail : (e : Expr F) → LetTail e → ∀ (y : Token) (u rest : List Token), Whole 0 (toks e ++ y :: u) e rest → Sep y u →
    wt one rest = wt one (y :: u) → y.kind = .Semi → ∃ t r, u = t :: r ∧ level t.kind = 0
  | .letE n v, he, y, u, rest, h, hs, hw, hy => by
    have ih := let_tail v he
    obtain ⟨q, h, _⟩ := whole_pr h
    obtain ⟨l, m, a, vs, r, h1, h2, rfl⟩ := pr_let h
    simp only [toks, List.cons_append, List.cons.injEq] at h1
    obtain ⟨_, _, _, rfl⟩ := h1
    rw [wt_dropSemi] at hw
    exact ih y u r h2 hs hw hy
  | .unary op r, he, y, u, rest, h, hs, hw, hy => by
    obtain ⟨q, h, h4⟩ := whole_pr h
    rcases tail_let (.unary op r) he 0 q y u rest h hs hw with ⟨_, rfl⟩ | ⟨h, _⟩
    · rcases pr_level h with rfl | h
      · obtain ⟨t, r', h5, h6⟩ := h4
        exact ⟨t, r', h5, by omega⟩
      · cases h
    · exact absurd hy h
  | .binary op l r, he, y, u, rest, h, hs, hw, hy => by
    obtain ⟨q, h, h4⟩ := whole_pr h
    rcases tail_let (.binary op l r) he 0 q y u rest h hs hw with ⟨_, rfl⟩ | ⟨h, _⟩
    · rcases pr_level h with rfl | h
      · obtain ⟨t, r', h5, h6⟩ := h4
        exact ⟨t, r', h5, by omega⟩
      · cases h
    · exact absurd hy h

/-! ## Every part is read back -/

theorem join_head (sep : Token) (f : Expr F) (fs : List (Expr F)) (x : List Token) (hf : Formed f) :
    ∃ z v, joinToks sep (toksList (f :: fs)) ++ x = z :: v ∧ one z.kind = 1 ∧ (StartsTight f ↔ level z.kind ≠ 0) := by
  obtain ⟨z, i, h1, h2, h3⟩ := toks_head f hf
  cases fs with
  | nil => exact ⟨z, i ++ x, by simp [toksList, joinToks, h1], h2, h3⟩
  | cons g gs => exact ⟨z, i ++ sep :: (joinToks sep (toksList (g :: gs)) ++ x), by simp [toksList, joinToks, h1], h2, h3⟩

theorem joinPairs_head (sep : Token) (k v : Expr F) (ps : List (Expr F × Expr F)) (x : List Token) (hf : Formed k) :
    ∃ z w, joinToks sep (toksPairs ((k, v) :: ps)) ++ x = z :: w ∧ one z.kind = 1 := by
  obtain ⟨z, i, h1, h2, h3⟩ := toks_head k hf
  cases ps with
  | nil => exact ⟨z, i ++ (fixTok .Colon :: toks v) ++ x, by simp [toksPairs, joinToks, h1], h2⟩
  | cons g gs =>
    obtain ⟨a, b⟩ := g
    exact ⟨z, i ++ (fixTok .Colon :: toks v) ++ sep :: (joinToks sep (toksPairs ((a, b) :: gs)) ++ x), by simp [toksPairs, joinToks, h1], h2⟩

theorem number_clean {l : Expr F} (h : endsNum l = false) (hc : Clean l) : isNumber l = false := by
  cases l with
  | int i => cases h
  | float f =>
    have h1 : Rt.fdisp f ≠ c!"inf" := by
      intro h2
      have : '.' ∈ Rt.fdisp f := hc.1.2.2
      rw [h2] at this
      exact absurd this (by decide)
    simp [endsNum, h1] at h
  | _ => rfl

/-- The token separates, and nothing was read beyond it. -/
theorem whole_align {p : Nat} {e : Expr F} {y : Token} {u rest : List Token} (h : Whole p (toks e ++ y :: u) e rest) (hs : one y.kind = 1)
    (hw : wt one rest = wt one (y :: u)) : rest = y :: u := by
  obtain ⟨q, h, _⟩ := whole_pr h
  rcases align h (Or.inl hs) hw with h | ⟨h, _⟩
  · exact h
  · rw [h] at hs; cases hs

mutual
theorem only (e : Expr F) (hf : Formed e) (hc : Clean e) (p q : Nat) (y : Token) (u rest : List Token) (h : PR p q (toks e ++ y :: u) e rest)
    (hs : Sep y u) (hw : wt one rest = wt one (y :: u)) : PrintsBack e := by
  match e with
  | .int _ | .bool _ | .str _ | .ident _ => trivial
  | .float f => exact hc
  | .arr es =>
    have ih := onlyList es hf hc
    obtain ⟨l, c, vs, h1, h2, h3⟩ := pr_arr h
    simp only [toks, List.cons_append, List.cons.injEq, List.append_assoc] at h1
    obtain ⟨_, rfl⟩ := h1
    exact ih _ _ _ _ h3 rfl (by simp only [wt, h2, List.nil_append, hw, fixTok_kind])
  | .map ps =>
    have ih := onlyPairs ps hf hc
    obtain ⟨l, c, vs, h1, h2, h3⟩ := pr_map h
    simp only [toks, List.cons_append, List.cons.injEq, List.append_assoc] at h1
    obtain ⟨_, rfl⟩ := h1
    exact ih _ _ _ h3 rfl (by simp only [wt, h2, List.nil_append, hw, fixTok_kind])
  | .index l i =>
    have ih1 := only l hf.1 hc.1
    have ih2 := only i hf.2 hc.2
    obtain ⟨b, c, vs, h1, h2, h3, h4⟩ := pr_index h
    have e1 : toks (.index l i) ++ y :: u = toks l ++ fixTok .Ls :: (toks i ++ fixTok .Rs :: y :: u) := by simp [toks]
    rw [e1] at h1
    have w1 := pr_weight h1
    have w2 := whole_weight h4
    have k1 : one (fixTok .Ls).kind = 1 := rfl
    have k2 : one (fixTok .Rs).kind = 1 := rfl
    have k3 : one b.kind = 1 := by rw [h2]; rfl
    have k4 : one c.kind = 1 := by rw [h3]; rfl
    simp only [wt, wt_append] at w1 w2 hw
    have hw1 : wt one (b :: vs) = wt one (fixTok .Ls :: (toks i ++ fixTok .Rs :: y :: u)) := by simp only [wt, wt_append]; omega
    have hs1 : Sep (fixTok .Ls) (toks i ++ fixTok .Rs :: y :: u) := Or.inl rfl
    have hl : ¬ EndsInLet l := fun hl => by
      rcases tail_let l hl p q _ _ _ h1 hs1 hw1 with ⟨h, _⟩ | ⟨_, _, h⟩
      · cases h
      · cases h
    rcases align h1 hs1 hw1 with h5 | ⟨h5, _⟩
    · simp only [List.cons.injEq] at h5
      obtain ⟨rfl, rfl⟩ := h5
      obtain ⟨q', h5, _⟩ := whole_pr h4
      exact ⟨hl, ih1 p q _ _ _ h1 hs1 hw1, ih2 0 q' _ _ _ h5 (Or.inl rfl) (by simp only [wt]; omega)⟩
    · cases h5
  | .field l n =>
    have ih1 := only l hf.1 hc.2
    obtain ⟨d, m, h1, h2, h3⟩ := pr_field h
    have e1 : toks (.field l n) ++ y :: u = toks l ++ fixTok .Dot :: (⟨.Ident, n⟩ :: y :: u) := by simp [toks]
    rw [e1] at h1
    have hw1 : wt one (d :: m :: rest) = wt one (fixTok .Dot :: (⟨.Ident, n⟩ :: y :: u)) := by
      simp only [wt, h2, h3, hw, fixTok_kind]
    have hs1 : Sep (fixTok .Dot) (⟨.Ident, n⟩ :: y :: u) := Or.inl rfl
    refine ⟨fun hl => ?_, number_clean hc.1 hc.2, ih1 p q _ _ _ h1 hs1 hw1⟩
    rcases tail_let l hl p q _ _ _ h1 hs1 hw1 with ⟨h, _⟩ | ⟨_, _, h⟩
    · cases h
    · cases h
  | .letE n v =>
    have ih := only v hf.2 hc
    obtain ⟨l, m, a, vs, r, h1, h2, rfl⟩ := pr_let h
    simp only [toks, List.cons_append, List.cons.injEq] at h1
    obtain ⟨_, _, _, rfl⟩ := h1
    rw [wt_dropSemi] at hw
    obtain ⟨q', h3, _⟩ := whole_pr h2
    exact ih 0 q' y u r h3 hs hw
  | .unary op r =>
    have ih := only r hf.2 hc
    obtain ⟨vs, h1, h2⟩ := pr_unary h
    simp only [toks, List.cons_append, List.cons.injEq, true_and] at h1
    subst h1
    obtain ⟨q', h3, _⟩ := whole_pr h2
    exact ih _ _ y u rest h3 hs hw
  | .binary op l r =>
    have ih1 := only l hf.2.2.1 hc.1
    have ih2 := only r hf.2.2.2 hc.2
    obtain ⟨vs, h1, h0, h2⟩ := pr_binary h
    have e1 : toks (.binary op l r) ++ y :: u = toks l ++ op :: (toks r ++ y :: u) := by simp [toks]
    rw [e1] at h1
    have w1 := pr_weight h1
    have w2 := whole_weight h2
    have hop : one op.kind = 1 ∧ level op.kind ≠ 0 := by
      revert h0
      cases op.kind <;> simp [tableLevel, one, level]
    simp only [wt, wt_append] at w1 w2 hw
    have hw1 : wt one (op :: vs) = wt one (op :: (toks r ++ y :: u)) := by simp only [wt, wt_append]; omega
    have hs1 : Sep op (toks r ++ y :: u) := Or.inl hop.1
    have hl : ¬ EndsInLet l := fun hl => by
      rcases tail_let l hl p q _ _ _ h1 hs1 hw1 with ⟨h, _⟩ | ⟨_, _, h⟩
      · rw [h] at hop; exact absurd hop.1 (by decide)
      · exact hop.2 h
    rcases align h1 hs1 hw1 with h3 | ⟨h3, _⟩
    · simp only [List.cons.injEq, true_and] at h3
      subst h3
      obtain ⟨q', h3, _⟩ := whole_pr h2
      exact ⟨hl, ih1 p q _ _ _ h1 hs1 hw1, ih2 _ q' _ _ _ h3 hs (by simp only [wt]; omega)⟩
    · rw [h3] at hop; exact absurd hop.1 (by decide)
  | .paren e =>
    have ih := only e hf hc
    obtain ⟨l, c, vs, h1, h2, h3⟩ := pr_paren h
    simp only [toks, List.cons_append, List.cons.injEq, List.append_assoc] at h1
    obtain ⟨_, rfl⟩ := h1
    obtain ⟨q', h4, _⟩ := whole_pr h3
    exact ih _ _ _ _ _ h4 (Or.inl rfl) (by simp only [wt, h2, List.nil_append, hw, fixTok_kind])
  | .ifE c t e =>
    have ih1 := only c hf.1 hc.1
    have ih2 := onlySeq t hf.2.1 hc.2.1
    have ih3 := onlySeq e hf.2.2 hc.2.2
    obtain ⟨i, l, c', b, d, vs, us, h1, h2, h3, h4, h5, h6⟩ := pr_if h
    have k1 : one c'.kind = 1 := by rw [h2]; rfl
    have k2 : one b.kind = 1 := by rw [h3]; rfl
    have k3 : one d.kind = 1 := by rw [h4]; rfl
    have k4 : ∀ k, k ≠ .Semi → k ≠ .Comma → one (fixTok k).kind = 1 := by intro k; rw [fixTok_kind]; cases k <;> simp [one]
    have kp := k4 .Rp (by decide) (by decide)
    have kl := k4 .Lb (by decide) (by decide)
    have kr := k4 .Rb (by decide) (by decide)
    have ke := k4 .Else (by decide) (by decide)
    have w1 := whole_weight h5
    have js := fun (es : List (Expr F)) => wt_join (w := one) (sep := fixTok .Semi) rfl (toksList es)
    cases e with
    | nil =>
      have e1 : toks (.ifE c t []) ++ y :: u = fixTok .If :: fixTok .Lp :: (toks c ++ fixTok .Rp :: (fixTok .Lb :: (joinToks (fixTok .Semi) (toksList t) ++
        fixTok .Rb :: y :: u))) := by simp [toks]
      rw [e1] at h1
      simp only [List.cons.injEq] at h1
      obtain ⟨_, _, rfl⟩ := h1
      simp only [wt, wt_append, js] at w1 hw
      rcases h6 with ⟨_, h6⟩ | ⟨el, b', d', ws, g1, g2, g3, h6, h7⟩
      · have w2 := stmts_weight h6
        simp only [wt] at w2
        have := whole_align h5 kp (by simp only [wt, wt_append, js]; omega)
        simp only [List.cons.injEq] at this
        obtain ⟨rfl, rfl, rfl⟩ := this
        obtain ⟨q', h8, _⟩ := whole_pr h5
        exact ⟨ih1 _ _ _ _ _ h8 (Or.inl kp) rfl, ih2 _ _ _ h6 kr (by simp only [wt]; omega), trivial⟩
      · have w2 := stmts_weight h6
        have w3 := stmts_weight h7
        have k5 : one el.kind = 1 := by rw [g1]; rfl
        have k6 : one d'.kind = 1 := by rw [g3]; rfl
        simp only [wt, toksList, wtAll] at w2 w3
        omega
    | cons a es =>
      have e1 : toks (.ifE c t (a :: es)) ++ y :: u = fixTok .If :: fixTok .Lp :: (toks c ++ fixTok .Rp :: (fixTok .Lb :: (joinToks (fixTok .Semi) (toksList t) ++
        fixTok .Rb :: fixTok .Else :: fixTok .Lb :: (joinToks (fixTok .Semi) (toksList (a :: es)) ++ fixTok .Rb :: y :: u)))) := by simp [toks]
      rw [e1] at h1
      simp only [List.cons.injEq] at h1
      obtain ⟨_, _, rfl⟩ := h1
      simp only [wt, wt_append, js] at w1 hw
      rcases h6 with ⟨h6, _⟩ | ⟨el, b', d', ws, g1, g2, g3, h6, h7⟩
      · cases h6
      · have w2 := stmts_weight h6
        have w3 := stmts_weight h7
        have k5 : one el.kind = 1 := by rw [g1]; rfl
        have k6 : one d'.kind = 1 := by rw [g3]; rfl
        have k7 : one b'.kind = 1 := by rw [g2]; rfl
        simp only [wt] at w2 w3
        have := whole_align h5 kp (by simp only [wt, wt_append, js]; omega)
        simp only [List.cons.injEq] at this
        obtain ⟨rfl, rfl, rfl⟩ := this
        obtain ⟨q', h8, _⟩ := whole_pr h5
        have hb := ih2 _ _ _ h6 kr (by simp only [wt, wt_append, js] at w2 ⊢; omega)
        have := stmts_align t hf.2.1 _ _ _ h6 kr (by simp only [wt, wt_append, js] at w2 ⊢; omega)
        simp only [List.cons.injEq] at this
        obtain ⟨rfl, rfl, rfl, rfl⟩ := this
        exact ⟨ih1 _ _ _ _ _ h8 (Or.inl kp) rfl, hb, ih3 _ _ _ h7 kr (by simp only [wt]; omega)⟩
  | .call f es =>
    have ih := onlyList es hf.2 hc
    obtain ⟨x, b, c, vs, h1, h2, h3, h4, h5⟩ := pr_call h
    simp only [toks, List.cons_append, List.cons.injEq, List.append_assoc] at h1
    obtain ⟨_, _, rfl⟩ := h1
    exact ih _ _ _ _ h5 rfl (by simp only [wt, h4, List.nil_append, hw, fixTok_kind])
termination_by structural e
theorem onlyList (es : List (Expr F)) (hf : FormedAll es) (hc : CleanAll es) (k : Kind) (c : Token) (r rest : List Token)
    (h : Items k (joinToks (fixTok .Comma) (toksList es) ++ c :: r) es rest) (hs : one c.kind = 1) (hw : wt one rest = wt one (c :: r)) :
    PrintsBackAll es := by
  match es with
  | [] => trivial
  | e :: es =>
    have ih1 := only e hf.1 hc.1
    have ih2 := onlyList es hf.2 hc.2
    cases es with
    | nil =>
      have e1 : joinToks (fixTok .Comma) (toksList [e]) ++ c :: r = toks e ++ c :: r := rfl
      rw [e1] at h
      revert h
      generalize hg : toks e ++ _ = g
      intro h
      cases h with
      | last _ c' _ _ r' h1 h2 =>
        subst hg
        obtain ⟨q', h3, _⟩ := whole_pr h2
        exact ⟨ih1 _ _ _ _ _ h3 (Or.inl hs) hw, trivial⟩
      | cons _ c' _ _ _ us _ h1 h2 h3 =>
        subst hg
        cases h3 with
        | nil _ c'' r' _ =>
          obtain ⟨q', h3, _⟩ := whole_pr h2
          refine ⟨ih1 _ _ _ _ _ h3 (Or.inl hs) ?_, trivial⟩
          simp only [wt, h1] at hw ⊢
          simp only [one] at hw ⊢
          omega
    | cons f fs =>
      have e1 : joinToks (fixTok .Comma) (toksList (e :: f :: fs)) ++ c :: r =
        toks e ++ fixTok .Comma :: (joinToks (fixTok .Comma) (toksList (f :: fs)) ++ c :: r) := by simp [toksList, joinToks]
      rw [e1] at h
      revert h
      generalize hg : toks e ++ _ = g
      intro h
      cases h with
      | cons _ c' _ _ _ us _ h1 h2 h3 =>
        subst hg
        obtain ⟨z, v, hz, hz1, _⟩ := join_head (fixTok .Comma) f fs (c :: r) hf.2.1
        have hsep : Sep (fixTok .Comma) (joinToks (fixTok .Comma) (toksList (f :: fs)) ++ c :: r) := Or.inr ⟨z, v, hz, hz1⟩
        have w1 := whole_weight h2
        have w2 := items_weight h3
        have k1 : one (fixTok .Comma).kind = 0 := rfl
        have k2 : one c'.kind = 0 := by rw [h1]; rfl
        have js := wt_join (w := one) (sep := fixTok .Comma) rfl (toksList (f :: fs))
        simp only [wt, wt_append, js] at w1 w2 hw
        obtain ⟨q', h4, _⟩ := whole_pr h2
        have hw1 : wt one (c' :: us) = wt one (fixTok .Comma :: (joinToks (fixTok .Comma) (toksList (f :: fs)) ++ c :: r)) := by
          simp only [wt, wt_append, js]; omega
        rcases align h4 hsep hw1 with h5 | ⟨h5, _⟩
        · simp only [List.cons.injEq] at h5
          obtain ⟨rfl, rfl⟩ := h5
          exact ⟨ih1 _ _ _ _ _ h4 hsep hw1, ih2 _ _ _ _ h3 hs (by simp only [wt]; omega)⟩
        · cases h5
termination_by structural es
theorem onlyPairs (ps : List (Expr F × Expr F)) (hf : FormedPairs ps) (hc : CleanPairs ps) (c : Token) (r rest : List Token)
    (h : Pairs (joinToks (fixTok .Comma) (toksPairs ps) ++ c :: r) ps rest) (hs : one c.kind = 1) (hw : wt one rest = wt one (c :: r)) :
    PrintsBackPairs ps := by
  match ps with
  | [] => trivial
  | (k, v) :: ps =>
    have ih1 := only k hf.1 hc.1
    have ih2 := only v hf.2.1 hc.2.1
    have ih3 := onlyPairs ps hf.2.2 hc.2.2
    have kc : one (fixTok .Colon).kind = 1 := rfl
    cases ps with
    | nil =>
      have e1 : joinToks (fixTok .Comma) (toksPairs [(k, v)]) ++ c :: r = toks k ++ fixTok .Colon :: (toks v ++ c :: r) := by
        simp [toksPairs, joinToks]
      rw [e1] at h
      revert h
      generalize hg : toks k ++ _ = g
      intro h
      cases h with
      | last m c' _ _ _ us r' h1 h2 h3 h4 =>
        subst hg
        have w1 := whole_weight h3
        have w2 := whole_weight h4
        have k1 : one m.kind = 1 := by rw [h1]; rfl
        simp only [wt, wt_append] at w1 w2 hw
        have := whole_align h3 kc (by simp only [wt, wt_append]; omega)
        simp only [List.cons.injEq] at this
        obtain ⟨rfl, rfl⟩ := this
        obtain ⟨q1, h5, _⟩ := whole_pr h3
        obtain ⟨q2, h6, _⟩ := whole_pr h4
        exact ⟨ih1 _ _ _ _ _ h5 (Or.inl kc) rfl, ih2 _ _ _ _ _ h6 (Or.inl hs) (by simp only [wt]; omega), trivial⟩
      | cons m c' _ _ _ _ us vs _ h1 h2 h3 h4 h5 =>
        subst hg
        cases h5 with
        | nil c'' r' _ =>
          have w1 := whole_weight h3
          have w2 := whole_weight h4
          have k1 : one m.kind = 1 := by rw [h1]; rfl
          have k2 : one c'.kind = 0 := by rw [h2]; rfl
          simp only [wt, wt_append] at w1 w2 hw
          have := whole_align h3 kc (by simp only [wt, wt_append]; omega)
          simp only [List.cons.injEq] at this
          obtain ⟨rfl, rfl⟩ := this
          obtain ⟨q1, h5, _⟩ := whole_pr h3
          obtain ⟨q2, h6, _⟩ := whole_pr h4
          exact ⟨ih1 _ _ _ _ _ h5 (Or.inl kc) rfl, ih2 _ _ _ _ _ h6 (Or.inl hs) (by simp only [wt]; omega), trivial⟩
    | cons f fs =>
      obtain ⟨k2, v2⟩ := f
      have e1 : joinToks (fixTok .Comma) (toksPairs ((k, v) :: (k2, v2) :: fs)) ++ c :: r =
        toks k ++ fixTok .Colon :: (toks v ++ fixTok .Comma :: (joinToks (fixTok .Comma) (toksPairs ((k2, v2) :: fs)) ++ c :: r)) := by
        simp [toksPairs, joinToks]
      rw [e1] at h
      revert h
      generalize hg : toks k ++ _ = g
      intro h
      cases h with
      | cons m c' _ _ _ _ us vs _ h1 h2 h3 h4 h5 =>
        subst hg
        obtain ⟨z, w, hz, hz1⟩ := joinPairs_head (fixTok .Comma) k2 v2 fs (c :: r) hf.2.2.1
        have hsep : Sep (fixTok .Comma) (joinToks (fixTok .Comma) (toksPairs ((k2, v2) :: fs)) ++ c :: r) := Or.inr ⟨z, w, hz, hz1⟩
        have w1 := whole_weight h3
        have w2 := whole_weight h4
        have w3 := pairs_weight h5
        have k1 : one m.kind = 1 := by rw [h1]; rfl
        have k2' : one c'.kind = 0 := by rw [h2]; rfl
        have k3 : one (fixTok .Comma).kind = 0 := rfl
        have js := wt_join (w := one) (sep := fixTok .Comma) rfl (toksPairs ((k2, v2) :: fs))
        simp only [wt, wt_append, js] at w1 w2 w3 hw
        have := whole_align h3 kc (by simp only [wt, wt_append, js]; omega)
        simp only [List.cons.injEq] at this
        obtain ⟨rfl, rfl⟩ := this
        simp only [wt, wt_append, js] at w2
        obtain ⟨q1, h6, _⟩ := whole_pr h3
        obtain ⟨q2, h7, _⟩ := whole_pr h4
        have hw1 : wt one (c' :: vs) = wt one (fixTok .Comma :: (joinToks (fixTok .Comma) (toksPairs ((k2, v2) :: fs)) ++ c :: r)) := by
          simp only [wt, wt_append, js]; omega
        rcases align h7 hsep hw1 with h8 | ⟨h8, _⟩
        · simp only [List.cons.injEq] at h8
          obtain ⟨rfl, rfl⟩ := h8
          exact ⟨ih1 _ _ _ _ _ h6 (Or.inl kc) rfl, ih2 _ _ _ _ _ h7 hsep hw1, ih3 _ _ _ h5 hs (by simp only [wt]; omega)⟩
        · cases h8
termination_by structural ps
theorem onlySeq (es : List (Expr F)) (hf : FormedAll es) (hc : CleanAll es) (c : Token) (r rest : List Token)
    (h : Stmts (joinToks (fixTok .Semi) (toksList es) ++ c :: r) es rest) (hs : one c.kind = 1) (hw : wt one rest = wt one (c :: r)) :
    PrintsBackSeq es := by
  match es with
  | [] => trivial
  | e :: es =>
    have ih1 := only e hf.1 hc.1
    have ih2 := onlySeq es hf.2 hc.2
    revert h
    generalize hg : joinToks (fixTok .Semi) (toksList (e :: es)) ++ _ = g
    intro h
    cases h with
    | cons _ _ _ us _ h2 h3 =>
      subst hg
      have w1 := whole_weight h2
      have w2 := stmts_weight h3
      rw [wt_dropSemi] at w2
      obtain ⟨q', h4, _⟩ := whole_pr h2
      cases es with
      | nil =>
        have e1 : joinToks (fixTok .Semi) (toksList [e]) ++ c :: r = toks e ++ c :: r := rfl
        rw [e1] at h2 h4 w1
        refine ⟨ih1 _ _ _ _ _ h4 (Or.inl hs) ?_, (fun _ _ h => nomatch h), trivial⟩
        simp only [wt, wt_append, toksList, wtAll] at w1 w2 hw ⊢
        omega
      | cons f fs =>
        have e1 : joinToks (fixTok .Semi) (toksList (e :: f :: fs)) ++ c :: r =
          toks e ++ fixTok .Semi :: (joinToks (fixTok .Semi) (toksList (f :: fs)) ++ c :: r) := by simp [toksList, joinToks]
        rw [e1] at h2 h4 w1
        obtain ⟨z, v, hz, hz1, hz2⟩ := join_head (fixTok .Semi) f fs (c :: r) hf.2.1
        have hsep : Sep (fixTok .Semi) (joinToks (fixTok .Semi) (toksList (f :: fs)) ++ c :: r) := Or.inr ⟨z, v, hz, hz1⟩
        have k1 : one (fixTok .Semi).kind = 0 := rfl
        have js := wt_join (w := one) (sep := fixTok .Semi) rfl (toksList (f :: fs))
        simp only [wt, wt_append, js] at w1 w2 hw
        have hw1 : wt one us = wt one (fixTok .Semi :: (joinToks (fixTok .Semi) (toksList (f :: fs)) ++ c :: r)) := by
          simp only [wt, wt_append, js]; omega
        have hd : dropSemi us = joinToks (fixTok .Semi) (toksList (f :: fs)) ++ c :: r := by
          rcases align h4 hsep hw1 with h5 | ⟨_, h5, _⟩
          · rw [h5]; simp [dropSemi, fixTok]
          · rw [h5]; exact hsep.dropSemi rfl
        rw [hd] at h3
        refine ⟨ih1 _ _ _ _ _ h4 hsep hw1, fun f' fs' hx ht => ?_, ih2 _ _ _ h3 hs (by simp only [wt]; omega)⟩
        cases hx
        obtain ⟨t, r', h5, h6⟩ := let_tail e ht _ _ _ h2 hsep hw1 rfl
        rw [hz] at h5
        cases h5
        rw [hz2]
        exact fun h => h h6
termination_by structural es
theorem stmts_align (es : List (Expr F)) (hf : FormedAll es) (c : Token) (r rest : List Token)
    (h : Stmts (joinToks (fixTok .Semi) (toksList es) ++ c :: r) es rest) (hs : one c.kind = 1) (hw : wt one rest = wt one (c :: r)) :
    rest = c :: r := by
  match es with
  | [] =>
    cases h with
    | nil c r _ => rfl
  | e :: es =>
    have ih2 := stmts_align es hf.2
    revert h
    generalize hg : joinToks (fixTok .Semi) (toksList (e :: es)) ++ _ = g
    intro h
    cases h with
    | cons _ _ _ us _ h2 h3 =>
      subst hg
      have w1 := whole_weight h2
      have w2 := stmts_weight h3
      rw [wt_dropSemi] at w2
      obtain ⟨q', h4, _⟩ := whole_pr h2
      cases es with
      | nil =>
        have e1 : joinToks (fixTok .Semi) (toksList [e]) ++ c :: r = toks e ++ c :: r := rfl
        rw [e1] at h2 h4 w1
        have := whole_align h2 hs (by simp only [wt, wt_append, toksList, wtAll] at w1 w2 hw ⊢; omega)
        subst this
        have hne : c.kind ≠ .Semi := by intro h; rw [h] at hs; cases hs
        simp only [dropSemi, if_neg hne] at h3
        cases h3
        rfl
      | cons f fs =>
        have e1 : joinToks (fixTok .Semi) (toksList (e :: f :: fs)) ++ c :: r =
          toks e ++ fixTok .Semi :: (joinToks (fixTok .Semi) (toksList (f :: fs)) ++ c :: r) := by simp [toksList, joinToks]
        rw [e1] at h2 h4 w1
        obtain ⟨z, v, hz, hz1, hz2⟩ := join_head (fixTok .Semi) f fs (c :: r) hf.2.1
        have hsep : Sep (fixTok .Semi) (joinToks (fixTok .Semi) (toksList (f :: fs)) ++ c :: r) := Or.inr ⟨z, v, hz, hz1⟩
        have k1 : one (fixTok .Semi).kind = 0 := rfl
        have js := wt_join (w := one) (sep := fixTok .Semi) rfl (toksList (f :: fs))
        simp only [wt, wt_append, js] at w1 w2 hw
        have hw1 : wt one us = wt one (fixTok .Semi :: (joinToks (fixTok .Semi) (toksList (f :: fs)) ++ c :: r)) := by
          simp only [wt, wt_append, js]; omega
        have hd : dropSemi us = joinToks (fixTok .Semi) (toksList (f :: fs)) ++ c :: r := by
          rcases align h4 hsep hw1 with h5 | ⟨_, h5, _⟩
          · rw [h5]; simp [dropSemi, fixTok]
          · rw [h5]; exact hsep.dropSemi rfl
        rw [hd] at h3
        exact ih2 _ _ _ h3 hs (by simp only [wt]; omega)
termination_by structural es
end

end Am
