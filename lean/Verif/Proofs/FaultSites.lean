import Verif.Proofs.Faults
/-!
# What stands before a misfit

Derivations only look at the tokens they read and at the kind of the next one (`whole_swap` and the others). So what stands before a token
that does not fit can be completed to a program (`Viable`), and nothing that goes on with that token can (`Hopeless`).
-/
set_option linter.unusedSimpArgs false
set_option linter.unusedSectionVars false
namespace Am
open Spec
variable {F : Type} [Rt F]

/-- A token at which every expression ends, other than a semicolon or `else`. -/
def Shuts (ts : List Token) : Prop := ∃ t r, ts = t :: r ∧ level t.kind = 0 ∧ t.kind ≠ .Semi ∧ t.kind ≠ .Else

/-- The same kind of token comes first. -/
def AlikeKind (ts us : List Token) : Prop := ∃ t t' r r', ts = t :: r ∧ us = t' :: r' ∧ t'.kind = t.kind

/-- What came before `ts` can be followed by `us`. -/
def Trails (ts us : List Token) : Prop := AlikeKind ts us ∨ Shuts us

/-- Where `ts` begins an expression `us` can. -/
def Opens (ts us : List Token) : Prop := AlikeKind ts us ∨ ∃ t r, us = t :: r ∧ t.kind = .Ident

theorem alikeKind_cons (t : Token) (r r' : List Token) : AlikeKind (t :: r) (t :: r') := ⟨t, t, r, r', rfl, rfl, rfl⟩

theorem shuts_of {t : Token} (r : List Token) {k : Kind} (h : t.kind = k) (h1 : level k = 0) (h2 : k ≠ .Semi) (h3 : k ≠ .Else) :
    Shuts (t :: r) := ⟨t, r, rfl, by rw [h]; exact h1, by rw [h]; exact h2, by rw [h]; exact h3⟩

theorem Opens.fits {ts us : List Token} (h : Opens ts us) : Trails ts us := by
  rcases h with h | ⟨t, r, rfl, h⟩
  · exact Or.inl h
  · exact Or.inr (shuts_of r h rfl (by decide) (by decide))

theorem Trails.append {ts us : List Token} (h : Trails ts us) (pre : List Token) : Trails (pre ++ ts) (pre ++ us) := by
  cases pre with
  | nil => exact h
  | cons t r => exact Or.inl (alikeKind_cons t _ _)

theorem Trails.notNext {k : Kind} {ts us : List Token} (h : Trails ts us) (hk : k = .Else ∨ level k ≠ 0) (hn : NotNext k ts) : NotNext k us := by
  rcases h with ⟨t, t', r, r', rfl, rfl, h⟩ | ⟨t, r, rfl, h1, h2, h3⟩
  · obtain ⟨t2, r2, h4, h5⟩ := hn
    cases h4
    exact ⟨_, _, rfl, by rw [h]; exact h5⟩
  · refine ⟨_, _, rfl, ?_⟩
    rintro rfl
    rcases hk with hk | hk
    · exact h3 hk
    · exact hk h1

theorem Trails.ends {q : Nat} {ts us : List Token} (h : Trails ts us) (he : Ends q ts) : Ends q us := by
  rcases h with ⟨t, t', r, r', rfl, rfl, h⟩ | ⟨t, r, rfl, h1, h2, h3⟩
  · obtain ⟨t2, r2, h4, h5⟩ := he
    cases h4
    exact ⟨_, _, rfl, by rw [h]; exact h5⟩
  · exact ⟨_, _, rfl, by omega⟩

theorem Shuts.ends {ts : List Token} (h : Shuts ts) (q : Nat) : Ends q ts := by
  obtain ⟨t, r, rfl, h1, _⟩ := h
  exact ⟨t, r, rfl, by omega⟩

theorem Shuts.dropSemi {ts : List Token} (h : Shuts ts) : dropSemi ts = ts := by
  obtain ⟨t, r, rfl, _, h1, _⟩ := h
  simp [Spec.dropSemi, h1]

theorem Shuts.notElse {ts : List Token} (h : Shuts ts) : NotNext .Else ts := by
  obtain ⟨t, r, rfl, _, _, h1⟩ := h
  exact ⟨t, r, rfl, h1⟩

/-- An optional semicolon can be followed by other tokens. -/
theorem dropSemi_sep (us : List Token) : ∃ sep, us = sep ++ dropSemi us ∧ ∀ rest', Trails (dropSemi us) rest' →
    dropSemi (sep ++ rest') = rest' ∧ Trails us (sep ++ rest') := by
  cases us with
  | nil =>
    refine ⟨[], rfl, fun rest' hf => ?_⟩
    rcases hf with ⟨t, t', r, r', h1, _⟩ | hs
    · cases h1
    · exact ⟨hs.dropSemi, Or.inr hs⟩
  | cons t r =>
    by_cases ht : t.kind = .Semi
    · exact ⟨[t], by simp [dropSemi, ht], fun rest' _ => ⟨by simp [dropSemi, ht], Or.inl (alikeKind_cons _ _ _)⟩⟩
    · have hd : dropSemi (t :: r) = t :: r := by simp [dropSemi, ht]
      rw [hd]
      refine ⟨[], rfl, fun rest' hf => ⟨?_, hf⟩⟩
      rcases hf with ⟨t1, t2, r1, r2, h1, rfl, h2⟩ | hs
      · cases h1
        simp only [dropSemi, List.nil_append, h2, if_neg ht]
      · exact hs.dropSemi

mutual
theorem primary_swap {p q : Nat} {ts rest : List Token} {e : Expr F} (h : Primary p ts e q rest) :
    ∃ t0 pre, ts = t0 :: (pre ++ rest) ∧ ∀ rest', Trails rest rest' → Primary p (t0 :: (pre ++ rest')) e q rest' := by
  match h with
  | .ident _ t r hk => exact ⟨t, [], rfl, fun r' _ => .ident _ t r' hk⟩
  | .int _ t i r hk hi => exact ⟨t, [], rfl, fun r' _ => .int _ t i r' hk hi⟩
  | .float _ t i r hk hi => exact ⟨t, [], rfl, fun r' _ => .float _ t i r' hk hi⟩
  | .bool _ t b r hk hb => exact ⟨t, [], rfl, fun r' _ => .bool _ t b r' hk hb⟩
  | .str _ t r hk => exact ⟨t, [], rfl, fun r' _ => .str _ t r' hk⟩
  | .letE _ l n a e ts r hl hn ha hw =>
    obtain ⟨t0, pre, h1, h2⟩ := whole_swap hw
    obtain ⟨sep, h3, h4⟩ := dropSemi_sep r
    refine ⟨l, n :: a :: t0 :: (pre ++ sep), by simp only [List.cons_append, List.append_assoc]; rw [← h3, h1], fun r' hf => ?_⟩
    obtain ⟨h5, h6⟩ := h4 r' hf
    have := Primary.letE p l n a e _ _ hl hn ha (h2 _ h6)
    rw [h5] at this
    simpa using this
  | .unary _ t e ts r hk hw =>
    obtain ⟨t0, pre, h1, h2⟩ := whole_swap hw
    exact ⟨t, t0 :: pre, by rw [h1]; rfl, fun r' hf => .unary _ t e _ _ hk (h2 r' hf)⟩
  | .paren _ l d e ts r hl hd hw =>
    obtain ⟨t0, pre, h1, h2⟩ := whole_swap hw
    refine ⟨l, t0 :: pre ++ [d], by rw [h1]; simp, fun r' hf => ?_⟩
    have := Primary.paren p l d e _ r' hl hd (h2 (d :: r') (Or.inl (alikeKind_cons _ _ _)))
    simpa using this
  | .ifThen _ i l c b d e es ts us r hi hl hc hb hd hw hs hnn =>
    obtain ⟨t0, pre, h1, h2⟩ := whole_swap hw
    obtain ⟨pre2, h3, h4⟩ := stmts_swap hs
    refine ⟨i, l :: t0 :: pre ++ c :: b :: pre2 ++ [d], by rw [h1, h3]; simp, fun r' hf => ?_⟩
    have := Primary.ifThen p i l c b d e es _ _ r' hi hl hc hb hd (h2 (c :: b :: (pre2 ++ d :: r')) (Or.inl (alikeKind_cons _ _ _))) (h4 d r' hd)
      (hf.notNext (Or.inl rfl) hnn)
    simpa using this
  | .ifElse _ i l c b d el b' d' e es es' ts us vs r hi hl hc hb hd hel hb' hd' hw hs hs' =>
    obtain ⟨t0, pre, h1, h2⟩ := whole_swap hw
    obtain ⟨pre2, h3, h4⟩ := stmts_swap hs
    obtain ⟨pre3, h5, h6⟩ := stmts_swap hs'
    refine ⟨i, l :: t0 :: pre ++ c :: b :: pre2 ++ d :: el :: b' :: pre3 ++ [d'], by rw [h1, h3, h5]; simp, fun r' hf => ?_⟩
    have := Primary.ifElse p i l c b d el b' d' e es es' _ _ _ r' hi hl hc hb hd hel hb' hd'
      (h2 (c :: b :: (pre2 ++ d :: el :: b' :: (pre3 ++ d' :: r'))) (Or.inl (alikeKind_cons _ _ _))) (h4 d _ hd) (h6 d' r' hd')
    simpa using this
  | .arr _ l c es ts r hl hc hi =>
    obtain ⟨pre, h1, h2⟩ := items_swap (Or.inr rfl) hi
    refine ⟨l, pre ++ [c], by rw [h1]; simp, fun r' hf => ?_⟩
    have := Primary.arr p l c es _ r' hl hc (h2 c r' hc)
    simpa using this
  | .map _ l c ps ts r hl hc hi =>
    obtain ⟨pre, h1, h2⟩ := pairs_swap hi
    refine ⟨l, pre ++ [c], by rw [h1]; simp, fun r' hf => ?_⟩
    have := Primary.map p l c ps _ r' hl hc (h2 c r' hc)
    simpa using this
theorem extends_swap {q : Nat} {l e : Expr F} {ts rest : List Token} (h : Extends q l ts e rest) :
    ∃ pre, ts = pre ++ rest ∧ ∀ rest', Trails rest rest' → Extends q l (pre ++ rest') e rest' := by
  match h with
  | .nil _ _ _ => exact ⟨[], rfl, fun r' _ => .nil _ _ _⟩
  | .binary _ op l r e ts us rest hq hw hx =>
    obtain ⟨t0, pre, h1, h2⟩ := whole_swap hw
    obtain ⟨pre2, h3, h4⟩ := extends_swap hx
    refine ⟨op :: t0 :: pre ++ pre2, by rw [h1, h3]; simp, fun r' hf => ?_⟩
    have := Extends.binary q op l r e _ _ r' hq (h2 (pre2 ++ r') (by rw [h3]; exact hf.append pre2)) (h4 r' hf)
    simpa using this
  | .call _ b d f es e ts us rest hq hb hd hi hx =>
    obtain ⟨pre, h1, h2⟩ := items_swap (Or.inl rfl) hi
    obtain ⟨pre2, h3, h4⟩ := extends_swap hx
    refine ⟨b :: pre ++ d :: pre2, by rw [h1, h3]; simp, fun r' hf => ?_⟩
    have := Extends.call q b d f es e _ _ r' hq hb hd (h2 d (pre2 ++ r') hd) (h4 r' hf)
    simpa using this
  | .index _ b d l i e ts us rest hq hb hd hw hx =>
    obtain ⟨t0, pre, h1, h2⟩ := whole_swap hw
    obtain ⟨pre2, h3, h4⟩ := extends_swap hx
    refine ⟨b :: t0 :: pre ++ d :: pre2, by rw [h1, h3]; simp, fun r' hf => ?_⟩
    have := Extends.index q b d l i e _ _ r' hq hb hd (h2 (d :: (pre2 ++ r')) (Or.inl (alikeKind_cons _ _ _))) (h4 r' hf)
    simpa using this
  | .field _ d nm l e ts rest hq hd hn hx =>
    obtain ⟨pre2, h3, h4⟩ := extends_swap hx
    refine ⟨d :: nm :: pre2, by rw [h3]; simp, fun r' hf => ?_⟩
    have := Extends.field q d nm l e _ r' hq hd hn (h4 r' hf)
    simpa using this
theorem whole_swap {p : Nat} {ts rest : List Token} {e : Expr F} (h : Whole p ts e rest) :
    ∃ t0 pre, ts = t0 :: (pre ++ rest) ∧ ∀ rest', Trails rest rest' → Whole p (t0 :: (pre ++ rest')) e rest' := by
  match h with
  | .mk _ q l _ _ us _ ho hx hend =>
    obtain ⟨t0, pre, h1, h2⟩ := primary_swap ho
    obtain ⟨pre2, h3, h4⟩ := extends_swap hx
    refine ⟨t0, pre ++ pre2, by rw [h1, h3]; simp, fun r' hf => ?_⟩
    have := Whole.mk p q l e _ _ r' (h2 (pre2 ++ r') (by rw [h3]; exact hf.append pre2)) (h4 r' hf) (hf.ends hend)
    simpa using this
theorem items_swap {k : Kind} (hk : Closing k) {ts rest : List Token} {es : List (Expr F)} (h : Items k ts es rest) :
    ∃ pre, ts = pre ++ rest ∧ ∀ c r', c.kind = k → Items k (pre ++ c :: r') es (c :: r') := by
  match h with
  | .nil _ c r hc => exact ⟨[], rfl, fun c' r' hc' => .nil _ c' r' hc'⟩
  | .last _ c e _ r hc hw =>
    obtain ⟨t0, pre, h1, h2⟩ := whole_swap hw
    exact ⟨t0 :: pre, h1, fun c' r' hc' => .last _ c' e _ r' hc' (h2 _ (Or.inl ⟨c, c', r, r', rfl, rfl, by rw [hc, hc']⟩))⟩
  | .cons _ c e es _ us _ hc hw hi =>
    obtain ⟨t0, pre, h1, h2⟩ := whole_swap hw
    obtain ⟨pre2, h3, h4⟩ := items_swap hk hi
    refine ⟨t0 :: pre ++ c :: pre2, by rw [h1, h3]; simp, fun c' r' hc' => ?_⟩
    have := Items.cons k c e es _ _ _ hc (h2 (c :: (pre2 ++ c' :: r')) (Or.inl (alikeKind_cons _ _ _))) (h4 c' r' hc')
    simpa using this
theorem pairs_swap {ts rest : List Token} {ps : List (Expr F × Expr F)} (h : Pairs ts ps rest) :
    ∃ pre, ts = pre ++ rest ∧ ∀ c r', c.kind = .Rb → Pairs (pre ++ c :: r') ps (c :: r') := by
  match h with
  | .nil c r hc => exact ⟨[], rfl, fun c' r' hc' => .nil c' r' hc'⟩
  | .last d c k v _ us r hd hc hwk hwv =>
    obtain ⟨t0, pre, h1, h2⟩ := whole_swap hwk
    obtain ⟨t1, pre2, h3, h4⟩ := whole_swap hwv
    refine ⟨t0 :: pre ++ d :: t1 :: pre2, by rw [h1, h3]; simp, fun c' r' hc' => ?_⟩
    have := Pairs.last d c' k v _ _ r' hd hc' (h2 (d :: t1 :: (pre2 ++ c' :: r')) (Or.inl (alikeKind_cons _ _ _)))
      (h4 (c' :: r') (Or.inl ⟨c, c', r, r', rfl, rfl, by rw [hc, hc']⟩))
    simpa using this
  | .cons d c k v ps _ us vs _ hd hc hwk hwv hp =>
    obtain ⟨t0, pre, h1, h2⟩ := whole_swap hwk
    obtain ⟨t1, pre2, h3, h4⟩ := whole_swap hwv
    obtain ⟨pre3, h5, h6⟩ := pairs_swap hp
    refine ⟨t0 :: pre ++ d :: t1 :: pre2 ++ c :: pre3, by rw [h1, h3, h5]; simp, fun c' r' hc' => ?_⟩
    have := Pairs.cons d c k v ps _ _ _ _ hd hc (h2 (d :: t1 :: (pre2 ++ c :: (pre3 ++ c' :: r'))) (Or.inl (alikeKind_cons _ _ _)))
      (h4 (c :: (pre3 ++ c' :: r')) (Or.inl (alikeKind_cons _ _ _))) (h6 c' r' hc')
    simpa using this
theorem stmts_swap {ts rest : List Token} {es : List (Expr F)} (h : Stmts ts es rest) :
    ∃ pre, ts = pre ++ rest ∧ ∀ c r', c.kind = .Rb → Stmts (pre ++ c :: r') es (c :: r') := by
  match h with
  | .nil c r hc => exact ⟨[], rfl, fun c' r' hc' => .nil c' r' hc'⟩
  | .cons e es _ us _ hw hs =>
    obtain ⟨t0, pre, h1, h2⟩ := whole_swap hw
    obtain ⟨pre2, h3, h4⟩ := stmts_swap hs
    obtain ⟨c, r, hr, hc⟩ := stmts_close hs
    obtain ⟨sep, h5, h6⟩ := dropSemi_sep us
    refine ⟨t0 :: pre ++ sep ++ pre2, by rw [h1]; simp only [List.cons_append, List.append_assoc]; rw [← h3, ← h5], fun c' r' hc' => ?_⟩
    have hf : Trails (dropSemi us) (pre2 ++ c' :: r') := by
      rw [h3, hr]
      exact Trails.append (Or.inl ⟨c, c', r, r', rfl, rfl, by rw [hc, hc']⟩) pre2
    obtain ⟨h7, h8⟩ := h6 _ hf
    have := Stmts.cons e es _ _ (c' :: r') (h2 _ h8) (by rw [h7]; exact h4 c' r' hc')
    simpa using this
end


theorem Opens.notNext {k : Kind} {ts us : List Token} (h : Opens ts us) (hk : k ≠ .Ident) (hn : NotNext k ts) : NotNext k us := by
  rcases h with ⟨t, t', r, r', rfl, rfl, h⟩ | ⟨t, r, rfl, h⟩
  · obtain ⟨t2, r2, h4, h5⟩ := hn
    cases h4
    exact ⟨_, _, rfl, by rw [h]; exact h5⟩
  · exact ⟨_, _, rfl, by rw [h]; exact hk.symm⟩

theorem shuts_rb {c : Token} (h : c.kind = .Rb) (r : List Token) : Shuts (c :: r) := shuts_of r h rfl (by decide) (by decide)
theorem shuts_rp {c : Token} (h : c.kind = .Rp) (r : List Token) : Shuts (c :: r) := shuts_of r h rfl (by decide) (by decide)
theorem shuts_rs {c : Token} (h : c.kind = .Rs) (r : List Token) : Shuts (c :: r) := shuts_of r h rfl (by decide) (by decide)
theorem shuts_colon {c : Token} (h : c.kind = .Colon) (r : List Token) : Shuts (c :: r) := shuts_of r h rfl (by decide) (by decide)
theorem shuts_closing {k : Kind} (hk : Closing k) {c : Token} (h : c.kind = k) (r : List Token) : Shuts (c :: r) := by
  rcases hk with rfl | rfl
  · exact shuts_rp h r
  · exact shuts_rs h r

/-! ## Completions -/

theorem inStmts_plug {ts us : List Token} (h : InStmts F ts us) : ∃ pre, ts = pre ++ us ∧
    (∀ us', Opens us us' → InStmts F (pre ++ us') us') ∧
    ∀ us' (e : Expr F) c r, Opens us us' → c.kind = .Rb → Whole 0 us' e (c :: r) → ∃ es : List (Expr F), Stmts (pre ++ us') es (c :: r) := by
  induction h with
  | here ts hn =>
    refine ⟨[], rfl, fun us' ho => .here _ (ho.notNext (by decide) hn), fun us' e c r ho hc hw => ⟨[e], ?_⟩⟩
    exact .cons e [] _ _ _ hw (by rw [(shuts_rb hc r).dropSemi]; exact .nil c r hc)
  | next e ts us vs hw _ ih =>
    obtain ⟨t0, pre, h1, h2⟩ := whole_swap hw
    obtain ⟨pre2, h3, h4, h5⟩ := ih
    obtain ⟨sep, h6, h7⟩ := dropSemi_sep us
    refine ⟨t0 :: pre ++ sep ++ pre2, by rw [h1]; simp only [List.cons_append, List.append_assoc]; rw [← h3, ← h6], fun us' ho => ?_,
      fun us' e' c r ho hc hw' => ?_⟩
    · obtain ⟨h8, h9⟩ := h7 (pre2 ++ us') (by rw [h3]; exact ho.fits.append pre2)
      have := InStmts.next e _ _ _ (h2 _ h9) (by rw [h8]; exact h4 us' ho)
      simpa using this
    · obtain ⟨h8, h9⟩ := h7 (pre2 ++ us') (by rw [h3]; exact ho.fits.append pre2)
      obtain ⟨es, hs⟩ := h5 us' e' c r ho hc hw'
      have := Stmts.cons e es _ _ _ (h2 _ h9) (by rw [h8]; exact hs)
      exact ⟨_, by simpa using this⟩

theorem inItems_plug {k : Kind} (hk : Closing k) {ts us : List Token} (h : InItems F k ts us) : ∃ pre, ts = pre ++ us ∧
    (∀ us', Opens us us' → InItems F k (pre ++ us') us') ∧
    ∀ us' (e : Expr F) c r, Opens us us' → c.kind = k → Whole 0 us' e (c :: r) → ∃ es : List (Expr F), Items k (pre ++ us') es (c :: r) := by
  induction h with
  | here ts hn =>
    exact ⟨[], rfl, fun us' ho => .here _ (ho.notNext (by rcases hk with rfl | rfl <;> decide) hn),
      fun us' e c r ho hc hw => ⟨[e], .last _ c e _ r hc hw⟩⟩
  | next d e ts us vs hd hw _ ih =>
    obtain ⟨t0, pre, h1, h2⟩ := whole_swap hw
    obtain ⟨pre2, h3, h4, h5⟩ := ih
    refine ⟨t0 :: pre ++ d :: pre2, by rw [h1, h3]; simp, fun us' ho => ?_, fun us' e' c r ho hc hw' => ?_⟩
    · have := InItems.next d e _ _ _ hd (h2 (d :: (pre2 ++ us')) (Or.inl (alikeKind_cons _ _ _))) (h4 us' ho)
      simpa using this
    · obtain ⟨es, hs⟩ := h5 us' e' c r ho hc hw'
      have := Items.cons k d e es _ _ _ hd (h2 (d :: (pre2 ++ us')) (Or.inl (alikeKind_cons _ _ _))) hs
      exact ⟨_, by simpa using this⟩

/-- The name `x`. -/
def xTok : Token := ⟨.Ident, c!"x"⟩
def colonTok : Token := ⟨.Colon, c!":"⟩
def rbTok : Token := ⟨.Rb, c!"}"⟩
def lbTok : Token := ⟨.Lb, c!"{"⟩
def rpTok : Token := ⟨.Rp, c!")"⟩
def lpTok : Token := ⟨.Lp, c!"("⟩
def rsTok : Token := ⟨.Rs, c!"]"⟩
def assignTok : Token := ⟨.Assign, c!"="⟩
def templateTok : Token := ⟨.Template, []⟩

theorem whole_x (p : Nat) {rest : List Token} (h : Shuts rest) : Whole p (xTok :: rest) (.ident c!"x" : Expr F) rest :=
  .mk p p _ _ _ _ _ (.ident p xTok rest rfl) (.nil _ _ _) (h.ends p)

theorem opens_x (ts rest : List Token) : Opens ts (xTok :: rest) := Or.inr ⟨_, _, rfl, rfl⟩

theorem inPairs_plug {ts us : List Token} (h : InPairs F ts us) : ∃ pre suf, ts = pre ++ us ∧ (∀ r, Shuts (suf ++ rbTok :: r)) ∧
    (∀ us', Opens us us' → InPairs F (pre ++ us') us') ∧
    ∀ us' (e : Expr F) r, Opens us us' → Whole 0 us' e (suf ++ rbTok :: r) →
      ∃ ps : List (Expr F × Expr F), Pairs (pre ++ us') ps (rbTok :: r) := by
  induction h with
  | key ts hn =>
    refine ⟨[], [colonTok, xTok], rfl, fun r => shuts_colon rfl _, fun us' ho => .key _ (ho.notNext (by decide) hn),
      fun us' e r ho hw => ⟨[(e, .ident c!"x")], ?_⟩⟩
    exact .last colonTok rbTok e _ _ _ r rfl rfl hw (whole_x 0 (shuts_rb rfl r))
  | value d k ts us hd hw =>
    obtain ⟨t0, pre, h1, h2⟩ := whole_swap hw
    refine ⟨t0 :: pre ++ [d], [], by rw [h1]; simp, fun r => shuts_rb rfl r, fun us' ho => ?_, fun us' e r ho hw' => ?_⟩
    · have := InPairs.value d k _ us' hd (h2 (d :: us') (Or.inl (alikeKind_cons _ _ _)))
      simpa using this
    · have := Pairs.last d rbTok k e _ us' r hd rfl (h2 (d :: us') (Or.inl (alikeKind_cons _ _ _))) hw'
      exact ⟨_, by simpa using this⟩
  | next d c k v ts us vs ws hd hc hwk hwv _ ih =>
    obtain ⟨t0, pre, h1, h2⟩ := whole_swap hwk
    obtain ⟨t1, pre2, h3, h4⟩ := whole_swap hwv
    obtain ⟨pre3, suf, h5, h6, h7, h8⟩ := ih
    refine ⟨t0 :: pre ++ d :: t1 :: pre2 ++ c :: pre3, suf, by rw [h1, h3, h5]; simp, h6, fun us' ho => ?_, fun us' e r ho hw' => ?_⟩
    · have := InPairs.next d c k v _ _ _ _ hd hc (h2 (d :: t1 :: (pre2 ++ c :: (pre3 ++ us'))) (Or.inl (alikeKind_cons _ _ _)))
        (h4 (c :: (pre3 ++ us')) (Or.inl (alikeKind_cons _ _ _))) (h7 us' ho)
      simpa using this
    · obtain ⟨ps, hp⟩ := h8 us' e r ho hw'
      have := Pairs.cons d c k v ps _ _ _ _ hd hc (h2 (d :: t1 :: (pre2 ++ c :: (pre3 ++ us'))) (Or.inl (alikeKind_cons _ _ _)))
        (h4 (c :: (pre3 ++ us')) (Or.inl (alikeKind_cons _ _ _))) hp
      exact ⟨_, by simpa using this⟩

theorem extends_trans {q : Nat} {l m e : Expr F} {ts us vs : List Token} (h : Extends q l ts m us) (h' : Extends q m us e vs) :
    Extends q l ts e vs := by
  match h with
  | .nil _ _ _ => exact h'
  | .binary _ op l r e ts us rest hq hw hx => exact .binary _ op l r _ _ _ _ hq hw (extends_trans hx h')
  | .call _ b d f es e ts us rest hq hb hd hi hx => exact .call _ b d f es _ _ _ _ hq hb hd hi (extends_trans hx h')
  | .index _ b d l i e ts us rest hq hb hd hw hx => exact .index _ b d l i _ _ _ _ hq hb hd hw (extends_trans hx h')
  | .field _ d nm l e ts rest hq hd hn hx => exact .field _ d nm l _ _ _ hq hd hn (extends_trans hx h')

theorem faultItems_plug {k : Kind} (hk : Closing k) {ts at' : List Token} {why : Fault F} (h : FaultItems k ts why at') :
    ∃ pre t r, at' = t :: r ∧ ts = pre ++ t :: r ∧ (∀ r', FaultItems k (pre ++ t :: r') why (t :: r')) ∧
      ∀ c r', c.kind = k → ∃ es : List (Expr F), Items k (pre ++ c :: r') es (c :: r') := by
  induction h with
  | comma d e ts r hw hd1 hd2 =>
    obtain ⟨t0, pre, h1, h2⟩ := whole_swap hw
    refine ⟨t0 :: pre, d, r, rfl, h1, fun r' => .comma d e _ r' (h2 _ (Or.inl (alikeKind_cons _ _ _))) hd1 hd2, fun c r' hc => ⟨[e], ?_⟩⟩
    exact .last _ c e _ r' hc (h2 _ (Or.inr (shuts_closing hk hc r')))
  | next d e ts us at' why hd hw _ ih =>
    obtain ⟨t0, pre, h1, h2⟩ := whole_swap hw
    obtain ⟨pre2, t, r, h3, h4, h5, h6⟩ := ih
    refine ⟨t0 :: pre ++ d :: pre2, t, r, h3, by rw [h1, h4]; simp, fun r' => ?_, fun c r' hc => ?_⟩
    · have := FaultItems.next d e _ _ _ _ hd (h2 (d :: (pre2 ++ t :: r')) (Or.inl (alikeKind_cons _ _ _))) (h5 r')
      simpa using this
    · obtain ⟨es, hs⟩ := h6 c r' hc
      have := Items.cons k d e es _ _ _ hd (h2 (d :: (pre2 ++ c :: r')) (Or.inl (alikeKind_cons _ _ _))) hs
      exact ⟨_, by simpa using this⟩

theorem faultPairs_plug {ts at' : List Token} {why : Fault F} (h : FaultPairs ts why at') :
    ∃ pre suf t r, at' = t :: r ∧ ts = pre ++ t :: r ∧ (∀ r', FaultPairs (pre ++ t :: r') why (t :: r')) ∧
      ∀ r', ∃ ps : List (Expr F × Expr F), Pairs (pre ++ suf ++ rbTok :: r') ps (rbTok :: r') := by
  induction h with
  | colon d k ts r hw hd =>
    obtain ⟨t0, pre, h1, h2⟩ := whole_swap hw
    refine ⟨t0 :: pre, [colonTok, xTok], d, r, rfl, h1, fun r' => .colon d k _ r' (h2 _ (Or.inl (alikeKind_cons _ _ _))) hd,
      fun r' => ⟨[(k, .ident c!"x")], ?_⟩⟩
    have := Pairs.last colonTok rbTok k _ _ _ r' rfl rfl (h2 (colonTok :: xTok :: rbTok :: r') (Or.inr (shuts_colon rfl _)))
      (whole_x (F := F) 0 (shuts_rb rfl r'))
    simpa using this
  | comma d c k v ts us r hd hwk hwv hc1 hc2 =>
    obtain ⟨t0, pre, h1, h2⟩ := whole_swap hwk
    obtain ⟨t1, pre2, h3, h4⟩ := whole_swap hwv
    refine ⟨t0 :: pre ++ d :: t1 :: pre2, [], c, r, rfl, by rw [h1, h3]; simp, fun r' => ?_, fun r' => ⟨[(k, v)], ?_⟩⟩
    · have := FaultPairs.comma d c k v _ _ r' hd (h2 (d :: t1 :: (pre2 ++ c :: r')) (Or.inl (alikeKind_cons _ _ _)))
        (h4 (c :: r') (Or.inl (alikeKind_cons _ _ _))) hc1 hc2
      simpa using this
    · have := Pairs.last d rbTok k v _ _ r' hd rfl (h2 (d :: t1 :: (pre2 ++ rbTok :: r')) (Or.inl (alikeKind_cons _ _ _)))
        (h4 (rbTok :: r') (Or.inr (shuts_rb rfl r')))
      simpa using this
  | next d c k v ts us vs at' why hd hc hwk hwv _ ih =>
    obtain ⟨t0, pre, h1, h2⟩ := whole_swap hwk
    obtain ⟨t1, pre2, h3, h4⟩ := whole_swap hwv
    obtain ⟨pre3, suf, t, r, h5, h6, h7, h8⟩ := ih
    refine ⟨t0 :: pre ++ d :: t1 :: pre2 ++ c :: pre3, suf, t, r, h5, by rw [h1, h3, h6]; simp, fun r' => ?_, fun r' => ?_⟩
    · have := FaultPairs.next d c k v _ _ _ _ _ hd hc (h2 (d :: t1 :: (pre2 ++ c :: (pre3 ++ t :: r'))) (Or.inl (alikeKind_cons _ _ _)))
        (h4 (c :: (pre3 ++ t :: r')) (Or.inl (alikeKind_cons _ _ _))) (h7 r')
      simpa using this
    · obtain ⟨ps, hp⟩ := h8 r'
      have := Pairs.cons d c k v ps _ _ _ _ hd hc
        (h2 (d :: t1 :: (pre2 ++ c :: (pre3 ++ suf ++ rbTok :: r'))) (Or.inl (alikeKind_cons _ _ _)))
        (h4 (c :: (pre3 ++ suf ++ rbTok :: r')) (Or.inl (alikeKind_cons _ _ _))) hp
      exact ⟨_, by simpa using this⟩

/-! ## Where an expression stops being one -/

variable (F) in
/-- `pre` can be completed to an expression that fits where `ts` does. -/
def Viable (p : Nat) (ts pre : List Token) : Prop :=
  ∃ suf, ∀ rest, Shuts rest → Opens ts (pre ++ (suf ++ rest)) ∧ ∃ e : Expr F, Whole p (pre ++ (suf ++ rest)) e rest

variable (F) in
/-- No expression begins with `pre` and `t`. -/
def Hopeless (p : Nat) (pre : List Token) (t : Token) : Prop := ∀ r, Fails F (fun _ => True) p (pre ++ t :: r)

variable (F) in
/-- The first token of `ts` that does not fit is the first one of `at'`, or a parenthesis before it. -/
def Site (p : Nat) (ts at' : List Token) : Prop :=
  ∃ pre t r, ts = pre ++ t :: r ∧ at' <:+ t :: r ∧ (at' = t :: r ∨ t.kind = .Lp) ∧ Viable F p ts pre ∧ Hopeless F p pre t

theorem Fails.weaken {K : Fail → Prop} {p : Nat} {ts : List Token} (h : Fails F K p ts) : Fails F (fun _ => True) p ts := by
  intro c
  obtain ⟨N, hN⟩ := h c
  refine ⟨N, fun n hn => ?_⟩
  obtain ⟨f, _, hf⟩ := hN n hn
  exact ⟨f, trivial, hf⟩

theorem opens_split {us pre : List Token} {t : Token} {r : List Token} (h : us = pre ++ t :: r) (r' : List Token) : Opens us (pre ++ t :: r') := by
  subst h
  cases pre with
  | nil => exact Or.inl (alikeKind_cons _ _ _)
  | cons t0 pre => exact Or.inl (alikeKind_cons _ _ _)

theorem opens_cons (t0 : Token) (us us' : List Token) : Opens (t0 :: us) (t0 :: us') := Or.inl (alikeKind_cons _ _ _)

/-- The misfit is here. -/
theorem site_here {p : Nat} {t0 : Token} {pre : List Token} {t : Token} {r : List Token} {why : Fault F}
    (hf : ∀ r', Faulty p (t0 :: (pre ++ t :: r')) why (t :: r')) (suf : List Token)
    (hv : ∀ rest, Shuts rest → ∃ e : Expr F, Whole p (t0 :: (pre ++ (suf ++ rest))) e rest) :
    Site F p (t0 :: (pre ++ t :: r)) (t :: r) :=
  ⟨t0 :: pre, t, r, rfl, List.suffix_refl _, Or.inl rfl, ⟨suf, fun rest hr => ⟨opens_cons _ _ _, hv rest hr⟩⟩,
    fun r' => (faulty_fails (hf r')).weaken⟩

/-- The misfit is the first token. -/
theorem site_first {p : Nat} {t : Token} {r : List Token} {why : Fault F} (hf : ∀ r', Faulty p (t :: r') why (t :: r')) :
    Site F p (t :: r) (t :: r) :=
  ⟨[], t, r, rfl, List.suffix_refl _, Or.inl rfl, ⟨[xTok], fun rest hr => ⟨opens_x _ _, _, whole_x p hr⟩⟩,
    fun r' => (faulty_fails (hf r')).weaken⟩

theorem site_inside {p q : Nat} {t0 : Token} {pre0 us at' : List Token} (suf : List Token)
    (hsuf : ∀ rest, Shuts rest → Shuts (suf ++ rest))
    (hin : ∀ us', Opens us us' → Inside F p (t0 :: (pre0 ++ us')) q us')
    (hplug : ∀ us' (e : Expr F) rest, Opens us us' → Shuts rest → Whole q us' e (suf ++ rest) →
      ∃ e' : Expr F, Whole p (t0 :: (pre0 ++ us')) e' rest)
    (h : Site F q us at') : Site F p (t0 :: (pre0 ++ us)) at' := by
  obtain ⟨pre, t, r, h1, h2, h3, ⟨suf', hv⟩, hh⟩ := h
  refine ⟨t0 :: (pre0 ++ pre), t, r, by rw [h1]; simp, h2, h3, ⟨suf' ++ suf, fun rest hr => ?_⟩, fun r' => ?_⟩
  · obtain ⟨ho, e, hw⟩ := hv _ (hsuf rest hr)
    obtain ⟨e', hw'⟩ := hplug _ e rest ho hr hw
    exact ⟨opens_cons _ _ _, e', by simpa using hw'⟩
  · have := inside_fails (hin _ (opens_split h1 r')) (hh r')
    simpa using this

/-- A parenthesis after an operand that is not a name: whatever follows, there is no expression. -/
theorem call_fails {p q : Nat} {b : Token} {l e : Expr F} {ts us vs : List Token} (ho : Primary p ts l q us)
    (hx : Extends q l us e (b :: vs)) (hq : q < 12) (hb : b.kind = .Lp) (he : ∀ f, e ≠ .ident f) : Fails F (fun _ => True) p ts :=
  fails_extends ho hx fun c => ⟨1, fun n m _ hm => by
    obtain ⟨m, rfl⟩ : ∃ j, m = j + 1 := ⟨m - 1, by omega⟩
    rw [loop_call hq hb]
    simp only [parseCall]
    cases hl : parseList (parseExpr (F := F) n) m .Rp ⟨b, vs⟩ with
    | ok a =>
      refine ⟨.err (c!"parse call expr error: " ++ e.display), trivial, ?_⟩
      simp only [Res.ok_bind]
      cases e <;> first | exact (he _ rfl).elim | rfl
    | err m => exact ⟨.err m, trivial, rfl⟩
    | panic => exact ⟨.panic, trivial, rfl⟩
    | hang => exact ⟨.hang, trivial, rfl⟩⟩

/-- A parenthesis after an operand that is not a name. -/
theorem site_call {p q : Nat} {b : Token} {l e : Expr F} {ts us vs at' : List Token} (ho : Primary p ts l q us)
    (hx : Extends q l us e (b :: vs)) (hq : q < 12) (hb : b.kind = .Lp) (he : ∀ f, e ≠ .ident f) (ha : at' <:+ vs) : Site F p ts at' := by
  obtain ⟨t0, pre, h1, h2⟩ := primary_swap ho
  obtain ⟨pre2, h3, h4⟩ := extends_swap hx
  refine ⟨t0 :: (pre ++ pre2), b, vs, by rw [h1, h3]; simp, ha.trans (List.suffix_cons b vs), Or.inr hb, ⟨[], fun rest hr => ?_⟩,
    fun r' => ?_⟩
  · refine ⟨by rw [h1]; exact opens_cons _ _ _, e, ?_⟩
    have := Whole.mk p q l e _ _ rest (h2 (pre2 ++ rest) (by rw [h3]; exact Trails.append (Or.inr hr) pre2)) (h4 rest (Or.inr hr)) (hr.ends q)
    simpa using this
  · have hf : Trails (b :: vs) (b :: r') := Or.inl (alikeKind_cons _ _ _)
    have hp := h2 (pre2 ++ b :: r') (by rw [h3]; exact hf.append pre2)
    have := call_fails hp (h4 _ hf) hq hb he
    simpa using this

theorem Site.suffix {p : Nat} {ts at' : List Token} (h : Site F p ts at') : at' <:+ ts := by
  obtain ⟨pre, t, r, rfl, h2, _⟩ := h
  exact h2.trans (List.suffix_append pre _)

theorem whole_of {p q : Nat} {l e : Expr F} {ts us rest : List Token} (ho : Primary p ts l q us) (hx : Extends q l us e rest) (hr : Shuts rest) :
    Whole p ts e rest := .mk p q l e ts us rest ho hx (hr.ends q)

/-- The operand with nothing behind it. -/
theorem whole_operand {p q : Nat} {l : Expr F} {ts rest : List Token} (ho : Primary p ts l q rest) (hr : Shuts rest) : Whole p ts l rest :=
  whole_of ho (.nil _ _ _) hr

theorem prefix_swap {p q : Nat} {b : Token} {l e : Expr F} {ts us vs : List Token} (ho : Primary p ts l q us) (hx : Extends q l us e (b :: vs)) :
    ∃ t0 pre, ts = t0 :: (pre ++ b :: vs) ∧ ∀ vs', ∃ us', Primary p (t0 :: (pre ++ b :: vs')) l q us' ∧ Extends q l us' e (b :: vs') := by
  obtain ⟨t0, pre, h1, h2⟩ := primary_swap ho
  obtain ⟨pre2, h3, h4⟩ := extends_swap hx
  refine ⟨t0, pre ++ pre2, by rw [h1, h3]; simp, fun vs' => ⟨pre2 ++ b :: vs', ?_, ?_⟩⟩
  · have hf : Trails (b :: vs) (b :: vs') := Or.inl (alikeKind_cons _ _ _)
    have := h2 (pre2 ++ b :: vs') (by rw [h3]; exact hf.append pre2)
    simpa using this
  · exact h4 _ (Or.inl (alikeKind_cons _ _ _))

theorem inside_site {p q : Nat} {ts us at' : List Token} (h : Inside F p ts q us) (hs : Site F q us at') : Site F p ts at' := by
  match h with
  | .letE _ l nm a _ hl hn ha =>
    refine site_inside (t0 := l) (pre0 := [nm, a]) [] (fun _ h => h) (fun us' _ => .letE _ l nm a us' hl hn ha) (fun us' e rest _ hr hw => ?_) hs
    have hp := Primary.letE p l nm a e _ _ hl hn ha hw
    rw [List.nil_append, hr.dropSemi] at hp
    exact ⟨_, whole_operand hp hr⟩
  | .unary _ t _ hk =>
    refine site_inside (t0 := t) (pre0 := []) [] (fun _ h => h) (fun us' _ => .unary _ t us' hk) (fun us' e rest _ hr hw => ?_) hs
    exact ⟨_, whole_operand (.unary p t e _ _ hk hw) hr⟩
  | .paren _ t _ hk =>
    refine site_inside (t0 := t) (pre0 := []) [rpTok] (fun _ _ => shuts_rp rfl _) (fun us' _ => .paren _ t us' hk) (fun us' e rest _ hr hw => ?_) hs
    exact ⟨_, whole_operand (.paren p t rpTok e _ _ hk rfl hw) hr⟩
  | .cond _ i l _ hi hl =>
    refine site_inside (t0 := i) (pre0 := [l]) [rpTok, lbTok, rbTok] (fun _ _ => shuts_rp rfl _) (fun us' _ => .cond _ i l us' hi hl)
      (fun us' e rest _ hr hw => ?_) hs
    exact ⟨_, whole_operand (.ifThen p i l rpTok lbTok rbTok e [] _ _ rest hi hl rfl rfl rfl hw (.nil rbTok rest rfl) hr.notElse) hr⟩
  | .thenE _ i l c b e ts us' _ hi hl hc hb hw hin =>
    obtain ⟨t0, pre, h1, h2⟩ := whole_swap hw
    obtain ⟨pre2, h3, h4, h5⟩ := inStmts_plug hin
    have := site_inside (p := p) (t0 := i) (pre0 := l :: t0 :: pre ++ c :: b :: pre2) [rbTok] (fun _ _ => shuts_rb rfl _)
      (fun us' ho => by
        have := Inside.thenE p i l c b e _ _ _ hi hl hc hb (h2 (c :: b :: (pre2 ++ us')) (Or.inl (alikeKind_cons _ _ _))) (h4 us' ho)
        simpa using this)
      (fun us' e' rest ho hr hw' => by
        obtain ⟨es, hst⟩ := h5 us' e' rbTok rest ho rfl hw'
        have := Primary.ifThen p i l c b rbTok e es _ _ rest hi hl hc hb rfl
          (h2 (c :: b :: (pre2 ++ us')) (Or.inl (alikeKind_cons _ _ _))) hst hr.notElse
        exact ⟨_, by simpa using whole_operand this hr⟩) hs
    rw [h1, h3]
    simpa using this
  | .elseE _ i l c b d el b' e es ts us' vs _ hi hl hc hb hd hel hb' hw hst hin =>
    obtain ⟨t0, pre, h1, h2⟩ := whole_swap hw
    obtain ⟨pre2, h3, h4⟩ := stmts_swap hst
    obtain ⟨pre3, h5, h6, h7⟩ := inStmts_plug hin
    have := site_inside (p := p) (t0 := i) (pre0 := l :: t0 :: pre ++ c :: b :: pre2 ++ d :: el :: b' :: pre3) [rbTok] (fun _ _ => shuts_rb rfl _)
      (fun us' ho => by
        have := Inside.elseE p i l c b d el b' e es _ _ _ _ hi hl hc hb hd hel hb'
          (h2 (c :: b :: (pre2 ++ d :: el :: b' :: (pre3 ++ us'))) (Or.inl (alikeKind_cons _ _ _))) (h4 d _ hd) (h6 us' ho)
        simpa using this)
      (fun us' e' rest ho hr hw' => by
        obtain ⟨es', hst'⟩ := h7 us' e' rbTok rest ho rfl hw'
        have := Primary.ifElse p i l c b d el b' rbTok e es es' _ _ _ rest hi hl hc hb hd hel hb' rfl
          (h2 (c :: b :: (pre2 ++ d :: el :: b' :: (pre3 ++ us'))) (Or.inl (alikeKind_cons _ _ _))) (h4 d _ hd) hst'
        exact ⟨_, by simpa using whole_operand this hr⟩) hs
    rw [h1, h3, h5]
    simpa using this
  | .arr _ l ts _ hl hin =>
    obtain ⟨pre, h1, h2, h3⟩ := inItems_plug (Or.inr rfl) hin
    rw [h1]
    refine site_inside (t0 := l) (pre0 := pre) [rsTok] (fun _ _ => shuts_rs rfl _) (fun us' ho => .arr _ l _ us' hl (h2 us' ho))
      (fun us' e rest ho hr hw => ?_) hs
    obtain ⟨es, hi⟩ := h3 us' e rsTok rest ho rfl hw
    exact ⟨_, whole_operand (.arr p l rsTok es _ _ hl rfl hi) hr⟩
  | .map _ l ts _ hl hin =>
    obtain ⟨pre, suf, h1, h2, h3, h4⟩ := inPairs_plug hin
    rw [h1]
    refine site_inside (t0 := l) (pre0 := pre) (suf ++ [rbTok]) (fun _ _ => by simpa using h2 _) (fun us' ho => .map _ l _ us' hl (h3 us' ho))
      (fun us' e rest ho hr hw => ?_) hs
    obtain ⟨ps, hp⟩ := h4 us' e rest ho (by simpa using hw)
    exact ⟨_, whole_operand (.map p l rbTok ps _ _ hl rfl hp) hr⟩
  | .right _ q op l e _ us' vs ho hx hq =>
    obtain ⟨t0, pre, h1, h2⟩ := prefix_swap ho hx
    have := site_inside (p := p) (t0 := t0) (pre0 := pre ++ [op]) [] (fun _ h => h)
      (fun vs' _ => by
        obtain ⟨us', hp, hx'⟩ := h2 vs'
        have := Inside.right p q op l e _ _ _ hp hx' hq
        simpa using this)
      (fun vs' e' rest _ hr hw => by
        obtain ⟨us', hp, hx'⟩ := h2 vs'
        have := whole_of hp (extends_trans hx' (.binary q op e e' _ _ _ _ hq hw (.nil _ _ _))) hr
        exact ⟨_, by simpa using this⟩) hs
    rw [h1]
    simpa using this
  | .arg _ q b l e _ us' vs _ ho hx hq hb hin =>
    obtain ⟨pre2, h3, h4, h5⟩ := inItems_plug (Or.inl rfl) hin
    by_cases he : ∃ f, e = .ident f
    · obtain ⟨f, rfl⟩ := he
      obtain ⟨t0, pre, h1, h2⟩ := prefix_swap ho hx
      have := site_inside (p := p) (t0 := t0) (pre0 := pre ++ b :: pre2) [rpTok] (fun _ _ => shuts_rp rfl _)
        (fun ws' how => by
          obtain ⟨us', hp, hx'⟩ := h2 (pre2 ++ ws')
          have := Inside.arg p q b l _ _ _ _ _ hp hx' hq hb (h4 ws' how)
          simpa using this)
        (fun ws' e' rest how hr hw => by
          obtain ⟨us', hp, hx'⟩ := h2 (pre2 ++ ws')
          obtain ⟨es, hi⟩ := h5 ws' e' rpTok rest how rfl hw
          have := whole_of hp (extends_trans hx' (.call q b rpTok f es _ _ _ _ hq hb rfl hi (.nil _ _ _))) hr
          exact ⟨_, by simpa using this⟩) hs
      rw [h1, h3]
      simpa using this
    · refine site_call ho hx hq hb (fun f hf => he ⟨f, hf⟩) (hs.suffix.trans ?_)
      rw [h3]
      exact List.suffix_append _ _
  | .index _ q b l e _ us' vs ho hx hq hb =>
    obtain ⟨t0, pre, h1, h2⟩ := prefix_swap ho hx
    have := site_inside (p := p) (t0 := t0) (pre0 := pre ++ [b]) [rsTok] (fun _ _ => shuts_rs rfl _)
      (fun vs' _ => by
        obtain ⟨us', hp, hx'⟩ := h2 vs'
        have := Inside.index p q b l e _ _ _ hp hx' hq hb
        simpa using this)
      (fun vs' e' rest _ hr hw => by
        obtain ⟨us', hp, hx'⟩ := h2 vs'
        have := whole_of hp (extends_trans hx' (.index q b rsTok e e' _ _ _ _ hq hb rfl hw (.nil _ _ _))) hr
        exact ⟨_, by simpa using this⟩) hs
    rw [h1]
    simpa using this

theorem faulty_site {p : Nat} {ts at' : List Token} {why : Fault F} (h : Faulty p ts why at') : Site F p ts at' := by
  induction h with
  | operand p t r ht => exact site_first fun r' => .operand p t r' ht
  | integer p t r hk hi => exact site_first fun r' => .integer p t r' hk hi
  | float p t r hk hi => exact site_first fun r' => .float p t r' hk hi
  | boolean p t r hk hb => exact site_first fun r' => .boolean p t r' hk hb
  | letName p l nm r hl hn =>
    refine site_here (pre := []) (fun r' => .letName p l nm r' hl hn) [xTok, assignTok, xTok] fun rest hr => ?_
    have hp := Primary.letE p l xTok assignTok _ _ _ hl rfl rfl (whole_x (F := F) 0 hr)
    rw [hr.dropSemi] at hp
    exact ⟨_, whole_operand hp hr⟩
  | letAssign p l nm a r hl hn ha =>
    refine site_here (pre := [nm]) (fun r' => .letAssign p l nm a r' hl hn ha) [assignTok, xTok] fun rest hr => ?_
    have hp := Primary.letE p l nm assignTok _ _ _ hl hn rfl (whole_x (F := F) 0 hr)
    rw [hr.dropSemi] at hp
    exact ⟨_, whole_operand hp hr⟩
  | paren p l c e ts r hl hw hc =>
    obtain ⟨t0, pre, h1, h2⟩ := whole_swap hw
    rw [h1]
    refine site_here (pre := t0 :: pre) (fun r' => .paren p l c e _ r' hl (h2 (c :: r') (Or.inl (alikeKind_cons _ _ _))) hc) [rpTok]
      fun rest hr => ?_
    exact ⟨_, whole_operand (.paren p l rpTok e _ rest hl rfl (h2 _ (Or.inr (shuts_rp rfl rest)))) hr⟩
  | ifOpen p i l r hi hl =>
    refine site_here (pre := []) (fun r' => .ifOpen p i l r' hi hl) [lpTok, xTok, rpTok, lbTok, rbTok] fun rest hr => ?_
    exact ⟨_, whole_operand (.ifThen p i lpTok rpTok lbTok rbTok _ [] _ _ rest hi rfl rfl rfl rfl
      (whole_x (F := F) 0 (shuts_rp rfl _)) (.nil rbTok rest rfl) hr.notElse) hr⟩
  | ifClose p i l c e ts r hi hl hw hc =>
    obtain ⟨t0, pre, h1, h2⟩ := whole_swap hw
    rw [h1]
    refine site_here (pre := l :: t0 :: pre) (fun r' => .ifClose p i l c e _ r' hi hl (h2 (c :: r') (Or.inl (alikeKind_cons _ _ _))) hc)
      [rpTok, lbTok, rbTok] fun rest hr => ?_
    exact ⟨_, whole_operand (.ifThen p i l rpTok lbTok rbTok e [] _ _ rest hi hl rfl rfl rfl
      (h2 _ (Or.inr (shuts_rp rfl _))) (.nil rbTok rest rfl) hr.notElse) hr⟩
  | thenOpen p i l c b e ts r hi hl hc hw hb =>
    obtain ⟨t0, pre, h1, h2⟩ := whole_swap hw
    rw [h1]
    have := site_here (p := p) (t0 := i) (pre := l :: t0 :: pre ++ [c]) (t := b) (r := r)
      (fun r' => by
        have := Faulty.thenOpen p i l c b e _ r' hi hl hc (h2 (c :: b :: r') (Or.inl (alikeKind_cons _ _ _))) hb
        simpa using this) [lbTok, rbTok]
      (fun rest hr => by
        have := Primary.ifThen p i l c lbTok rbTok e [] _ _ rest hi hl hc rfl rfl
          (h2 (c :: lbTok :: rbTok :: rest) (Or.inl (alikeKind_cons _ _ _))) (.nil rbTok rest rfl) hr.notElse
        exact ⟨_, by simpa using whole_operand this hr⟩)
    simpa using this
  | elseOpen p i l c b d el b' e es ts us r hi hl hc hb hd hel hw hst hb' =>
    obtain ⟨t0, pre, h1, h2⟩ := whole_swap hw
    obtain ⟨pre2, h3, h4⟩ := stmts_swap hst
    rw [h1, h3]
    have := site_here (p := p) (t0 := i) (pre := l :: t0 :: pre ++ c :: b :: pre2 ++ [d, el]) (t := b') (r := r)
      (fun r' => by
        have := Faulty.elseOpen p i l c b d el b' e es _ _ r' hi hl hc hb hd hel
          (h2 (c :: b :: (pre2 ++ d :: el :: b' :: r')) (Or.inl (alikeKind_cons _ _ _))) (h4 d _ hd) hb'
        simpa using this) [lbTok, rbTok]
      (fun rest hr => by
        have := Primary.ifElse p i l c b d el lbTok rbTok e es [] _ _ _ rest hi hl hc hb hd hel rfl rfl
          (h2 (c :: b :: (pre2 ++ d :: el :: lbTok :: rbTok :: rest)) (Or.inl (alikeKind_cons _ _ _))) (h4 d _ hd) (.nil rbTok rest rfl)
        exact ⟨_, by simpa using whole_operand this hr⟩)
    simpa using this
  | arr p l ts at' why hl hi =>
    obtain ⟨pre, t, r, rfl, h1, h2, h3⟩ := faultItems_plug (Or.inr rfl) hi
    rw [h1]
    refine site_here (pre := pre) (fun r' => .arr p l _ _ why hl (h2 r')) [rsTok] fun rest hr => ?_
    obtain ⟨es, hi'⟩ := h3 rsTok rest rfl
    exact ⟨_, whole_operand (.arr p l rsTok es _ rest hl rfl hi') hr⟩
  | map p l ts at' why hl hi =>
    obtain ⟨pre, suf, t, r, rfl, h1, h2, h3⟩ := faultPairs_plug hi
    rw [h1]
    refine site_here (pre := pre) (fun r' => .map p l _ _ why hl (h2 r')) (suf ++ [rbTok]) fun rest hr => ?_
    obtain ⟨ps, hp⟩ := h3 rest
    exact ⟨_, whole_operand (.map p l rbTok ps _ rest hl rfl (by simpa using hp)) hr⟩
  | field p q d nm l e ts us r ho hx hq hd hn =>
    obtain ⟨t0, pre, h1, h2⟩ := prefix_swap ho hx
    rw [h1]
    have := site_here (p := p) (t0 := t0) (pre := pre ++ [d]) (t := nm) (r := r)
      (fun r' => by
        obtain ⟨us', hp, hx'⟩ := h2 (nm :: r')
        have := Faulty.field p q d nm l e _ _ r' hp hx' hq hd hn
        simpa using this) [xTok]
      (fun rest hr => by
        obtain ⟨us', hp, hx'⟩ := h2 (xTok :: rest)
        have := whole_of hp (extends_trans hx' (.field q d xTok e _ _ _ hq hd rfl (.nil _ _ _))) hr
        exact ⟨_, by simpa using this⟩)
    simpa using this
  | index p q b c l e i ts us vs r ho hx hq hb hw hc =>
    obtain ⟨t0, pre, h1, h2⟩ := prefix_swap ho hx
    obtain ⟨t1, pre2, h3, h4⟩ := whole_swap hw
    rw [h1, h3]
    have := site_here (p := p) (t0 := t0) (pre := pre ++ b :: t1 :: pre2) (t := c) (r := r)
      (fun r' => by
        obtain ⟨us', hp, hx'⟩ := h2 (t1 :: (pre2 ++ c :: r'))
        have := Faulty.index p q b c l e i _ _ _ r' hp hx' hq hb (h4 (c :: r') (Or.inl (alikeKind_cons _ _ _))) hc
        simpa using this) [rsTok]
      (fun rest hr => by
        obtain ⟨us', hp, hx'⟩ := h2 (t1 :: (pre2 ++ rsTok :: rest))
        have := whole_of hp (extends_trans hx' (.index q b rsTok e i _ _ _ _ hq hb rfl (h4 _ (Or.inr (shuts_rs rfl rest))) (.nil _ _ _))) hr
        exact ⟨_, by simpa using this⟩)
    simpa using this
  | arg p q b l e ts us vs at' why ho hx hq hb hi =>
    obtain ⟨pre2, t, r, rfl, h3, h4, h5⟩ := faultItems_plug (Or.inl rfl) hi
    by_cases he : ∃ f, e = .ident f
    · obtain ⟨f, rfl⟩ := he
      obtain ⟨t0, pre, h1, h2⟩ := prefix_swap ho hx
      rw [h1, h3]
      have := site_here (p := p) (t0 := t0) (pre := pre ++ b :: pre2) (t := t) (r := r)
        (fun r' => by
          obtain ⟨us', hp, hx'⟩ := h2 (pre2 ++ t :: r')
          have := Faulty.arg p q b l _ _ _ _ _ why hp hx' hq hb (h4 r')
          simpa using this) [rpTok]
        (fun rest hr => by
          obtain ⟨us', hp, hx'⟩ := h2 (pre2 ++ rpTok :: rest)
          obtain ⟨es, hi'⟩ := h5 rpTok rest rfl
          have := whole_of hp (extends_trans hx' (.call q b rpTok f es _ _ _ _ hq hb rfl hi' (.nil _ _ _))) hr
          exact ⟨_, by simpa using this⟩)
      simpa using this
    · refine site_call ho hx hq hb (fun f hf => he ⟨f, hf⟩) ?_
      rw [h3]
      exact List.suffix_append _ _
  | callee p q b c l e es ts us vs r ho hx hq hb hi he =>
    obtain ⟨pre2, h3, _⟩ := items_swap (Or.inl rfl) hi
    refine site_call ho hx hq hb he ?_
    rw [h3]
    exact List.suffix_append _ _
  | inside p q ts us at' why hi _ ih => exact inside_site hi ih

/-! ## Programs -/

theorem oneItem_swap {ts us : List Token} {i : Item F} (h : OneItem ts i us) :
    ∃ t0 pre, ts = t0 :: (pre ++ us) ∧ ∀ us', Trails us us' → OneItem (t0 :: (pre ++ us')) i us' := by
  match h with
  | .expr e _ _ hw =>
    obtain ⟨t0, pre, h1, h2⟩ := whole_swap hw
    exact ⟨t0, pre, h1, fun us' hf => .expr e _ _ (h2 us' hf)⟩
  | .request q n m _ hq hn hm hnn => exact ⟨q, [n, m], rfl, fun us' hf => .request q n m us' hq hn hm (hf.notNext (Or.inr (by decide)) hnn)⟩
  | .asserts q n m b c es ts _ hq hn hm hb hc hi =>
    obtain ⟨pre, h1, h2⟩ := items_swap (Or.inr rfl) hi
    refine ⟨q, n :: m :: b :: pre ++ [c], by rw [h1]; simp, fun us' hf => ?_⟩
    have := OneItem.asserts q n m b c es _ us' hq hn hm hb hc (h2 c us' hc)
    simpa using this
  | .test q n b c es ts _ hq hn hb hc hs =>
    obtain ⟨pre, h1, h2⟩ := stmts_swap hs
    refine ⟨q, n :: b :: pre ++ [c], by rw [h1]; simp, fun us' hf => ?_⟩
    have := OneItem.test q n b c es _ us' hq hn hb hc (h2 c us' hc)
    simpa using this

variable (F) in
/-- The first token of `ts` that does not fit is the first one of `at'`, or a parenthesis before it. -/
def TopSite (ts at' : List Token) : Prop :=
  ∃ pre t r, ts = pre ++ t :: r ∧ at' <:+ t :: r ∧ (at' = t :: r ∨ t.kind = .Lp) ∧
    (∃ suf, Opens ts (pre ++ suf) ∧ ∃ is : List (Item F), Program (pre ++ suf) is) ∧ ∀ r', FailsTop F (fun _ => True) (pre ++ t :: r')

theorem FailsTop.weaken {K : Fail → Prop} {ts : List Token} (h : FailsTop F K ts) : FailsTop F (fun _ => True) ts := by
  intro src c
  obtain ⟨N, hN⟩ := h src c
  refine ⟨N, fun n k hn hk => ?_⟩
  obtain ⟨f, _, hf⟩ := hN n k hn hk
  exact ⟨f, trivial, hf⟩

theorem shuts_eof : Shuts [Token.eof] := shuts_of [] (k := .Eof) rfl rfl (by decide) (by decide)

theorem program_one {ts : List Token} {i : Item F} (h : OneItem ts i [Token.eof]) : Program ts [i] :=
  .cons i [] ts _ h (by rw [shuts_eof.dropSemi]; exact .nil _ rfl)

theorem top_here {t0 : Token} {pre : List Token} {t : Token} {r : List Token} {why : Fault F}
    (hf : ∀ r', Wrong (t0 :: (pre ++ t :: r')) why (t :: r')) (suf : List Token)
    (hv : ∃ i : Item F, OneItem (t0 :: (pre ++ (suf ++ [Token.eof]))) i [Token.eof]) : TopSite F (t0 :: (pre ++ t :: r)) (t :: r) := by
  obtain ⟨i, hi⟩ := hv
  exact ⟨t0 :: pre, t, r, rfl, List.suffix_refl _, Or.inl rfl, ⟨suf ++ [Token.eof], opens_cons _ _ _, [i], program_one hi⟩,
    fun r' => (wrong_fails (hf r')).weaken⟩

theorem top_inside {t0 : Token} {pre0 us at' : List Token} (suf : List Token) (hsuf : ∀ rest, Shuts rest → Shuts (suf ++ rest))
    (hin : ∀ us', Opens us us' → Fails F (fun _ => True) 0 us' → FailsTop F (fun _ => True) (t0 :: (pre0 ++ us')))
    (hplug : ∀ us' (e : Expr F), Opens us us' → Whole 0 us' e (suf ++ [Token.eof]) → ∃ i : Item F, OneItem (t0 :: (pre0 ++ us')) i [Token.eof])
    (h : Site F 0 us at') : TopSite F (t0 :: (pre0 ++ us)) at' := by
  obtain ⟨pre, t, r, h1, h2, h3, ⟨suf', hv⟩, hh⟩ := h
  refine ⟨t0 :: (pre0 ++ pre), t, r, by rw [h1]; simp, h2, h3, ⟨suf' ++ (suf ++ [Token.eof]), opens_cons _ _ _, ?_⟩, fun r' => ?_⟩
  · obtain ⟨ho, e, hw⟩ := hv _ (hsuf _ shuts_eof)
    obtain ⟨i, hi⟩ := hplug _ e ho hw
    exact ⟨[i], program_one (by simpa using hi)⟩
  · have := hin _ (opens_split h1 r') (hh r')
    simpa using this

theorem wrong_site {ts at' : List Token} {why : Fault F} (h : Wrong ts why at') : TopSite F ts at' := by
  induction h with
  | expr ts at' why h1 h2 h3 hf =>
    obtain ⟨pre, t, r, h4, h5, h6, ⟨suf, hv⟩, hh⟩ := faulty_site hf
    refine ⟨pre, t, r, h4, h5, h6, ⟨suf ++ [Token.eof], ?_⟩, fun r' => ?_⟩
    · obtain ⟨ho, e, hw⟩ := hv _ shuts_eof
      exact ⟨ho, [.expr e], program_one (.expr e _ _ hw)⟩
    · have ho := opens_split h4 r'
      exact fails_first (ho.notNext (by decide) h3) (fails_expr (ho.notNext (by decide) h1) (ho.notNext (by decide) h2) (hh r'))
  | requestName q nm r hq hn =>
    exact top_here (pre := []) (fun r' => .requestName q nm r' hq hn) [xTok, templateTok]
      ⟨_, .request q xTok templateTok _ hq rfl rfl ⟨_, _, rfl, by decide⟩⟩
  | requestText q nm m r hq hn hm =>
    exact top_here (pre := [nm]) (fun r' => .requestText q nm m r' hq hn hm) [templateTok]
      ⟨_, .request q nm templateTok _ hq hn rfl ⟨_, _, rfl, by decide⟩⟩
  | asserts q nm m b ts at' why hq hn hm hb hi =>
    obtain ⟨pre, t, r, rfl, h1, h2, h3⟩ := faultItems_plug (Or.inr rfl) hi
    rw [h1]
    obtain ⟨es, hi'⟩ := h3 rsTok [Token.eof] rfl
    exact top_here (pre := nm :: m :: b :: pre) (fun r' => .asserts q nm m b _ _ why hq hn hm hb (h2 r')) [rsTok]
      ⟨_, .asserts q nm m b rsTok es _ _ hq hn hm hb rfl hi'⟩
  | inAsserts q nm m b ts us at' why hq hn hm hb hin hf =>
    obtain ⟨pre, h1, h2, h3⟩ := inItems_plug (Or.inr rfl) hin
    rw [h1]
    refine top_inside (t0 := q) (pre0 := nm :: m :: b :: pre) [rsTok] (fun _ _ => shuts_rs rfl _) (fun us' ho hfl => ?_) (fun us' e ho hw => ?_)
      (faulty_site hf)
    · exact fails_first ⟨_, _, rfl, by rw [hq]; decide⟩ (fails_asserts hq hn hm hb (inItems_fails (Or.inr rfl) (h2 us' ho) hfl))
    · obtain ⟨es, hi⟩ := h3 us' e rsTok _ ho rfl hw
      exact ⟨_, .asserts q nm m b rsTok es _ _ hq hn hm hb rfl hi⟩
  | testName q nm r hq hn =>
    exact top_here (pre := []) (fun r' => .testName q nm r' hq hn) [xTok, lbTok, rbTok]
      ⟨_, .test q xTok lbTok rbTok [] _ _ hq rfl rfl rfl (.nil rbTok _ rfl)⟩
  | testOpen q nm b r hq hn hb =>
    exact top_here (pre := [nm]) (fun r' => .testOpen q nm b r' hq hn hb) [lbTok, rbTok]
      ⟨_, .test q nm lbTok rbTok [] _ _ hq hn rfl rfl (.nil rbTok _ rfl)⟩
  | inTest q nm b ts us at' why hq hn hb hin hf =>
    obtain ⟨pre, h1, h2, h3⟩ := inStmts_plug hin
    rw [h1]
    refine top_inside (t0 := q) (pre0 := nm :: b :: pre) [rbTok] (fun _ _ => shuts_rb rfl _) (fun us' ho hfl => ?_) (fun us' e ho hw => ?_)
      (faulty_site hf)
    · exact fails_first ⟨_, _, rfl, by rw [hq]; decide⟩ (fails_test hq hn hb (h2 us' ho) hfl)
    · obtain ⟨es, hi⟩ := h3 us' e rbTok _ ho rfl hw
      exact ⟨_, .test q nm b rbTok es _ _ hq hn hb rfl hi⟩
  | next i ts us at' why hi _ ih =>
    obtain ⟨t0, pre0, h1, h2⟩ := oneItem_swap hi
    obtain ⟨sep, h3, h4⟩ := dropSemi_sep us
    obtain ⟨pre, t, r, h5, h6, h7, ⟨suf, ho, is, hp⟩, hf⟩ := ih
    refine ⟨t0 :: (pre0 ++ sep ++ pre), t, r, ?_, h6, h7, ⟨suf, ?_, i :: is, ?_⟩, fun r' => ?_⟩
    · rw [h1]
      simp only [List.cons_append, List.append_assoc]
      rw [← h5, ← h3]
    · rw [h1]
      exact opens_cons _ _ _
    · obtain ⟨h8, h9⟩ := h4 _ ho.fits
      have := Program.cons i is _ _ (h2 _ h9) (by rw [h8]; exact hp)
      simpa using this
    · obtain ⟨h8, h9⟩ := h4 _ (opens_split h5 r').fits
      have := fails_next (K := fun _ => True) (h2 _ h9) (by rw [h8]; exact hf r')
      simpa using this

end Am
