import Verif.Proofs.Printing
/-! # C10 (printing), C08 (uniqueness) and C59 (completeness of the parser) -/
set_option linter.unusedSimpArgs false
set_option linter.unusedSectionVars false
namespace Am
open Spec
variable {F : Type} [Rt F]

/-! ## C59: every text of the grammar is accepted and gives its tree -/

/-- C59. If the tokens of a text are a text of the published grammar for the items `is`, the parser accepts the text and returns exactly
those items. -/
theorem c59_complete (text : Str) (is : List (Item F)) (h : WritesSource is (segment text)) :
    parse text = .ok (is.foldl addItem ⟨[], [], []⟩) := by
  obtain ⟨N, hN⟩ := source_complete h ⟨[], [], []⟩ Token.eof
  rw [← c06_enough_fuel text (N + (segment text).length) (by omega)]
  have h2 := hN (N + (segment text).length) (N + (segment text).length) (by omega) (by omega)
  unfold parseFuel
  cases hs : segment text with
  | nil =>
    obtain ⟨t, r, h1, _⟩ := segment_endsEof text
    rw [hs] at h1; cases h1
  | cons t r => rw [hs] at h2; exact h2

/-- C59 for a single expression. -/
theorem c59_expression (text : Str) (e : Expr F) (ts : List Token) (h : Writes e ts) (hs : segment text = ts ++ [Token.eof]) :
    parse text = .ok ⟨[e], [], []⟩ := by
  apply c59_complete text [.expr e]
  rw [hs]
  exact .next _ [] Token.eof _ _ rfl (.expr e ts h) (.nil _ rfl)

/-- The grammar's text for a small program. -/
example : WritesSource (F := F)
    [.expr (.letE c!"x" (.binary ⟨.Add, c!"+"⟩ (.int 1) (.binary ⟨.Mul, c!"*"⟩ (.int 2) (.ident c!"y")))), .test c!"t" [.ident c!"x"]]
    (segment c!"let x = 1 + 2 * y; test t { x }") :=
  .semi _ _ ⟨.Semi, c!";"⟩ _ _ rfl
    (.expr _ _ (.letE ⟨.Let, c!"let"⟩ ⟨.Ident, c!"x"⟩ ⟨.Assign, c!"="⟩ _ _ rfl rfl rfl
      (.binary ⟨.Add, c!"+"⟩ _ _ [⟨.Integer, c!"1"⟩] _ rfl (.int ⟨.Integer, c!"1"⟩ 1 rfl (parseI64_iff.1 rfl))
        (.binary ⟨.Mul, c!"*"⟩ _ _ [⟨.Integer, c!"2"⟩] _ rfl (.int ⟨.Integer, c!"2"⟩ 2 rfl (parseI64_iff.1 rfl)) (.ident ⟨.Ident, c!"y"⟩ rfl) (by simp [tableLevel, strength])
          (by simp [tableLevel, strength]) rfl rfl) (by simp [tableLevel, strength]) (by simp [tableLevel, strength]) rfl rfl)))
    (.next _ _ Token.eof
      [⟨.Test, c!"test"⟩, ⟨.Ident, c!"t"⟩, ⟨.Lb, c!"{"⟩, ⟨.Ident, c!"x"⟩, ⟨.Rb, c!"}"⟩] [] rfl
      (.test ⟨.Test, c!"test"⟩ ⟨.Ident, c!"t"⟩ _ _ rfl rfl
        (.mk ⟨.Lb, c!"{"⟩ ⟨.Rb, c!"}"⟩ _ [⟨.Ident, c!"x"⟩] rfl rfl (.last _ _ (.ident ⟨.Ident, c!"x"⟩ rfl))))
      (.nil _ rfl))

/-! ## C08: the tree is the only one the table allows -/

/-- C08: the grammar with the precedence table is unambiguous, so the tree the parser returns for such a text is the only one. -/
theorem c08_unique (e e' : Expr F) (ts : List Token) (h : Writes e ts) (h' : Writes e' ts) : e = e' := by
  have fin : ∀ {e : Expr F}, Writes e ts → ∃ c N, ∀ n, N ≤ n →
      parseExpr n 0 (PS.mk Token.eof (ts ++ [Token.eof])).next = .ok (e, ⟨c, [Token.eof]⟩) := by
    intro e h
    exact (writes_complete h).zero h Token.eof (fits_zero (t := Token.eof) (r := []) rfl (by decide) (by decide))
  obtain ⟨c1, N1, h1⟩ := fin h
  obtain ⟨c2, N2, h2⟩ := fin h'
  have a := h1 (N1 + N2) (by omega)
  have b := h2 (N1 + N2) (by omega)
  rw [a] at b
  simp at b
  exact b.1

/-- C08: the trees of the grammar are grouped as the table says. -/
theorem c08_writes_grouped (text : Str) (e : Expr F) (ts : List Token) (h : Writes e ts) (hs : segment text = ts ++ [Token.eof])
    (hN : NoAdj OpLet (segment text)) : StrictlyGrouped e := by
  have := c08_strict_partial text ⟨[e], [], []⟩ (c59_expression text e ts h hs) hN
  cases this.1 with
  | cons _ _ h _ => exact h

/-! ## C10: printing and parsing again -/

/-- An expression that the parser returned as part of a source. -/
def Returned (src : Source F) (e : Expr F) : Prop :=
  e ∈ src.exprs ∨ (∃ p ∈ src.requests, e ∈ p.2.2) ∨ ∃ p ∈ src.tests, e ∈ p.2

/-- C10 (partial), for every expression read from well-formed tokens, at any depth of a source. -/
theorem c10_reads_partial (e : Expr F) (ts : List Token) (hR : Reads e ts) (hok : ∀ t ∈ ts, TokenOk t) (hG : Grouped EndsInLet e)
    (hp : Printable e) : parse e.display = .ok ⟨[e], [], []⟩ := by
  have hf := reads_formed hR hok
  have hs := display_segment e hf hp hG [] (by rintro c r ⟨⟩)
  rw [List.append_nil, segment_nil] at hs
  exact c59_expression _ e _ (toks_writes e hf hp hG) hs

theorem readsList_mem {es : List (Expr F)} : ∀ {ts : List Token}, ReadsList es ts → ∀ e ∈ es, ∃ te, Reads e te ∧ ∀ t ∈ te, t ∈ ts := by
  induction es with
  | nil => intro ts _ e he; cases he
  | cons a es ih =>
    intro ts h e he
    cases h with
    | last _ te h1 => simp at he; subst he; exact ⟨_, h1, fun t ht => ht⟩
    | cons _ _ c te ts' _ h1 h2 =>
      rcases List.mem_cons.1 he with rfl | he
      · exact ⟨te, h1, fun t ht => by simp [ht]⟩
      · obtain ⟨te', h3, h4⟩ := ih h2 e he
        exact ⟨te', h3, fun t ht => by simp [h4 t ht]⟩

theorem readsSeq_mem {es : List (Expr F)} : ∀ {ts : List Token}, ReadsSeq es ts → ∀ e ∈ es, ∃ te, Reads e te ∧ ∀ t ∈ te, t ∈ ts := by
  induction es with
  | nil => intro ts _ e he; cases he
  | cons a es ih =>
    intro ts h e he
    cases h with
    | cons _ _ te sm ts' h1 _ h2 =>
      rcases List.mem_cons.1 he with rfl | he
      · exact ⟨te, h1, fun t ht => by simp [ht]⟩
      · obtain ⟨te', h3, h4⟩ := ih h2 e he
        exact ⟨te', h3, fun t ht => by simp [h4 t ht]⟩

/-- The expressions of an item. -/
def itemExprs : Item F → List (Expr F)
  | .expr e => [e]
  | .request _ _ as => as
  | .test _ b => b

theorem groupedAll_mem {X : Expr F → Prop} {es : List (Expr F)} (h : GroupedAll X es) : ∀ e ∈ es, Grouped X e := by
  induction es with
  | nil => intro e he; cases he
  | cons a es ih =>
    cases h with
    | cons _ _ h1 h2 =>
      intro e he
      rcases List.mem_cons.1 he with rfl | he
      · exact h1
      · exact ih h2 e he

theorem item_reads {i : Item F} {ts : List Token} (h : ReadsItem i ts) : ∀ e ∈ itemExprs i, ∃ te, Reads e te ∧ ∀ t ∈ te, t ∈ ts := by
  intro e he
  cases h with
  | expr e' ts h1 => simp [itemExprs] at he; subst he; exact ⟨_, h1, fun t ht => ht⟩
  | request r n m _ _ _ => cases he
  | requestAsserts r n m lb rb es ts' _ _ _ _ _ h1 =>
    obtain ⟨te, h2, h3⟩ := readsList_mem h1 e he
    exact ⟨te, h2, fun t ht => by simp [h3 t ht]⟩
  | test t n es ts' _ _ hb =>
    cases hb with
    | mk l r _ ts'' _ _ h1 =>
      obtain ⟨te, h2, h3⟩ := readsSeq_mem h1 e he
      exact ⟨te, h2, fun t ht => by simp [h3 t ht]⟩

theorem readsSource_items {is : List (Item F)} {ts : List Token} (h : ReadsSource is ts) :
    ∀ i ∈ is, ∃ a ti b, ReadsItem i ti ∧ ts = a ++ (ti ++ b) ∧ b ≠ [] := by
  have ne : ∀ {is : List (Item F)} {ts : List Token}, ReadsSource is ts → ts ≠ [] := by
    intro is ts h
    induction h with
    | nil => simp
    | cons i is ti sm ts _ _ _ ih => simp [ih]
  induction h with
  | nil => intro i hi; cases hi
  | cons i is ti sm ts h1 _ h3 ih =>
    intro j hj
    rcases List.mem_cons.1 hj with rfl | hj
    · exact ⟨[], ti, sm ++ ts, h1, rfl, by simp [ne h3]⟩
    · obtain ⟨a, tj, b, h2, h3, h4⟩ := ih j hj
      exact ⟨ti ++ sm ++ a, tj, b, h2, by simp [h3], h4⟩

theorem returned_item (items : List (Item F)) : ∀ (src : Source F) (e : Expr F), Returned (items.foldl addItem src) e →
    Returned src e ∨ ∃ i ∈ items, e ∈ itemExprs i := by
  induction items with
  | nil => intro src e h; exact Or.inl h
  | cons i items ih =>
    intro src e h
    rcases ih _ e h with h | ⟨j, hj, h⟩
    · cases i with
      | expr e' =>
        rcases h with h | h | h
        · simp [addItem] at h
          rcases h with h | h
          · exact Or.inl (Or.inl h)
          · exact Or.inr ⟨_, List.mem_cons_self, by simp [itemExprs, h]⟩
        · exact Or.inl (Or.inr (Or.inl h))
        · exact Or.inl (Or.inr (Or.inr h))
      | request n m as =>
        rcases h with h | ⟨p, hp, h⟩ | h
        · exact Or.inl (Or.inl h)
        · rcases mem_amInsert hp with rfl | hp
          · exact Or.inr ⟨_, List.mem_cons_self, h⟩
          · exact Or.inl (Or.inr (Or.inl ⟨p, hp, h⟩))
        · exact Or.inl (Or.inr (Or.inr h))
      | test n b =>
        rcases h with h | h | ⟨p, hp, h⟩
        · exact Or.inl (Or.inl h)
        · exact Or.inl (Or.inr (Or.inl h))
        · rcases mem_amInsert hp with rfl | hp
          · exact Or.inr ⟨_, List.mem_cons_self, h⟩
          · exact Or.inl (Or.inr (Or.inr ⟨p, hp, h⟩))
    · exact Or.inr ⟨j, List.mem_cons_of_mem _ hj, h⟩

/-- C10 (partial). Every printable expression of an accepted source is what its printed text denotes. The full claim is the same
statement without `Printable`; it is false (`c10_false_let`, `c10_false_float`, `c10_false_field`). -/
theorem c10_print_parse_partial (text : Str) (src : Source F) (h : parse text = .ok src) (e : Expr F) (he : Returned src e)
    (hp : Printable e) : parse e.display = .ok ⟨[e], [], []⟩ := by
  obtain ⟨items, hR, rfl, hG⟩ := parse_items text src h
  rcases returned_item items _ e he with h | ⟨i, hi, he⟩
  · rcases h with h | ⟨p, hp, h⟩ | ⟨p, hp, h⟩
    · cases h
    · cases hp
    · cases hp
  · obtain ⟨a, ti, b, h1, h2, hb⟩ := readsSource_items hR i hi
    obtain ⟨te, h3, h4⟩ := item_reads h1 e he
    have hg : Grouped EndsInLet e := by
      have := hG i hi
      cases i with
      | expr e' => simp [itemExprs] at he; subst he; exact this
      | request n m as => exact groupedAll_mem this e he
      | test n b => exact groupedAll_mem this e he
    refine c10_reads_partial e te h3 (fun t ht => ?_) hg hp
    have hti := h4 t ht
    rcases c04_tokens_ok text t (by rw [h2]; simp [hti]) with rfl | h
    · obtain ⟨x, y, hxy⟩ := List.append_of_mem hti
      obtain ⟨t', r', hs, _, hL⟩ := segment_endsEof text
      rw [hs] at h2
      have := hL (a ++ x) Token.eof (y ++ b) (by rw [h2, hxy]; simp) rfl
      simp at this
      exact absurd this.2 hb
    · exact h

/-- C10 is false: a `let` operand that was ended by a semicolon swallows the rest when it is printed without it. -/
theorem c10_false_let : ∃ (src : Source F) (e : Expr F), parse c!"1 + let x = 2; * 3" = .ok src ∧ src.exprs = [e] ∧
    parse e.display ≠ .ok ⟨[e], [], []⟩ := by
  refine ⟨⟨[.binary ⟨.Mul, c!"*"⟩ (.binary ⟨.Add, c!"+"⟩ (.int 1) (.letE c!"x" (.int 2))) (.int 3)], [], []⟩, _, rfl, rfl, ?_⟩
  have : parse (F := F) c!"1 + let x = 2 * 3" = .ok ⟨[.binary ⟨.Add, c!"+"⟩ (.int 1)
      (.letE c!"x" (.binary ⟨.Mul, c!"*"⟩ (.int 2) (.int 3)))], [], []⟩ := rfl
  intro h
  have h2 := this.symm.trans h
  simp at h2

/-- C10 is false: a float that prints without a point (as Rust prints `1.0`) comes back as an integer. -/
theorem c10_false_float (f : F) (h1 : Rt.fparse c!"1.0" = some f) (h2 : Rt.fdisp f = c!"1") :
    parse (F := F) c!"1.0" = .ok ⟨[.float f], [], []⟩ ∧ parse (F := F) (Expr.float f).display = .ok ⟨[.int 1], [], []⟩ := by
  constructor
  · have : Writes (F := F) (.float f) [⟨.Float, c!"1.0"⟩] := .float _ f rfl h1
    exact c59_expression _ _ _ this rfl
  · simp only [Expr.display, h2]; rfl

/-- C10 is false: a field of a number prints as a number with a point. -/
theorem c10_false_field : parse (F := F) c!"1 .x" = .ok ⟨[.field (.int 1) c!"x"], [], []⟩ ∧
    parse (F := F) (Expr.field (.int 1) c!"x" : Expr F).display ≠ .ok ⟨[.field (.int 1) c!"x"], [], []⟩ := by
  refine ⟨rfl, ?_⟩
  have e : segment c!"1.x" = [⟨.Float, c!"1."⟩, ⟨.Ident, c!"x"⟩, Token.eof] := rfl
  intro h
  have h' : parse (F := F) c!"1.x" = .ok ⟨[.field (.int 1) c!"x"], [], []⟩ := h
  cases hf : Rt.fparse (F := F) c!"1." with
  | none =>
    unfold parse parseFuel at h'
    rw [e] at h'
    simp only [parseTop, parseItem, List.length_cons, List.length_nil, parseExpr, parsePrefix, parseFloat, hf, Res.err_bind,
      reduceCtorEq, if_false] at h'
  | some f =>
    have hw : WritesSource (F := F) [.expr (.float f), .expr (.ident c!"x")] (segment c!"1.x") := by
      rw [e]
      exact .next _ _ ⟨.Ident, c!"x"⟩ [⟨.Float, c!"1."⟩] _ rfl (.expr _ _ (.float _ f rfl hf))
        (.next _ _ Token.eof [⟨.Ident, c!"x"⟩] _ rfl (.expr _ _ (.ident ⟨.Ident, c!"x"⟩ rfl)) (.nil _ rfl))
    have := (c59_complete _ _ hw).symm.trans h'
    simp [addItem] at this

/-- An expression with most constructs is printable, whatever floats are. -/
example : Printable (F := F) (.letE c!"a" (.ifE (.binary ⟨.Eq, c!"=="⟩ (.unary ⟨.Not, c!"!"⟩ (.ident c!"b"))
    (.index (.field (.ident c!"c") c!"d") (.int 0))) [.arr [.map [(.str c!"k", .call c!"f" [.paren (.bool true)])]]] [.int 3])) := by
  simp [Printable, PrintableAll, PrintablePairs, isLet, isNumber]

end Am
