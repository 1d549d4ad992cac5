import Verif.Proofs.Parens
/-! # Parentheses (C93)

The parser keeps parentheses in the tree (`Expr::Paren`); evaluation passes through them. Two source texts that parse to trees which differ only in
parentheses do the same, with one exception: an assert that stands in parentheses as a whole is silently dropped (evaluator.rs:189-214 looks only at
`Expr::Binary`). -/
set_option linter.unusedSimpArgs false
set_option linter.unusedSectionVars false
namespace Am
open Spec
variable {F : Type} [Rt F]

/-- C93: parentheses around parts of an expression change neither its value nor anything it does. -/
theorem c93_expr (call : Call F) (e e' : Expr F) (h : noParens e = noParens e') (hk : KnownOps e) (hk' : KnownOps e') :
    evalExpr call e = evalExpr call e' := by
  rw [← evalExpr_noParens call e hk, h, evalExpr_noParens call e' hk']

/-- `(1 + 2) * x` with and without more parentheses. -/
example (call : Call F) :
    evalExpr call (.binary ⟨.Mul, c!"*"⟩ (.paren (.binary ⟨.Add, c!"+"⟩ (.int 1) (.paren (.paren (.int 2))))) (.ident c!"x")) =
    evalExpr call (.binary ⟨.Mul, c!"*"⟩ (.paren (.binary ⟨.Add, c!"+"⟩ (.int 1) (.int 2))) (.paren (.ident c!"x"))) := by
  refine c93_expr call _ _ rfl ?_ ?_ <;>
  · intro k hk
    simp only [ops, List.append_nil, List.nil_append, List.cons_append, List.mem_cons, Prod.mk.injEq, true_and, List.not_mem_nil, or_false] at hk
    rcases hk with rfl | rfl <;> rfl

/-- C93: an expression the parser returns uses only known operators, so the condition of `c93_expr` holds for it. -/
theorem c93_known (text : Str) (src : Source F) (hp : parse text = .ok src) :
    (∀ e ∈ src.exprs, KnownOps e) ∧ (∀ p ∈ src.requests, ∀ a ∈ p.2.2, KnownOps a) ∧ ∀ p ∈ src.tests, ∀ e ∈ p.2, KnownOps e :=
  ⟨fun e he => grouped_known (groupedAll_mem (c08_grouped_partial text src hp).1 e he),
    fun p hp' a ha => grouped_known (groupedAll_mem ((c08_grouped_partial text src hp).2.1 p hp') a ha),
    fun p hp' e he => grouped_known (groupedAll_mem ((c08_grouped_partial text src hp).2.2 p hp') e he)⟩

theorem opsList_known {es : List (Expr F)} (h : ∀ e ∈ es, KnownOps e) : ∀ k, (false, k) ∈ opsList es → k.isBinary = true := by
  induction es with
  | nil => intro k hk; cases hk
  | cons e es ih =>
    intro k hk
    rcases List.mem_append.1 hk with hk | hk
    · exact h e (List.mem_cons_self ..) k hk
    · exact ih (fun e he => h e (List.mem_cons_of_mem _ he)) k hk

/-- C93, the part that holds: two blocks that differ only in parentheses, run where the requests differ only in parentheses inside their asserts: the same
outcome, the same messages sent, the same text printed, the same variables, and records that differ only in how the asserts were written. Missing:
parentheses around a whole assert. -/
theorem c93_block_partial (net : Net) {es es' : List (Expr F)} (h : noParensList es = noParensList es') (hk : ∀ e ∈ es, KnownOps e) (hk' : ∀ e ∈ es', KnownOps e)
    {s s' : St F} (hs : SameButParens s s') (ht : KnownTable s.ctx) (ht' : KnownTable s'.ctx) :
    (runBlock net es s).1 = (runBlock net es' s').1 ∧ SameButParens (runBlock net es s).2 (runBlock net es' s').2 := by
  have := alike_runBlock net h (opsList_known hk) (opsList_known hk') s s' ⟨hs, ht, ht'⟩
  exact ⟨this.1, this.2.same⟩

theorem alike_evalText {net : Net} {text text' : Str} {src src' : Source F} (h1 : parse text = .ok src) (h2 : parse text' = .ok src')
    (he : noParensList src.exprs = noParensList src'.exprs) (hr : Each SameDefinition src.requests src'.requests)
    {s s' : St F} (hs : AlikeSt s s') : AlikeRes (evalText net text s) (evalText net text' s') := by
  unfold evalText
  rw [h1, h2]
  dsimp only
  have hx : AlikeSt { s with ctx := s.ctx.extend src.requests } { s' with ctx := s'.ctx.extend src'.requests } :=
    ⟨⟨hs.same.variables, sameDefinition_extend hs.same.requests hr, hs.same.records, hs.same.sent, hs.same.out⟩,
      known_extend h1 hs.known, known_extend h2 hs.known'⟩
  have hb := alike_runBlock net he (opsList_known (c93_known text src h1).1) (opsList_known (c93_known text' src' h2).1) _ _ hx
  show AlikeRes (match runBlock net src.exprs { s with ctx := s.ctx.extend src.requests } with
      | (.ok v, s) => sayLine v.display s
      | (.err e, s) => sayLine e s
      | (.panic, s) => (.panic, s)
      | (.hang, s) => (.hang, s)) (match runBlock net src'.exprs { s' with ctx := s'.ctx.extend src'.requests } with
      | (.ok v, s) => sayLine v.display s
      | (.err e, s) => sayLine e s
      | (.panic, s) => (.panic, s)
      | (.hang, s) => (.hang, s))
  rcases hy : runBlock net src.exprs { s with ctx := s.ctx.extend src.requests } with ⟨r, t⟩
  rcases hz : runBlock net src'.exprs { s' with ctx := s'.ctx.extend src'.requests } with ⟨r', t'⟩
  rw [hy, hz] at hb
  obtain ⟨hb1, ⟨k1, k2, k3, k4, k5⟩, hk, hk'⟩ := hb
  dsimp only at hb1
  subst hb1
  cases r with
  | ok v => exact ⟨rfl, ⟨k1, k2, k3, k4, congrArg (fun o => o ++ v.display ++ c!"\n") k5⟩, hk, hk'⟩
  | err e => exact ⟨rfl, ⟨k1, k2, k3, k4, congrArg (fun o => o ++ e ++ c!"\n") k5⟩, hk, hk'⟩
  | panic => exact ⟨rfl, ⟨k1, k2, k3, k4, k5⟩, hk, hk'⟩
  | hang => exact ⟨rfl, ⟨k1, k2, k3, k4, k5⟩, hk, hk'⟩

/-- C93, the part that holds: `am eval` on two source texts whose items differ only in parentheses, but not in those around a whole assert: the same outcome,
the same messages sent, the same text printed, the same variables, and records that differ only in how the asserts were written. -/
theorem c93_text_partial (net : Net) {text text' : Str} {is is' : List (Item F)} (h1 : Accepted text is) (h2 : Accepted text' is') (h : Each SameItem is is')
    {s s' : St F} (hs : SameButParens s s') (ht : KnownTable s.ctx) (ht' : KnownTable s'.ctx) :
    (evalText net text s).1 = (evalText net text' s').1 ∧ SameButParens (evalText net text s).2 (evalText net text' s').2 := by
  obtain ⟨a, b⟩ := sameItems_source h (src := ⟨[], [], []⟩) (src' := ⟨[], [], []⟩) rfl .nil
  have := alike_evalText (net := net) (accepted_items h1) (accepted_items h2) a b ⟨hs, ht, ht'⟩
  exact ⟨this.1, this.2.same⟩

/-- C93: from the beginning, where there are no requests and no records, no condition on the state is needed. -/
theorem c93_fresh_partial (net : Net) {text text' : Str} {is is' : List (Item F)} (h1 : Accepted text is) (h2 : Accepted text' is') (h : Each SameItem is is') :
    (evalText (F := F) net text ⟨Context.new, [], []⟩).1 = (evalText (F := F) net text' ⟨Context.new, [], []⟩).1 ∧
    SameButParens (F := F) (evalText net text ⟨Context.new, [], []⟩).2 (evalText net text' ⟨Context.new, [], []⟩).2 :=
  c93_text_partial net h1 h2 h ⟨rfl, .nil, .nil, rfl, rfl⟩ (fun _ h => (nomatch h)) (fun _ h => (nomatch h))

theorem sameTest_get {l l' : List (Str × List (Expr F))} (h : Each SameTest l l') (n : Str) :
    (amGet n l = none ∧ amGet n l' = none) ∨ ∃ b b', amGet n l = some b ∧ amGet n l' = some b' ∧ noParensList b = noParensList b' ∧ (n, b) ∈ l ∧ (n, b') ∈ l' := by
  induction h with
  | nil => exact .inl ⟨rfl, rfl⟩
  | @cons p p' l l' hp _ ih =>
    obtain ⟨k, b⟩ := p
    obtain ⟨k', b'⟩ := p'
    obtain ⟨e1, e2⟩ := hp
    dsimp only at e1 e2
    subst e1
    simp only [amGet]
    by_cases hn : k = n
    · subst hn
      rw [if_pos rfl, if_pos rfl]
      exact .inr ⟨b, b', rfl, rfl, e2, List.mem_cons_self .., List.mem_cons_self ..⟩
    · rw [if_neg hn, if_neg hn]
      exact ih.imp id fun ⟨b, b', h1, h2, h3, h4, h5⟩ => ⟨b, b', h1, h2, h3, List.mem_cons_of_mem _ h4, List.mem_cons_of_mem _ h5⟩

theorem sameTest_insert {l l' : List (Str × List (Expr F))} (h : Each SameTest l l') (n : Str) {b b' : List (Expr F)} (hb : noParensList b = noParensList b') :
    Each SameTest (amInsert n b l) (amInsert n b' l') := by
  induction h with
  | nil => exact .cons ⟨rfl, hb⟩ .nil
  | @cons p p' l l' hp hl ih =>
    obtain ⟨k, c⟩ := p
    obtain ⟨k', c'⟩ := p'
    obtain ⟨e1, e2⟩ := hp
    dsimp only at e1 e2
    subst e1
    simp only [amInsert]
    by_cases hn : k = n
    · rw [if_pos hn, if_pos hn]; exact .cons ⟨rfl, hb⟩ hl
    · rw [if_neg hn, if_neg hn]; exact .cons ⟨rfl, e2⟩ ih

/-- The tables of tests differ only in parentheses. -/
theorem sameItems_tests {is is' : List (Item F)} (h : Each SameItem is is') : ∀ {src src' : Source F}, Each SameTest src.tests src'.tests →
    Each SameTest (is.foldl addItem src).tests (is'.foldl addItem src').tests := by
  induction h with
  | nil => intro src src' h; exact h
  | cons hi _ ih =>
    intro src src' h
    rw [List.foldl_cons, List.foldl_cons]
    cases hi with
    | expr e e' _ => exact ih h
    | request n m as as' _ => exact ih h
    | test n b b' hb => exact ih (sameTest_insert h n hb)

theorem each_map_mem {α β : Type} {R : β → β → Prop} {Q : α → α → Prop} {f g : α → β} {l l' : List α} (h : Each Q l l')
    (hf : ∀ a ∈ l, ∀ a' ∈ l', Q a a' → R (f a) (g a')) : Each R (l.map f) (l'.map g) := by
  induction h with
  | nil => exact .nil
  | cons h1 _ ih =>
    exact .cons (hf _ (List.mem_cons_self ..) _ (List.mem_cons_self ..) h1)
      (ih fun a ha a' ha' => hf a (List.mem_cons_of_mem _ ha) a' (List.mem_cons_of_mem _ ha'))

/-- C93, the part that holds: `am test` on two such source texts comes to the same, after the same messages and the same output, with threads whose tests
differ only in parentheses (what each iteration of them does is `c93_block_partial`). Without a test name, the tests have to be started in the same order. -/
theorem c93_start_partial (order order' : List (Str × List (Expr F)) → List (Str × List (Expr F))) (net : Net) (args : TestArgs) {text text' : Str}
    {is is' : List (Item F)} (h1 : Accepted text is) (h2 : Accepted text' is') (h : Each SameItem is is')
    (hord : args.name = none → Each SameTest (order (is.foldl addItem ⟨[], [], []⟩).tests) (order' (is'.foldl addItem ⟨[], [], []⟩).tests) ∧
      (∀ l p, p ∈ order l → p ∈ l) ∧ ∀ l p, p ∈ order' l → p ∈ l) :
    StartedButParens (startTest order net args text).1 (startTest order' net args text').1 ∧
    SameButParens (startTest order net args text).2 (startTest order' net args text').2 := by
  obtain ⟨a, b⟩ := sameItems_source h (src := ⟨[], [], []⟩) (src' := ⟨[], [], []⟩) rfl .nil
  have ht := sameItems_tests h (src := ⟨[], [], []⟩) (src' := ⟨[], [], []⟩) .nil
  have p1 := accepted_items h1
  have p2 := accepted_items h2
  generalize is.foldl addItem ⟨[], [], []⟩ = src at *
  generalize is'.foldl addItem ⟨[], [], []⟩ = src' at *
  have q1 := c93_known text src p1
  have q2 := c93_known text' src' p2
  have hx := alike_runBlock (F := F) net a (opsList_known q1.1) (opsList_known q2.1)
    { (⟨Context.new, [], []⟩ : St F) with ctx := Context.new.extend src.requests }
    { (⟨Context.new, [], []⟩ : St F) with ctx := Context.new.extend src'.requests }
    ⟨⟨rfl, sameDefinition_extend .nil b, .nil, rfl, rfl⟩, known_extend p1 (fun _ h => (nomatch h)), known_extend p2 (fun _ h => (nomatch h))⟩
  unfold startTest setup
  rw [p1, p2]
  dsimp only at hx ⊢
  rcases hy : runBlock net src.exprs { ctx := Context.new.extend src.requests, sent := [], out := [] } with ⟨r, t⟩
  rcases hz : runBlock net src'.exprs { ctx := Context.new.extend src'.requests, sent := [], out := [] } with ⟨r', t'⟩
  rw [hy, hz] at hx
  obtain ⟨hb1, ⟨k1, k2, k3, k4, k5⟩, hk, hk'⟩ := hx
  dsimp only at hb1
  subst hb1
  have hw : ∀ (name : Str) (b b' : List (Expr F)), noParensList b = noParensList b' → (∀ e ∈ b, KnownOps e) → (∀ e ∈ b', KnownOps e) →
      WorkerButParens (Worker.init args.record t.ctx name b) (Worker.init args.record t'.ctx name b') :=
    fun name b b' e h1 h2 => ⟨rfl, rfl, e, ⟨k1, k2, .nil, rfl, rfl⟩, rfl, rfl, ⟨h1, hk⟩, ⟨h2, hk'⟩⟩
  cases r with
  | err m => exact ⟨.ended, k1, k2, k3, k4, congrArg (fun o => o ++ m ++ c!"\n") k5⟩
  | panic => exact ⟨.panicked, k1, k2, k3, k4, k5⟩
  | hang => exact ⟨.endless, k1, k2, k3, k4, k5⟩
  | ok v =>
    dsimp only
    unfold startWorkers
    cases hname : args.name with
    | none =>
      dsimp only
      obtain ⟨ho, hm, hm'⟩ := hord hname
      refine ⟨.threads _ _ _ (each_map_mem ho fun p hp p' hp' hq => ?_), k1, k2, k3, k4, k5⟩
      rw [← hq.1]
      exact hw p.1 p.2 p'.2 hq.2 (q1.2.2 p (hm _ _ hp)) (q2.2.2 p' (hm' _ _ hp'))
    | some name =>
      dsimp only
      rcases sameTest_get ht name with ⟨g1, g2⟩ | ⟨b, b', g1, g2, g3, g4, g5⟩
      · rw [g1, g2]
        exact ⟨.threads _ _ _ .nil, k1, k2, k3, k4, congrArg (fun o => o ++ (c!"Test not found: " ++ name) ++ c!"\n") k5⟩
      · rw [g1, g2]
        dsimp only
        cases perThread (limits args.duration args.number).2 args.threads with
        | ok n => exact ⟨.threads _ _ _ (each_replicate (hw name b b' g3 (q1.2.2 _ g4) (q2.2.2 _ g5)) _), k1, k2, k3, k4, k5⟩
        | err m => exact ⟨.ended, k1, k2, k3, k4, k5⟩
        | panic => exact ⟨.panicked, k1, k2, k3, k4, k5⟩
        | hang => exact ⟨.endless, k1, k2, k3, k4, k5⟩

/-- C93: exactly which asserts count: those that are a comparison themselves; an assert in parentheses is passed over, whatever it says. -/
theorem c93_enclosed (call : Call F) (a : Expr F) (before after : List (Expr F)) (h : Enclosed a) :
    evalAsserts call (before ++ a :: after) = evalAsserts call (before ++ after) := by
  obtain ⟨v, rfl⟩ := h
  induction before with
  | nil => rfl
  | cons b before ih =>
    by_cases hb : ∃ t l r, b = .binary t l r
    · obtain ⟨t, l, r, rfl⟩ := hb
      simp only [List.cons_append, evalAsserts, ih]
    · have hb : ∀ t l r, b ≠ .binary t l r := fun t l r e => hb ⟨t, l, r, e⟩
      rw [List.cons_append, List.cons_append, evalAsserts_skip call hb, evalAsserts_skip call hb, ih]

/-- C93 is false: the assert `status == 500` is recorded, as failed; in parentheses it is not recorded at all. -/
theorem c93_false (k : Clocks) :
    ((evalText (F := F) (refusing k) c!"request f `GET http://a/`[status == 500] f()" ⟨Context.new, [], []⟩).2.ctx.records.map fun r => r.asserts.map (·.result)) = [[false]] ∧
    ((evalText (F := F) (refusing k) c!"request f `GET http://a/`[(status == 500)] f()" ⟨Context.new, [], []⟩).2.ctx.records.map fun r => r.asserts.map (·.result)) = [[]] :=
  ⟨rfl, rfl⟩

/-- Two definitions that differ only in parentheses inside an assert. -/
example : Each (SameItem (F := F)) [.request c!"f" c!"GET http://a/" [.binary ⟨.Eq, c!"=="⟩ (.ident c!"status") (.paren (.int 500))], .expr (.call c!"f" [])]
    [.request c!"f" c!"GET http://a/" [.binary ⟨.Eq, c!"=="⟩ (.paren (.ident c!"status")) (.int 500)], .expr (.paren (.call c!"f" []))] :=
  .cons (.request _ _ _ _ (.cons ⟨rfl, ⟨fun ⟨_, h⟩ => (nomatch h), fun ⟨_, h⟩ => (nomatch h)⟩⟩ .nil)) (.cons (.expr _ _ rfl) .nil)

/-- Those texts: the assert is recorded in the same way, though written differently. -/
example (k : Clocks) :
    ((evalText (F := F) (refusing k) c!"request f `GET http://a/`[status == (500)] f()" ⟨Context.new, [], []⟩).2.ctx.records.map fun r => r.asserts.map (·.result)) =
    ((evalText (F := F) (refusing k) c!"request f `GET http://a/`[(status) == 500] (f())" ⟨Context.new, [], []⟩).2.ctx.records.map fun r => r.asserts.map (·.result)) := rfl

end Am
