import Verif.Proofs.Rewriting
import Verif.Props.Parens
/-!
# Usual rewritings of expressions: C116
-/
set_option linter.unusedSimpArgs false
set_option linter.unusedSectionVars false
namespace Am
open Spec
variable {F : Type} [Rt F]

/-- C116, as stated: the rewritings change nothing but the wording of errors and the text that shows how an assert is written, whatever the values of the
expressions are. -/
def RewritingsSafe (F : Type) [Rt F] : Prop :=
  ∀ (net : Net) (es es' : List (Expr F)) (s s' : St F), RewrittenList (Rule fun _ => True) es es' → SameButRewritten (Rule fun _ => True) s s' →
    SameEnd (runBlock net es s).1 (runBlock net es' s').1 ∧ SameButRewritten (Rule fun _ => True) (runBlock net es s).2 (runBlock net es' s').2

/-- The rules of C116 keep the meaning. -/
theorem meant_rule : Meant (F := F) (Rule Logical) := fun call _ _ h => rule_does call h

/-- **C116**, for one expression: with the laws of logic used only for expressions that are true or false by their form, the rewritten expression ends the
same in the same state, however the calls in it behave. -/
theorem c116_expr_partial (call : Call F) (e e' : Expr F) (h : Rewritten (Rule Logical) e e') (s : St F) :
    SameEnd (evalExpr call e s).1 (evalExpr call e' s).1 ∧ (evalExpr call e s).2 = (evalExpr call e' s).2 := rewritten_does meant_rule call h s

/-- **C116**, for blocks: also the asserts of the requests may be rewritten. -/
theorem c116_block_partial (net : Net) (es es' : List (Expr F)) (h : RewrittenList (Rule Logical) es es') (s s' : St F) (hs : SameButRewritten (Rule Logical) s s') :
    SameEnd (runBlock net es s).1 (runBlock net es' s').1 ∧ SameButRewritten (Rule Logical) (runBlock net es s).2 (runBlock net es' s').2 :=
  follows_runBlock meant_rule net h s s' hs

/-- Evaluating two texts whose items are rewritten by rules that keep the meaning. If the evaluation does not fail, the same is printed. -/
theorem meant_text {R : Expr F → Expr F → Prop} (hR : Meant R) (net : Net) (text text' : Str) (is is' : List (Item F)) (h1 : Accepted text is) (h2 : Accepted text' is')
    (h : Each (RewrittenItem R) is is') (s s' : St F) (hs : SameButRewritten R s s') :
    (evalText net text s).1 = (evalText net text' s').1 ∧
    ∃ o w w', (evalText net text s).2.out = o ++ w ∧ (evalText net text' s').2.out = o ++ w' ∧
      SameButRewritten R { (evalText net text s).2 with out := o } { (evalText net text' s').2 with out := o } ∧
      (w = w' ∨ ∃ e e', w = e ++ c!"\n" ∧ w' = e' ++ c!"\n" ∧
        (runBlock net (is.foldl addItem ⟨[], [], []⟩).exprs { s with ctx := s.ctx.extend (is.foldl addItem ⟨[], [], []⟩).requests }).1 = .err e ∧
        (runBlock net (is'.foldl addItem ⟨[], [], []⟩).exprs { s' with ctx := s'.ctx.extend (is'.foldl addItem ⟨[], [], []⟩).requests }).1 = .err e') := by
  obtain ⟨a, b⟩ := rewrittenItems_source h (src := ⟨[], [], []⟩) (src' := ⟨[], [], []⟩) .nil .nil
  have p1 := accepted_items h1
  have p2 := accepted_items h2
  generalize is.foldl addItem ⟨[], [], []⟩ = src at *
  generalize is'.foldl addItem ⟨[], [], []⟩ = src' at *
  have hx : SameButRewritten R { s with ctx := s.ctx.extend src.requests } { s' with ctx := s'.ctx.extend src'.requests } :=
    ⟨hs.variables, rewrittenDefinition_extend hs.requests b, hs.records, hs.sent, hs.out⟩
  have hb := follows_runBlock hR net a _ _ hx
  have e1 : evalText net text s = (match runBlock net src.exprs { s with ctx := s.ctx.extend src.requests } with
      | (.ok v, s) => sayLine v.display s
      | (.err e, s) => sayLine e s
      | (.panic, s) => (.panic, s)
      | (.hang, s) => (.hang, s)) := by unfold evalText; rw [p1]; rfl
  have e2 : evalText net text' s' = (match runBlock net src'.exprs { s' with ctx := s'.ctx.extend src'.requests } with
      | (.ok v, s) => sayLine v.display s
      | (.err e, s) => sayLine e s
      | (.panic, s) => (.panic, s)
      | (.hang, s) => (.hang, s)) := by unfold evalText; rw [p2]; rfl
  rw [e1, e2]
  rcases hy : runBlock net src.exprs { s with ctx := s.ctx.extend src.requests } with ⟨r, t⟩
  rcases hz : runBlock net src'.exprs { s' with ctx := s'.ctx.extend src'.requests } with ⟨r', t'⟩
  rw [hy, hz] at hb
  obtain ⟨hb1, k1, k2, k3, k4, k5⟩ := hb
  dsimp only at hb1 k1 k2 k3 k4 k5
  cases r <;> cases r' <;> first | exact (hb1 : False).elim | skip
  · rename_i v v'
    cases (hb1 : _ = _)
    exact ⟨rfl, t.out, v.display ++ c!"\n", v.display ++ c!"\n", List.append_assoc .., (List.append_assoc ..).trans (by rw [k5]), ⟨k1, k2, k3, k4, rfl⟩, .inl rfl⟩
  · rename_i m m'
    exact ⟨rfl, t.out, m ++ c!"\n", m' ++ c!"\n", List.append_assoc .., (List.append_assoc ..).trans (by rw [k5]), ⟨k1, k2, k3, k4, rfl⟩, .inr ⟨m, m', rfl, rfl, rfl, rfl⟩⟩
  · exact ⟨rfl, t.out, [], [], by simp, by simp [k5], ⟨k1, k2, k3, k4, rfl⟩, .inl rfl⟩
  · exact ⟨rfl, t.out, [], [], by simp, by simp [k5], ⟨k1, k2, k3, k4, rfl⟩, .inl rfl⟩

/-- **C116**, for texts: evaluating two texts whose items are rewritten. If the evaluation does not fail, the same is printed. -/
theorem c116_text_partial (net : Net) (text text' : Str) (is is' : List (Item F)) (h1 : Accepted text is) (h2 : Accepted text' is')
    (h : Each (RewrittenItem (Rule Logical)) is is') (s s' : St F) (hs : SameButRewritten (Rule Logical) s s') :
    (evalText net text s).1 = (evalText net text' s').1 ∧
    ∃ o w w', (evalText net text s).2.out = o ++ w ∧ (evalText net text' s').2.out = o ++ w' ∧
      SameButRewritten (Rule Logical) { (evalText net text s).2 with out := o } { (evalText net text' s').2 with out := o } ∧
      (w = w' ∨ ∃ e e', w = e ++ c!"\n" ∧ w' = e' ++ c!"\n" ∧
        (runBlock net (is.foldl addItem ⟨[], [], []⟩).exprs { s with ctx := s.ctx.extend (is.foldl addItem ⟨[], [], []⟩).requests }).1 = .err e ∧
        (runBlock net (is'.foldl addItem ⟨[], [], []⟩).exprs { s' with ctx := s'.ctx.extend (is'.foldl addItem ⟨[], [], []⟩).requests }).1 = .err e') :=
  meant_text meant_rule net text text' is is' h1 h2 h s s' hs

/-- **C116**, for tests: the two texts have tests with the same names in the same order, each with a rewritten block (what a block does is
`c116_block_partial`). -/
theorem c116_tests_partial (text text' : Str) (is is' : List (Item F)) (h1 : Accepted text is) (h2 : Accepted text' is') (h : Each (RewrittenItem (Rule Logical)) is is') :
    ∃ src src', parse (F := F) text = .ok src ∧ parse (F := F) text' = .ok src' ∧
      Each (fun p p' => p.1 = p'.1 ∧ RewrittenList (Rule Logical) p.2 p'.2) src.tests src'.tests :=
  ⟨_, _, accepted_items h1, accepted_items h2, rewrittenItems_tests h (src := ⟨[], [], []⟩) (src' := ⟨[], [], []⟩) .nil⟩

/-- **C116**, where the laws of logic end: `!` turns what counts as true into what counts as false and the other way round exactly for the values that are
no integers; an integer and its `!` both count as true. -/
theorem c116_exact (t : Token) (ht : t.kind = .Not) (v : Value F) :
    (∃ w, unaryValue t v = .ok w ∧ w.falsy = !v.falsy) ↔ ∀ i, v ≠ .int i := by
  unfold unaryValue
  rw [ht]
  constructor
  · rintro ⟨w, h1, h2⟩ i rfl
    cases h1
    cases h2
  · intro h
    cases v with
    | null => exact ⟨_, rfl, rfl⟩
    | int i => exact absurd rfl (h i)
    | float f => exact ⟨_, rfl, rfl⟩
    | bool b => cases b <;> exact ⟨_, rfl, rfl⟩
    | str s => exact ⟨_, rfl, rfl⟩
    | arr l => exact ⟨_, rfl, rfl⟩
    | map l => exact ⟨_, rfl, rfl⟩

/-- **C116** is false for all values: `if (!5) {1} else {2}` is 1, and `if (5) {2} else {1}` is 2. -/
theorem c116_false : ¬RewritingsSafe F := by
  intro h
  have := (h ⟨fun _ _ => .refused .hostNotFound ⟨0, 0, 0, 0, 0, 0, 0, 0, 0, 0⟩, fun _ => none⟩
    [.ifE (.unary ⟨.Not, c!"!"⟩ (.int 5)) [.int 1] [.int 2]] [.ifE (.int 5) [.int 2] [.int 1]] ⟨Context.new, [], []⟩ ⟨Context.new, [], []⟩
    (.cons (.rule (.exchange _ _ _ _ trivial rfl)) .nil) ⟨rfl, .nil, .nil, rfl, rfl⟩).1
  change (Value.int 1 : Value F) = .int 2 at this
  injection this with this
  exact absurd this (by decide)

/-- The same as texts. -/
theorem c116_false_text (net : Net) :
    (evalText (F := F) net c!"if (!5) {1} else {2}" ⟨Context.new, [], []⟩).2.out = c!"1\n" ∧
    (evalText (F := F) net c!"if (5) {2} else {1}" ⟨Context.new, [], []⟩).2.out = c!"2\n" := ⟨rfl, rfl⟩

/-- The law of De Morgan fails for integers as well: `!(5 && 6)` is -7, `!5 || !6` is -6. -/
theorem c116_false_logic (net : Net) :
    (evalText (F := F) net c!"!(5 && 6)" ⟨Context.new, [], []⟩).2.out = c!"-7\n" ∧
    (evalText (F := F) net c!"!5 || !6" ⟨Context.new, [], []⟩).2.out = c!"-6\n" := ⟨rfl, rfl⟩

/-- Concrete case: `if (!(r.status == 400 + 4)) {f(r.x)} else {g()}` and `if (r["status"] != 404) {f(r["x"])} else {g()}`. -/
example : Rewritten (F := F) (Rule Logical)
    (.ifE (.unary ⟨.Not, c!"!"⟩ (.paren (.binary ⟨.Eq, c!"=="⟩ (.field (.ident c!"r") c!"status") (.binary ⟨.Add, c!"+"⟩ (.int 400) (.int 4)))))
      [.call c!"f" [.field (.ident c!"r") c!"x"]] [.call c!"g" []])
    (.ifE (.binary ⟨.Ne, c!"!="⟩ (.index (.ident c!"r") (.str c!"status")) (.int 404))
      [.call c!"f" [.index (.ident c!"r") (.str c!"x")]] [.call c!"g" []]) := by
  refine .ifE (.also (.rule (.notEqual _ _ ⟨.Ne, c!"!="⟩ _ _ rfl rfl rfl)) (.binary _ (.rule (.field _ _)) (.rule (.constant _ _ _ _ (.int 400) (.int 4) (.int 404) (.int _) (.int _) (.int _) ?_))))
    (.cons (.call _ (.cons (.rule (.field _ _)) .nil)) .nil) (.cons (.same _) .nil)
  exact (operates_iff (k := .Add) rfl (.int _) (.int _) _).2 (by
    change _ = (do let i ← checked F ((400 : Int64).toInt + (4 : Int64).toInt); pure (.int i) : Res (Value F))
    rw [show (400 : Int64).toInt + (4 : Int64).toInt = 404 by decide]
    unfold checked
    rw [if_pos (by decide)]
    rfl)

/-- Concrete case: an assert with rewritten sides. -/
example : Each (RewrittenItem (F := F) (Rule Logical))
    [.request c!"f" c!"GET http://a/" [.binary ⟨.Eq, c!"=="⟩ (.field (.ident c!"json") c!"ok") (.bool true)], .expr (.call c!"f" [])]
    [.request c!"f" c!"GET http://a/" [.binary ⟨.Eq, c!"=="⟩ (.index (.ident c!"json") (.str c!"ok")) (.bool true)], .expr (.call c!"f" [])] :=
  .cons (.request _ _ (.cons (.sides _ (.rule (.field _ _)) (.same _)) .nil)) (.cons (.expr (.same _)) .nil)

end Am
