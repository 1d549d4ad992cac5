import Verif.Proofs.Operands
import Verif.Props.Rewriting
import Verif.Props.FloatOrder
/-!
# Exchanged and regrouped operands: C121
-/
set_option linter.unusedSimpArgs false
set_option linter.unusedSectionVars false
namespace Am
open Spec
variable {F : Type} [Rt F]

/-- C121, as stated: the exchanges change nothing but the wording of errors and the text that shows how an assert is written, whatever the operands do. -/
def ExchangesSafe (F : Type) [Rt F] : Prop :=
  ∀ (net : Net) (es es' : List (Expr F)) (s s' : St F), RewrittenList (Turned fun _ _ => True) es es' → SameButRewritten (Turned fun _ _ => True) s s' →
    SameEnd (runBlock net es s).1 (runBlock net es' s').1 ∧ SameButRewritten (Turned fun _ _ => True) (runBlock net es s).2 (runBlock net es' s').2

/-- **C121**, the numbers: with IEEE 754 doubles sums and products do not depend on the order. -/
theorem c121_floats (b : Build) : @FloatsCommute F64 (rt64 b) := by
  constructor
  · intro x y
    show F64.add x y = F64.add y x
    cases x <;> cases y <;> simp only [F64.add]
    · rename_i s t
      by_cases h : s = t
      · subst h; rfl
      · rw [if_neg h, if_neg (Ne.symm h)]
    · rename_i s m e _ t n d _
      rw [Int.add_comm, Bool.and_comm]
  · intro x y
    show F64.mul x y = F64.mul y x
    cases x <;> cases y <;> simp only [F64.mul]
    · rename_i s t
      rw [bne_comm]
    · rename_i s t n _ _
      rw [bne_comm]
    · rename_i s m _ _ t
      rw [bne_comm]
    · rename_i s m e _ t n d _
      rw [bne_comm, Nat.mul_comm]

/-- **C121**, for one expression: the expression with exchanged operands ends the same in the same state, however the calls in it behave. -/
theorem c121_expr_partial (hc : FloatsCompare F) (hf : FloatsCommute F) (call : Call F) (e e' : Expr F) (h : Rewritten (Turned OrderFree) e e') (s : St F) :
    SameEnd (evalExpr call e s).1 (evalExpr call e' s).1 ∧ (evalExpr call e s).2 = (evalExpr call e' s).2 := rewritten_does (meant_turned hc hf) call h s

/-- **C121**, for blocks: also in the sides of the asserts of requests. -/
theorem c121_block_partial (hc : FloatsCompare F) (hf : FloatsCommute F) (net : Net) (es es' : List (Expr F)) (h : RewrittenList (Turned OrderFree) es es') (s s' : St F)
    (hs : SameButRewritten (Turned OrderFree) s s') :
    SameEnd (runBlock net es s).1 (runBlock net es' s').1 ∧ SameButRewritten (Turned OrderFree) (runBlock net es s).2 (runBlock net es' s').2 :=
  follows_runBlock (meant_turned hc hf) net h s s' hs

/-- **C121**, for texts: evaluating two texts that differ in such exchanges. If the evaluation does not fail, the same is printed. -/
theorem c121_text_partial (hc : FloatsCompare F) (hf : FloatsCommute F) (net : Net) (text text' : Str) (is is' : List (Item F)) (h1 : Accepted text is)
    (h2 : Accepted text' is') (h : Each (RewrittenItem (Turned OrderFree)) is is') (s s' : St F) (hs : SameButRewritten (Turned OrderFree) s s') :
    (evalText net text s).1 = (evalText net text' s').1 ∧
    ∃ o w w', (evalText net text s).2.out = o ++ w ∧ (evalText net text' s').2.out = o ++ w' ∧
      SameButRewritten (Turned OrderFree) { (evalText net text s).2 with out := o } { (evalText net text' s').2 with out := o } ∧
      (w = w' ∨ ∃ e e', w = e ++ c!"\n" ∧ w' = e' ++ c!"\n" ∧
        (runBlock net (is.foldl addItem ⟨[], [], []⟩).exprs { s with ctx := s.ctx.extend (is.foldl addItem ⟨[], [], []⟩).requests }).1 = .err e ∧
        (runBlock net (is'.foldl addItem ⟨[], [], []⟩).exprs { s' with ctx := s'.ctx.extend (is'.foldl addItem ⟨[], [], []⟩).requests }).1 = .err e') :=
  meant_text (meant_turned hc hf) net text text' is is' h1 h2 h s s' hs

/-- **C121**, for tests: the two texts have tests with the same names in the same order, each with such a block (what a block does is
`c121_block_partial`). -/
theorem c121_tests_partial (text text' : Str) (is is' : List (Item F)) (h1 : Accepted text is) (h2 : Accepted text' is') (h : Each (RewrittenItem (Turned OrderFree)) is is') :
    ∃ src src', parse (F := F) text = .ok src ∧ parse (F := F) text' = .ok src' ∧
      Each (fun p p' => p.1 = p'.1 ∧ RewrittenList (Turned OrderFree) p.2 p'.2) src.tests src'.tests :=
  ⟨_, _, accepted_items h1, accepted_items h2, rewrittenItems_tests h (src := ⟨[], [], []⟩) (src' := ⟨[], [], []⟩) .nil⟩

/-- **C121**, sums of any values: the order matters exactly for two texts that do not commute. -/
theorem c121_sum (hf : FloatsCommute F) (a b : Value F) : SameEnd (a.add b) (b.add a) ↔ ∀ s t, a = .str s → b = .str t → s ++ t = t ++ s := add_swap hf a b

/-- Concrete case: two sums, of a number and of texts. -/
example : (∀ s t, (.int 1 : Value F) = .str s → (.str c!"a" : Value F) = .str t → s ++ t = t ++ s) ∧
    ¬∀ s t, (.str c!"b" : Value F) = .str s → (.str c!"a" : Value F) = .str t → s ++ t = t ++ s :=
  ⟨fun _ _ h => (by cases h), fun h => absurd (h _ _ rfl rfl) (by decide)⟩

/-- What is the same is the same the other way round. -/
theorem same_swap (hc : FloatsCompare F) {a b : Value F} (h : Same a b) : Same b a := by
  induction h with
  | null => exact .null
  | int i => exact .int i
  | float h => exact .float (by rw [feq_swap hc]; exact h)
  | bool b => exact .bool b
  | str s => exact .str s
  | arr h _ ih => exact .arr h.symm fun i a b ha hb => ih i b a hb ha
  | map h _ ih => exact .map (fun k => (h k).symm) fun k a b ha hb => ih k b a hb ha

/-- **C121**, `==` and `!=` of any values a script can have (maps without repeated keys): the order does not matter. -/
theorem c121_equal (hc : FloatsCompare F) (a b : Value F) (ha : Proper a) (hb : Proper b) : a.eq b = b.eq a := by
  rw [Bool.eq_iff_iff, c26_equal a b ha hb, c26_equal b a hb ha]
  exact ⟨same_swap hc, same_swap hc⟩

/-- Concrete case: two maps with the same pairs in another order. -/
example : (Value.map [(c!"a", .int 1), (c!"b", .null)] : Value F).eq (.map [(c!"b", .null), (c!"a", .int 1)]) = true ∧
    (Value.map [(c!"b", .null), (c!"a", .int 1)] : Value F).eq (.map [(c!"a", .int 1), (c!"b", .null)]) = true := ⟨rfl, rfl⟩

theorem compare_swap (hc : FloatsCompare F) {k k' : Kind} {a b : Value F}
    (hk : k = .Lt ∧ k' = .Gt ∨ k = .Gt ∧ k' = .Lt ∨ k = .Le ∧ k' = .Ge ∨ k = .Ge ∧ k' = .Le ∨
      a.eq b = b.eq a ∧ (k = .Eq ∧ k' = .Eq ∨ k = .Ne ∧ k' = .Ne)) : ∃ v, compareValues k a b = some v ∧ compareValues k' b a = some v := by
  rcases hk with ⟨rfl, rfl⟩ | ⟨rfl, rfl⟩ | ⟨rfl, rfl⟩ | ⟨rfl, rfl⟩ | ⟨h, ⟨rfl, rfl⟩ | ⟨rfl, rfl⟩⟩
  · exact ⟨_, rfl, congrArg some (lt_swap hc a b).symm⟩
  · exact ⟨_, rfl, congrArg some (lt_swap hc b a)⟩
  · exact ⟨_, rfl, congrArg some (le_swap hc a b).symm⟩
  · exact ⟨_, rfl, congrArg some (le_swap hc b a)⟩
  · exact ⟨_, rfl, congrArg some h.symm⟩
  · exact ⟨_, rfl, congrArg (fun x => some (!x)) h.symm⟩

theorem evalAsserts_one (call : Call F) (t : Token) (l r : Expr F) : evalAsserts call [.binary t l r] =
    M.bind ((evalExpr call l).orElse .null) fun a => M.bind ((evalExpr call r).orElse .null) fun b => M.lift (.ok (match compareValues t.kind a b with
      | some result => [⟨l.display ++ c!" " ++ t.literal ++ c!" " ++ r.display, a.display, t.literal, b.display, result⟩]
      | none => [])) := by
  simp only [evalAsserts]
  show M.bind _ _ = M.bind _ _
  congr 1
  funext a
  show M.bind _ _ = M.bind _ _
  congr 1
  funext b
  cases compareValues t.kind a b <;> rfl

/-- **C121**, an assert with exchanged sides: the same verdict, with the two values shown the other way round. -/
theorem c121_assert (hc : FloatsCompare F) (call : Call F) (t u : Token) (l r : Expr F) (h : OrderFree l r)
    (hk : t.kind = .Lt ∧ u.kind = .Gt ∨ t.kind = .Gt ∧ u.kind = .Lt ∨ t.kind = .Le ∧ u.kind = .Ge ∨ t.kind = .Ge ∧ u.kind = .Le ∨
      (IsLiteral l ∨ IsLiteral r) ∧ (t.kind = .Eq ∧ u.kind = .Eq ∨ t.kind = .Ne ∧ u.kind = .Ne)) (s : St F) :
    (evalAsserts call [.binary t l r] s).2 = (evalAsserts call [.binary u r l] s).2 ∧
    ((∃ a a', (evalAsserts call [.binary t l r] s).1 = .ok [a] ∧ (evalAsserts call [.binary u r l] s).1 = .ok [a'] ∧
        a.result = a'.result ∧ a.left = a'.right ∧ a.right = a'.left) ∨
      (evalAsserts call [.binary t l r] s).1 = .panic ∧ (evalAsserts call [.binary u r l] s).1 = .panic ∨
      (evalAsserts call [.binary t l r] s).1 = .hang ∧ (evalAsserts call [.binary u r l] s).1 = .hang) := by
  rw [evalAsserts_one, evalAsserts_one]
  have lit : ∀ {e : Expr F} {v : Value F}, WrittenValue e v → ∀ s, (evalExpr call e).orElse .null s = (.ok v, s) := by
    intro e v h s
    unfold M.orElse
    rw [literal_rests call h s]
  have plain : ∀ {e : Expr F}, PlainExpr e → ∀ s, ∃ v, (evalExpr call e).orElse .null s = (.ok v, s) := by
    intro e h s
    unfold M.orElse
    rcases plain_rests call h s with ⟨v, h⟩ | ⟨v, h⟩ <;> rw [h] <;> exact ⟨_, rfl⟩
  have nerr : ∀ (e : Expr F) (s : St F) m, ((evalExpr call e).orElse .null s).1 ≠ .err m := by
    intro e s m
    unfold M.orElse
    rcases evalExpr call e s with ⟨x, u⟩
    cases x <;> exact fun h => (by cases h)
  have fin : ∀ (a b : Value F) (x y : Str) (s' : St F), ((IsLiteral l ∨ IsLiteral r) → a.eq b = b.eq a) →
      ∃ v v' : Assert, (match compareValues t.kind a b with | some result => [(⟨x, a.display, t.literal, b.display, result⟩ : Assert)] | none => []) = [v] ∧
        (match compareValues u.kind b a with | some result => [(⟨y, b.display, u.literal, a.display, result⟩ : Assert)] | none => []) = [v'] ∧
        v.result = v'.result ∧ v.left = v'.right ∧ v.right = v'.left := by
    intro a b x y _ heq
    obtain ⟨v, h1, h2⟩ := compare_swap (k := t.kind) (k' := u.kind) hc (a := a) (b := b) (by
      rcases hk with h | h | h | h | ⟨h, h'⟩
      · exact .inl h
      · exact .inr (.inl h)
      · exact .inr (.inr (.inl h))
      · exact .inr (.inr (.inr (.inl h)))
      · exact .inr (.inr (.inr (.inr ⟨heq h, h'⟩))))
    rw [h1, h2]
    exact ⟨_, _, rfl, rfl, rfl, rfl, rfl⟩
  unfold M.bind
  rcases h with ⟨v, h⟩ | ⟨v, h⟩ | ⟨h1, h2⟩
  · rw [lit h s]
    dsimp only
    have ne := nerr r s
    rcases hx : (evalExpr call r).orElse .null s with ⟨x, s1⟩
    rw [hx] at ne
    cases x with
    | ok b =>
      dsimp only
      rw [lit h s1]
      obtain ⟨w, w', k1, k2, k3⟩ := fin v b (l.display ++ c!" " ++ t.literal ++ c!" " ++ r.display) (r.display ++ c!" " ++ u.literal ++ c!" " ++ l.display) s1 fun _ => eq_swap_written hc h b
      exact ⟨rfl, .inl ⟨w, w', congrArg Res.ok k1, congrArg Res.ok k2, k3⟩⟩
    | err m => exact absurd rfl (ne m)
    | panic => exact ⟨rfl, .inr (.inl ⟨rfl, rfl⟩)⟩
    | hang => exact ⟨rfl, .inr (.inr ⟨rfl, rfl⟩)⟩
  · rw [lit h s]
    dsimp only
    have ne := nerr l s
    rcases hx : (evalExpr call l).orElse .null s with ⟨x, s1⟩
    rw [hx] at ne
    cases x with
    | ok a =>
      dsimp only
      rw [lit h s1]
      obtain ⟨w, w', k1, k2, k3⟩ := fin a v (l.display ++ c!" " ++ t.literal ++ c!" " ++ r.display) (r.display ++ c!" " ++ u.literal ++ c!" " ++ l.display) s1 fun _ => (eq_swap_written hc h a).symm
      exact ⟨rfl, .inl ⟨w, w', congrArg Res.ok k1, congrArg Res.ok k2, k3⟩⟩
    | err m => exact absurd rfl (ne m)
    | panic => exact ⟨rfl, .inr (.inl ⟨rfl, rfl⟩)⟩
    | hang => exact ⟨rfl, .inr (.inr ⟨rfl, rfl⟩)⟩
  · obtain ⟨a, ha⟩ := plain h1 s
    obtain ⟨b, hb⟩ := plain h2 s
    rw [ha, hb]
    dsimp only
    rw [ha, hb]
    obtain ⟨w, w', k1, k2, k3⟩ := fin a b (l.display ++ c!" " ++ t.literal ++ c!" " ++ r.display) (r.display ++ c!" " ++ u.literal ++ c!" " ++ l.display) s (by
      rintro (⟨v, h⟩ | ⟨v, h⟩)
      · have := lit h s; rw [ha] at this; cases this; exact eq_swap_written hc h b
      · have := lit h s; rw [hb] at this; cases this; exact (eq_swap_written hc h a).symm)
    exact ⟨rfl, .inl ⟨w, w', congrArg Res.ok k1, congrArg Res.ok k2, k3⟩⟩

/-- Concrete case: the asserts `status == 200` and `200 == status`, `time < x.limit` and `x.limit > time`. -/
example : OrderFree (F := F) (.ident c!"status") (.int 200) ∧ OrderFree (F := F) (.ident c!"time") (.field (.ident c!"x") c!"limit") :=
  ⟨.inr (.inl ⟨_, .int _⟩), .inr (.inr ⟨⟨rfl, rfl, fun _ h => (by cases h)⟩, rfl, rfl, fun _ h => (by cases h)⟩)⟩

/-- **C121** is false for all operands: what they print is printed in the other order. -/
theorem c121_false : ¬ExchangesSafe F := by
  intro h
  have := (h ⟨fun _ _ => .refused .hostNotFound ⟨0, 0, 0, 0, 0, 0, 0, 0, 0, 0⟩, fun _ => none⟩
    [.binary ⟨.Lt, c!"<"⟩ (.call c!"println" [.str c!"a"]) (.call c!"println" [.str c!"b"])] [.binary ⟨.Gt, c!">"⟩ (.call c!"println" [.str c!"b"]) (.call c!"println" [.str c!"a"])]
    ⟨Context.new, [], []⟩ ⟨Context.new, [], []⟩ (.cons (.rule (.less _ _ _ _ trivial rfl rfl)) .nil) ⟨rfl, .nil, .nil, rfl, rfl⟩).2.out
  exact absurd (show c!"a\nb\n" = c!"b\na\n" from this) (by decide)

/-- The same as texts; and an operand that crashes next to one that fails: `x * (1 / 0)` fails, `(1 / 0) * x` crashes. -/
theorem c121_false_text (net : Net) :
    (evalText (F := F) net c!"println(\"a\") < println(\"b\")" ⟨Context.new, [], []⟩).2.out = c!"a\nb\nfalse\n" ∧
    (evalText (F := F) net c!"println(\"b\") > println(\"a\")" ⟨Context.new, [], []⟩).2.out = c!"b\na\nfalse\n" ∧
    (evalText (F := F) net c!"x * (1 / 0)" ⟨Context.new, [], []⟩).1 = .ok () ∧
    (evalText (F := F) net c!"(1 / 0) * x" ⟨Context.new, [], []⟩).1 = .panic := ⟨rfl, rfl, rfl, rfl⟩

/-- Concrete case: `if (200 <= r.status) {f(1 + g())} else {"a" + "b" + s}` and `if (r.status >= 200) {f(g() + 1)} else {"a" + ("b" + s)}`. -/
example : Rewritten (F := F) (Turned OrderFree)
    (.ifE (.binary ⟨.Le, c!"<="⟩ (.int 200) (.field (.ident c!"r") c!"status")) [.call c!"f" [.binary ⟨.Add, c!"+"⟩ (.int 1) (.call c!"g" [])]]
      [.binary ⟨.Add, c!"+"⟩ (.binary ⟨.Add, c!"+"⟩ (.str c!"a") (.str c!"b")) (.ident c!"s")])
    (.ifE (.binary ⟨.Ge, c!">="⟩ (.field (.ident c!"r") c!"status") (.int 200)) [.call c!"f" [.binary ⟨.Add, c!"+"⟩ (.call c!"g" []) (.int 1)]]
      [.binary ⟨.Add, c!"+"⟩ (.str c!"a") (.paren (.binary ⟨.Add, c!"+"⟩ (.str c!"b") (.ident c!"s")))]) :=
  .ifE (.rule (.atMost _ _ _ _ (.inl ⟨_, .int _⟩) rfl rfl)) (.cons (.call _ (.cons (.rule (.sum _ _ _ (.inl ⟨_, rfl⟩) rfl)) .nil)) .nil)
    (.cons (.rule (.joined _ _ _ _ _ _ _ ⟨rfl, rfl, fun _ h => by cases h⟩ rfl rfl rfl rfl)) .nil)

/-- Concrete case: two operands that are no literals, `a.n < b & 3` and `(b & 3) > a.n`. -/
example : OrderFree (F := F) (.field (.ident c!"a") c!"n") (.binary ⟨.Ba, c!"&"⟩ (.ident c!"b") (.int 3)) := by
  refine .inr (.inr ⟨⟨rfl, rfl, fun _ h => by cases h⟩, rfl, rfl, fun o h => ?_⟩)
  simp only [ops, List.mem_cons, List.append_nil, List.not_mem_nil, or_false] at h
  subst h
  simp [SafeOp]

end Am
